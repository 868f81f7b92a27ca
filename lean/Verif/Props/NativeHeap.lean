import Verif.Lemmas.NativeHeap

/-!
# C94: native memory taken by a call is released, whether the call returns or raises

The heap is the set `live` of the blocks in use.  A call with an SLQ method takes memory for the function object, the
operator, the samples, the random vectors and the random number generators.  The theorems say which of it is still in use
when the call has ended.
-/

namespace Imate.Props

open Imate.Args Imate.Lanczos Imate.NativeHeap

/-! ### The specification -/

/-- A call reaches the native code: no check, no construction and no conversion raises. -/
def ReachesNative (dtype : DType) (c : Call) : Prop :=
  c.firstCheck = none ∧ c.checks = none ∧ c.build = none ∧ dtype ≠ .other ∧ c.convert = none

/-- A call returns. -/
def Returns (dtype : DType) (c : Call) : Prop := ReachesNative dtype c ∧ c.finish = none

/-- The blocks that the samples of a run leave behind (`leaked_blocks`, C29). -/
def samplesLeak (c : Call) : ℕ :=
  (c.samples.map fun s => (leakedBlocks s.gram s.relationKnown c.numInquiries s.converged).length).sum

/-- With one inquiry the samples leave nothing behind. -/
theorem samplesLeak_one {c : Call} (h1 : c.numInquiries = 1) : samplesLeak c = 0 := by
  unfold samplesLeak
  rw [List.sum_eq_zero]
  intro x hx
  obtain ⟨s, _, rfl⟩ := List.mem_map.1 hx
  rw [h1, sample_releases_memory_partial]
  rfl

/-! ### The parts of a call -/

/-- C94: a random number generator returns all its memory, for every number of threads; this is all the native memory that
the Hutchinson method takes. -/
theorem generator_releases (threads : ℕ) {h : Heap} (hh : h.Ok) :
    ∃ h', generateRandomArray threads h = .ok (.ok (), h') ∧ h'.live = h.live := by
  obtain ⟨h1, e1, g1⟩ := newBlock_spec hh
  obtain ⟨r, h2, e2, g2, hn⟩ := newRng_spec threads g1.ok
  have hd := Finset.disjoint_left.1 (g1.disj g2) (Finset.mem_singleton_self _)
  obtain ⟨h3, e3, g3⟩ := deleteBlocks_spec hh _ (g1.trans g2) hn
    (fun p hp => Finset.mem_union_right _ (List.mem_toFinset.2 hp))
  obtain ⟨h4, e4, g4⟩ := deleteBlock_spec hh g3 (p := h.next) (by simpa using hd)
  refine ⟨h4, ?_, ?_⟩
  · simp only [generateRandomArray, bind_apply, e1, e2, deleteRng_eq, e3, e4]
  · rw [g4.live]
    ext x
    simp only [Finset.mem_union, Finset.mem_erase, Finset.mem_sdiff, Finset.mem_singleton]
    tauto

/-- C94: an operator object takes one block and returns it when it ends; if its construction raises, nothing stays in
use and nothing is released that was not taken. -/
theorem operator_released_once (dtype : DType) (failure : Option PyExc) {h : Heap} (hh : h.Ok) :
    (∃ e, newOperator dtype failure h = .ok (.error e, h)) ∨
    ∃ o h1 h2, newOperator dtype failure h = .ok (.ok o, h1) ∧ h1.live.card = h.live.card + 1 ∧
      o.dealloc h1 = .ok (.ok (), h2) ∧ h2.live = h.live := by
  cases hb : buildError dtype failure with
  | some e => exact .inl ⟨e, newOperator_error hb h⟩
  | none =>
    obtain ⟨o, h1, e1, g1, w⟩ := newOperator_spec hb hh
    obtain ⟨h2, e2, g2⟩ := w.dealloc hh g1 (Finset.mem_singleton_self _)
    refine .inr ⟨o, h1, h2, e1, by simpa using g1.card hh, e2, ?_⟩
    rw [g2.live]; simp

/-! ### One call -/

/-- The blocks left behind by a call with a matrix. -/
def callLeak (dtype : DType) (c : Call) : ℕ :=
  if c.firstCheck.isSome then 0
  else if c.checks.isSome || (c.build.isSome || decide (dtype = .other)) || c.convert.isSome then 1
  else samplesLeak c + if c.finish.isSome then 1 else 0

theorem slqMethod_pass {estimator : Act Unit} {h h1 h2 : Heap} (e1 : newBlock h = .ok (.ok h.next, h1))
    (e2 : estimator h1 = .ok (.ok (), h2)) :
    slqMethod none estimator h = deleteBlock h.next h2 := by
  simp only [slqMethod, bind_apply, raiseOpt_none, e1, e2]

theorem slqMethod_raise {estimator : Act Unit} {h h1 h2 : Heap} {e : PyExc} (e1 : newBlock h = .ok (.ok h.next, h1))
    (e2 : estimator h1 = .ok (.error e, h2)) :
    slqMethod none estimator h = .ok (.error e, h2) := by
  simp only [slqMethod, bind_apply, raiseOpt_none, e1, e2]

theorem traceEstimatorMatrix_spec {c : Call} (hnum : 1 ≤ c.numInquiries) (dtype : DType) {h : Heap} (hh : h.Ok) :
    ∃ r h' S, traceEstimatorMatrix c dtype h = .ok (r, h') ∧ Grows h h' S ∧
      (r = .ok () ↔ c.checks = none ∧ c.build = none ∧ dtype ≠ .other ∧ c.convert = none ∧ c.finish = none) ∧
      S.card = if c.checks.isSome || (c.build.isSome || decide (dtype = .other)) || c.convert.isSome then 0
        else samplesLeak c := by
  cases hc : c.checks with
  | some e =>
    refine ⟨.error e, h, ∅, ?_, Grows.refl hh, by simp, by simp⟩
    simp only [traceEstimatorMatrix, bind_apply, hc, raiseOpt_some]
  | none =>
    cases hb : buildError dtype c.build with
    | some e =>
      have hbad : (c.build.isSome || decide (dtype = .other)) = true := by
        unfold buildError at hb
        cases hx : c.build with
        | some x => simp
        | none => rw [hx] at hb; simp at hb; simp [hb.1]
      refine ⟨.error e, h, ∅, ?_, Grows.refl hh, ?_, by simp [hbad]⟩
      · simp only [traceEstimatorMatrix, bind_apply, hc, raiseOpt_none, newOperator_error hb]
      · constructor
        · simp
        · rintro ⟨_, h1, h2, _⟩
          simp [h1, h2] at hbad
    | none =>
      obtain ⟨hb1, hb2⟩ : c.build = none ∧ dtype ≠ .other := by
        unfold buildError at hb
        cases hx : c.build with
        | some x => rw [hx] at hb; simp at hb
        | none => rw [hx] at hb; simp at hb; exact ⟨rfl, hb⟩
      obtain ⟨o, h1, e1, g1, w⟩ := newOperator_spec hb hh
      cases hv : c.convert with
      | some e =>
        obtain ⟨h2, e2, g2⟩ := w.dealloc hh g1 (Finset.mem_singleton_self _)
        refine ⟨.error e, h2, _, ?_, g2, by simp, by simp⟩
        simp only [traceEstimatorMatrix, bind_apply, hc, raiseOpt_none, e1, Act.finally,
          pycTraceEstimator_error hv, e2]
      | none =>
        obtain ⟨L, h2, e2, g2, hL⟩ := pycTraceEstimator_spec hv hnum w g1.ok
        replace hL : L.card = samplesLeak c := hL
        obtain ⟨h3, e3, g3⟩ := w.dealloc hh (g1.trans g2) (Finset.mem_union_left _ (Finset.mem_singleton_self _))
        have hS : ({h.next} ∪ L).erase h.next = L := by
          have := Finset.disjoint_left.1 (g1.disj g2) (Finset.mem_singleton_self _)
          ext x
          simp only [Finset.mem_erase, Finset.mem_union, Finset.mem_singleton]
          constructor
          · tauto
          · exact fun hx => ⟨fun e => this (e ▸ hx), .inr hx⟩
        rw [hS] at g3
        cases hf : c.finish with
        | some e =>
          refine ⟨.error e, h3, L, ?_, g3, by simp, ?_⟩
          · simp only [traceEstimatorMatrix, bind_apply, hc, raiseOpt_none, e1, Act.finally, e2, hf, raiseOpt_some, e3]
          · simpa [hb1, hb2] using hL
        | none =>
          refine ⟨.ok (), h3, L, ?_, g3, by simp [hb1, hb2], ?_⟩
          · simp only [traceEstimatorMatrix, bind_apply, hc, raiseOpt_none, e1, Act.finally, e2, hf, e3]
          · simpa [hb1, hb2] using hL

theorem slqMethod_spec {c : Call} (hnum : 1 ≤ c.numInquiries) (dtype : DType) {h : Heap} (hh : h.Ok) :
    ∃ r h' S, slqMethod c.firstCheck (traceEstimatorMatrix c dtype) h = .ok (r, h') ∧ Grows h h' S ∧
      (r = .ok () ↔ Returns dtype c) ∧ S.card = callLeak dtype c := by
  cases h0 : c.firstCheck with
  | some e =>
    refine ⟨.error e, h, ∅, ?_, Grows.refl hh, by simp [Returns, ReachesNative, h0], by simp [callLeak, h0]⟩
    simp only [slqMethod, bind_apply, raiseOpt_some]
  | none =>
    obtain ⟨h1, e1, g1⟩ := newBlock_spec hh
    obtain ⟨r, h2, S, e2, g2, hr, hS⟩ := traceEstimatorMatrix_spec hnum dtype g1.ok
    have hn := Finset.disjoint_left.1 (g1.disj g2) (Finset.mem_singleton_self _)
    cases r with
    | error e =>
      refine ⟨.error e, h2, _, slqMethod_raise e1 e2, g1.trans g2, ?_, ?_⟩
      · simp only [reduceCtorEq, false_iff] at hr
        simp only [reduceCtorEq, false_iff, Returns, ReachesNative, h0, true_and]
        tauto
      · rw [Finset.card_union_of_disjoint (g1.disj g2), Finset.card_singleton, hS, callLeak, h0]
        simp only [Option.isSome_none, Bool.false_eq_true, if_false]
        split
        · rfl
        · next hx =>
          have : c.finish.isSome = true := by
            by_contra hf
            simp only [Bool.or_eq_true, not_or, decide_eq_true_eq, Option.not_isSome_iff_eq_none] at hx hf
            exact absurd (hr.2 ⟨hx.1.1, hx.1.2.1, hx.1.2.2, hx.2, hf⟩) (by simp)
          simp [this, add_comm]
    | ok u =>
      obtain ⟨h3, e3, g3⟩ := deleteBlock_spec hh (g1.trans g2)
        (Finset.mem_union_left _ (Finset.mem_singleton_self _))
      have hr' := hr.1 rfl
      refine ⟨.ok (), h3, _, (slqMethod_pass e1 e2).trans e3, g3, ?_, ?_⟩
      · simp only [true_iff, Returns, ReachesNative, h0]
        tauto
      · have : ({h.next} ∪ S).erase h.next = S := by
          ext x
          simp only [Finset.mem_erase, Finset.mem_union, Finset.mem_singleton]
          constructor
          · tauto
          · exact fun hx => ⟨fun e => hn (e ▸ hx), .inr hx⟩
        rw [this, hS, callLeak, h0, hr'.1, hr'.2.1, hr'.2.2.2.1, hr'.2.2.2.2]
        simp [hr'.2.2.1]

/-- C94 (partial: one inquiry, and only calls that return): a call that returns leaves exactly the blocks in use that were
in use before, for every number of threads, of samples and every schedule. -/
theorem returning_call_releases_partial {c : Call} (h1 : c.numInquiries = 1) {dtype : DType} (hr : Returns dtype c)
    {h : Heap} (hh : h.Ok) :
    ∃ h', slqMethod c.firstCheck (traceEstimatorMatrix c dtype) h = .ok (.ok (), h') ∧ h'.live = h.live := by
  obtain ⟨r, h', S, e, g, hret, hS⟩ := slqMethod_spec (c := c) h1.ge dtype hh
  obtain rfl := hret.2 hr
  refine ⟨h', e, ?_⟩
  obtain ⟨⟨a, b, c', d, f⟩, k⟩ := hr
  have : S = ∅ := by
    rw [← Finset.card_eq_zero, hS, callLeak, a, b, c', f, k, samplesLeak_one h1]
    simp [d]
  rw [g.live, this, Finset.union_empty]

/-- C94 refuted for exceptions: a call that raises after the first check leaves the function object in use, and nothing
else (with one inquiry).  This is so for every argument that `trace_estimator` refuses, for a matrix the operator refuses,
for a number that does not fit and for a plot that fails. -/
theorem raising_call_leaks {c : Call} (h1 : c.numInquiries = 1) {dtype : DType} (h0 : c.firstCheck = none)
    (hr : ¬ Returns dtype c) {h : Heap} (hh : h.Ok) :
    ∃ e h' f, slqMethod c.firstCheck (traceEstimatorMatrix c dtype) h = .ok (.error e, h') ∧ f ∉ h.live ∧
      h'.live = insert f h.live := by
  obtain ⟨r, h', S, e, g, hret, hS⟩ := slqMethod_spec (c := c) h1.ge dtype hh
  cases r with
  | ok u => exact absurd (hret.1 rfl) hr
  | error x =>
    have : S.card = 1 := by
      rw [hS, callLeak, h0, samplesLeak_one h1]
      simp only [Option.isSome_none, Bool.false_eq_true, if_false, Nat.zero_add]
      split
      · rfl
      · next hx =>
        rw [if_pos]
        by_contra hf
        simp only [Bool.or_eq_true, not_or, decide_eq_true_eq, Option.not_isSome_iff_eq_none] at hx hf
        exact hr ⟨⟨h0, hx.1.1, hx.1.2.1, hx.1.2.2, hx.2⟩, hf⟩
    obtain ⟨f, rfl⟩ := Finset.card_eq_one.1 this
    refine ⟨x, h', f, e, g.notMem hh f (Finset.mem_singleton_self _), ?_⟩
    rw [g.live]
    ext y; simp

/-- C94: an exception of the first check leaves nothing behind. -/
theorem first_check_clean {c : Call} {e : PyExc} (h0 : c.firstCheck = some e) (dtype : DType) (h : Heap) :
    slqMethod c.firstCheck (traceEstimatorMatrix c dtype) h = .ok (.error e, h) := by
  simp only [slqMethod, bind_apply, h0, raiseOpt_some]

/-- C94, several inquiries: a call that returns leaves behind what its samples leave behind (C29), and nothing else. -/
theorem returning_call_leaks_samples {c : Call} (h1 : 1 ≤ c.numInquiries) {dtype : DType} (hr : Returns dtype c)
    {h : Heap} (hh : h.Ok) :
    ∃ h', slqMethod c.firstCheck (traceEstimatorMatrix c dtype) h = .ok (.ok (), h') ∧ h.live ⊆ h'.live ∧
      h'.live.card = h.live.card + samplesLeak c := by
  obtain ⟨r, h', S, e, g, hret, hS⟩ := slqMethod_spec (c := c) h1 dtype hh
  obtain rfl := hret.2 hr
  refine ⟨h', e, ?_, ?_⟩
  · rw [g.live]; exact Finset.subset_union_left
  · obtain ⟨⟨a, b, c', d, f⟩, k⟩ := hr
    rw [g.card hh, hS, callLeak, a, b, c', f, k]
    simp [d]

/-! ### Programs -/

/-- The blocks left behind by a call with the user's operator, and whether the operator object holds a native object
afterwards. -/
def operatorLeak (dtype : DType) (cached : Bool) (c : Call) : ℕ × Bool :=
  if c.firstCheck.isSome then (0, cached)
  else if c.checks.isSome then (1, cached)
  else if !cached && (c.build.isSome || decide (dtype = .other)) then (1, cached)
  else if c.convert.isSome then (1, true)
  else (samplesLeak c + (if c.finish.isSome then 1 else 0), true)

/-- The blocks left behind by a program. -/
def programLeak (dtype : DType) : Bool → List Step → ℕ
  | _, [] => 0
  | cached, .withMatrix dt c :: ss => callLeak dt c + programLeak dtype cached ss
  | cached, .withOperator c :: ss =>
    (operatorLeak dtype cached c).1 + programLeak dtype (operatorLeak dtype cached c).2 ss

/-- The number of inquiries of a step. -/
def stepInquiries : Step → ℕ
  | .withMatrix _ c => c.numInquiries
  | .withOperator c => c.numInquiries

/-- What the operator object holds is in use. -/
def CacheOk (dtype : DType) (S : Finset ℕ) : Option PyOperator → Prop
  | none => True
  | some o => ∃ p ∈ S, Owns o dtype p

/-- The size of what the operator object holds. -/
def cacheSize (cache : Option PyOperator) : ℕ := if cache.isSome then 1 else 0

theorem step_operator_spec {c : Call} (hnum : 1 ≤ c.numInquiries) {dtype : DType} {h0 h : Heap} {S : Finset ℕ}
    (hh0 : h0.Ok) (g : Grows h0 h S) {cache : Option PyOperator} (hc : CacheOk dtype S cache) :
    ∃ cache' h' S', step dtype cache (.withOperator c) h = .ok (cache', h') ∧ Grows h0 h' S' ∧
      CacheOk dtype S' cache' ∧ cache'.isSome = (operatorLeak dtype cache.isSome c).2 ∧
      S'.card + cacheSize cache = S.card + cacheSize cache' + (operatorLeak dtype cache.isSome c).1 := by
  have keep : ∀ {T : Finset ℕ}, CacheOk dtype (S ∪ T) cache := by
    intro T
    cases cache with
    | none => trivial
    | some o => obtain ⟨p, hp, w⟩ := hc; exact ⟨p, Finset.mem_union_left _ hp, w⟩
  cases hf : c.firstCheck with
  | some e =>
    refine ⟨cache, h, S, ?_, g, hc, by simp [operatorLeak, hf], by simp [operatorLeak, hf]⟩
    simp only [step, bind_apply, hf, raiseOpt_some]
  | none =>
    obtain ⟨h1, e1, g1⟩ := newBlock_spec g.ok
    have gc1 := Finset.card_union_of_disjoint (g.disj g1)
    rw [Finset.card_singleton] at gc1
    cases hk : c.checks with
    | some e =>
      refine ⟨cache, h1, _, ?_, g.trans g1, keep, by simp [operatorLeak, hf, hk], ?_⟩
      · simp only [step, bind_apply, hf, raiseOpt_none, e1, hk, raiseOpt_some]
      · rw [gc1]; simp [operatorLeak, hf, hk]; omega
    | none =>
      -- the operator object
      have hop : (∃ e, cachedOperator cache dtype c.build h1 = .ok (.error e, h1) ∧ cache = none ∧
            (c.build.isSome || decide (dtype = .other)) = true) ∨
          ∃ o h2 T, cachedOperator cache dtype c.build h1 = .ok (.ok o, h2) ∧ Grows h1 h2 T ∧
            T.card + cacheSize cache = 1 ∧ CacheOk dtype (S ∪ T) (some o) ∧
            (!cache.isSome && (c.build.isSome || decide (dtype = .other))) = false := by
        cases cache with
        | some o =>
          refine .inr ⟨o, h1, ∅, rfl, Grows.refl g1.ok, by simp [cacheSize], keep, by simp⟩
        | none =>
          cases hb : buildError dtype c.build with
          | some e =>
            refine .inl ⟨e, newOperator_error hb h1, rfl, ?_⟩
            unfold buildError at hb
            cases hx : c.build with
            | some x => simp
            | none => rw [hx] at hb; simp at hb; simp [hb.1]
          | none =>
            obtain ⟨o, h2, e2, g2, w⟩ := newOperator_spec hb g1.ok
            refine .inr ⟨o, h2, _, e2, g2, by simp [cacheSize], ⟨h1.next, by simp, w⟩, ?_⟩
            unfold buildError at hb
            cases hx : c.build with
            | some x => rw [hx] at hb; simp at hb
            | none => rw [hx] at hb; simp at hb; simp [hb]
      rcases hop with ⟨e, he, rfl, hbad⟩ | ⟨o, h2, T, e2, g2, hT, hco, hgood⟩
      · refine ⟨none, h1, _, ?_, g.trans g1, trivial, ?_, ?_⟩
        · simp only [step, bind_apply, hf, raiseOpt_none, e1, hk, he]
        · simp [operatorLeak, hf, hk, hbad]
        · rw [gc1]; simp [operatorLeak, hf, hk, hbad, cacheSize]
      · have gall := (g.trans g1).trans g2
        have gc2 := Finset.card_union_of_disjoint ((g.trans g1).disj g2)
        have hco' : CacheOk dtype (S ∪ {h.next} ∪ T) (some o) := by
          obtain ⟨p, hp, w⟩ := hco
          refine ⟨p, ?_, w⟩
          rcases Finset.mem_union.1 hp with hp | hp <;> simp [hp]
        obtain ⟨p, hp, w⟩ := hco'
        cases hv : c.convert with
        | some e =>
          refine ⟨some o, h2, _, ?_, gall, ⟨p, hp, w⟩, ?_, ?_⟩
          · simp only [step, bind_apply, hf, raiseOpt_none, e1, hk, e2, runWith, pycTraceEstimator_error hv]
          · simp only [operatorLeak, hf, hk, hgood, hv]; simp
          · rw [gc2, gc1]; simp only [operatorLeak, hf, hk, hgood, hv]; simp [cacheSize] at hT ⊢; omega
        | none =>
          obtain ⟨L, h3, e3, g3, hL⟩ := pycTraceEstimator_spec hv hnum w g2.ok
          replace hL : L.card = samplesLeak c := hL
          have gL := gall.trans g3
          have gc3 := Finset.card_union_of_disjoint (gall.disj g3)
          cases hfin : c.finish with
          | some e =>
            refine ⟨some o, h3, _, ?_, gL, ⟨p, Finset.mem_union_left _ hp, w⟩, ?_, ?_⟩
            · simp only [step, bind_apply, hf, raiseOpt_none, e1, hk, e2, runWith, e3, hfin, raiseOpt_some]
            · simp only [operatorLeak, hf, hk, hgood, hv]; simp
            · rw [gc3, gc2, gc1, hL]
              simp only [operatorLeak, hf, hk, hgood, hv, hfin]
              simp [cacheSize] at hT ⊢
              omega
          | none =>
            have hm : h.next ∈ S ∪ {h.next} ∪ T ∪ L := by simp
            obtain ⟨h4, e4, g4⟩ := deleteBlock_spec hh0 gL hm
            have hpn : p ≠ h.next := by
              rintro rfl
              obtain ⟨q, hq, w'⟩ := hco
              have hqp : q = h.next := by
                rcases w with ⟨rfl, rfl⟩ | ⟨rfl, rfl⟩ | ⟨rfl, rfl⟩ <;>
                  rcases w' with ⟨a, b⟩ | ⟨a, b⟩ | ⟨a, b⟩ <;> simp_all [emptyOperator]
              subst hqp
              rcases Finset.mem_union.1 hq with hq | hq
              · exact Finset.disjoint_left.1 (g.disj g1) hq (Finset.mem_singleton_self _)
              · exact Finset.disjoint_left.1 (g1.disj g2) (Finset.mem_singleton_self _) hq
            refine ⟨some o, h4, _, ?_, g4, ⟨p, Finset.mem_erase.2 ⟨hpn, Finset.mem_union_left _ hp⟩, w⟩, ?_, ?_⟩
            · simp only [step, bind_apply, hf, raiseOpt_none, e1, hk, e2, runWith, e3, hfin, e4]
            · simp only [operatorLeak, hf, hk, hgood, hv]; simp
            · rw [Finset.card_erase_of_mem hm, gc3, gc2, gc1, hL]
              simp only [operatorLeak, hf, hk, hgood, hv, hfin]
              simp [cacheSize] at hT ⊢
              omega

/-- C94: for every sequence of calls, with matrices and with an operator object, failing or not, no block is released
twice or without having been taken, what was in use before stays in use, and at the end of the operator object exactly
`programLeak` blocks are left behind. -/
theorem program_memory (dtype : DType) (steps : List Step) (hnum : ∀ s ∈ steps, 1 ≤ stepInquiries s) {h : Heap}
    (hh : h.Ok) :
    ∃ h', program dtype none steps h = .ok h' ∧ h.live ⊆ h'.live ∧
      h'.live.card = h.live.card + programLeak dtype false steps := by
  have main : ∀ (steps : List Step), (∀ s ∈ steps, 1 ≤ stepInquiries s) → ∀ (cache : Option PyOperator) (h1 : Heap)
      (S : Finset ℕ), Grows h h1 S → CacheOk dtype S cache →
      ∃ h' S', program dtype cache steps h1 = .ok h' ∧ Grows h h' S' ∧
        S'.card + cacheSize cache = S.card + programLeak dtype cache.isSome steps := by
    intro steps
    induction steps with
    | nil =>
      intro _ cache h1 S g hc
      cases cache with
      | none => exact ⟨h1, S, rfl, g, by simp [cacheSize, programLeak]⟩
      | some o =>
        obtain ⟨p, hp, w⟩ := hc
        obtain ⟨h2, e2, g2⟩ := w.dealloc hh g hp
        refine ⟨h2, _, ?_, g2, ?_⟩
        · simp only [program, e2]
        · rw [Finset.card_erase_of_mem hp]
          have := Finset.card_pos.2 ⟨p, hp⟩
          simp [cacheSize, programLeak]; omega
    | cons s ss ih =>
      intro hn cache h1 S g hc
      have hs := hn s List.mem_cons_self
      have hss := fun t ht => hn t (List.mem_cons_of_mem _ ht)
      cases s with
      | withMatrix dt c =>
        obtain ⟨r, h2, T, e2, g2, _, hT⟩ := slqMethod_spec (c := c) hs dt g.ok
        have hc' : CacheOk dtype (S ∪ T) cache := by
          cases cache with
          | none => trivial
          | some o => obtain ⟨p, hp, w⟩ := hc; exact ⟨p, Finset.mem_union_left _ hp, w⟩
        obtain ⟨h3, S3, e3, g3, hS3⟩ := ih hss cache h2 _ (g.trans g2) hc'
        refine ⟨h3, S3, ?_, g3, ?_⟩
        · simp only [program, step, e2, e3]
        · rw [hS3, Finset.card_union_of_disjoint (g.disj g2), hT]
          simp only [programLeak]; omega
      | withOperator c =>
        obtain ⟨cache', h2, S2, e2, g2, hc2, hi, hS2⟩ := step_operator_spec (c := c) hs hh g hc
        obtain ⟨h3, S3, e3, g3, hS3⟩ := ih hss cache' h2 _ g2 hc2
        refine ⟨h3, S3, ?_, g3, ?_⟩
        · simp only [program, e2, e3]
        · simp only [programLeak, ← hi]; omega
  obtain ⟨h', S', e, g, hS⟩ := main steps hnum none h ∅ (Grows.refl hh) trivial
  refine ⟨h', e, ?_, ?_⟩
  · rw [g.live]; exact Finset.subset_union_left
  · rw [g.card hh]
    simp [cacheSize] at hS
    rw [hS]

/-- C94 (partial: calls that return and have one inquiry): a program of such calls, however long, uses no more memory at
its end than at its start. -/
theorem returning_program_releases_partial (dtype : DType) (calls : List (DType × Call))
    (h1 : ∀ c ∈ calls, c.2.numInquiries = 1 ∧ Returns c.1 c.2) {h : Heap} (hh : h.Ok) :
    ∃ h', program dtype none (calls.map fun c => .withMatrix c.1 c.2) h = .ok h' ∧ h'.live = h.live := by
  obtain ⟨h', e, hs, hc⟩ := program_memory dtype (calls.map fun c => .withMatrix c.1 c.2) (by
    intro s hs
    obtain ⟨c, hc, rfl⟩ := List.mem_map.1 hs
    exact (h1 c hc).1.ge) hh
  refine ⟨h', e, ?_⟩
  have : programLeak dtype false (calls.map fun c => .withMatrix c.1 c.2) = 0 := by
    clear e hc hs
    induction calls with
    | nil => rfl
    | cons c cs ih =>
      have hc := h1 c List.mem_cons_self
      obtain ⟨⟨a, b, c', d, f⟩, k⟩ := hc.2
      simp only [List.map_cons, programLeak, ih fun x hx => h1 x (List.mem_cons_of_mem _ hx), callLeak, a, b, c', f, k,
        samplesLeak_one hc.1]
      simp [d]
  exact (Finset.eq_of_subset_of_card_le hs (by omega)).symm

/-- C94 refuted: `n` calls that `trace_estimator` refuses leave `n` blocks behind, for every `n`. -/
theorem refused_calls_accumulate (dtype dt : DType) (c : Call) (h1 : 1 ≤ c.numInquiries) (h0 : c.firstCheck = none)
    (hk : c.checks.isSome) (n : ℕ) {h : Heap} (hh : h.Ok) :
    ∃ h', program dtype none (List.replicate n (.withMatrix dt c)) h = .ok h' ∧
      h'.live.card = h.live.card + n := by
  obtain ⟨h', e, _, hc⟩ := program_memory dtype (List.replicate n (.withMatrix dt c)) (by
    intro s hs
    rw [List.eq_of_mem_replicate hs]
    exact h1) hh
  refine ⟨h', e, ?_⟩
  rw [hc]
  congr 1
  clear e hc
  induction n with
  | zero => rfl
  | succ n ih =>
    rw [List.replicate_succ, programLeak, ih]
    simp [callLeak, h0, hk]; omega

/-! ### Non-vacuity -/

/-- A call with two samples, three threads and one inquiry. -/
def sampleCall : Call where
  firstCheck := none
  checks := none
  build := none
  convert := none
  finish := none
  maxNumSamples := 2
  numInquiries := 1
  threads := 3
  samples := [⟨false, false, fun _ => false⟩, ⟨false, false, fun _ => false⟩]

example : Returns .float64 sampleCall := ⟨⟨rfl, rfl, rfl, by decide, rfl⟩, rfl⟩

/-- C94: in this memory, releasing a block twice is a fault, so that the theorems above exclude it. -/
theorem double_free_faults (h : Heap) (p : ℕ) :
    (do deleteBlock p; deleteBlock p : Act Unit) h = .error .invalid := by
  show Act.bind (deleteBlock p) (fun _ => deleteBlock p) h = _
  unfold Act.bind deleteBlock
  by_cases hp : p ∈ h.live <;> simp [hp]

example : (⟨7, {2, 5}⟩ : Heap).Ok := by unfold Heap.Ok; decide

example : ¬ Returns .float64 { sampleCall with checks := some .valueError } := by
  rintro ⟨⟨_, h, _⟩, _⟩; exact absurd h (by simp [sampleCall])

/-- With two inquiries a call that returns does leave blocks behind. -/
example : samplesLeak { sampleCall with numInquiries := 2 } = 2 := by decide

/-- The same operator object is used twice and its native object is released once. -/
example : programLeak .float64 false [.withOperator sampleCall,
    .withOperator { sampleCall with finish := some .importError }, .withOperator sampleCall] = 1 := by decide

end Imate.Props
