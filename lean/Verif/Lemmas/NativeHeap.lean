import Mathlib.Data.Finset.Card
import Mathlib.Data.List.Nodup
import Verif.Model.NativeHeap
import Verif.Props.Slq

/-!
# Lemmas on the model of the native memory of a call
-/

namespace Imate.NativeHeap

open Imate.Args Imate.Lanczos

/-- Every block in use has been taken. -/
def Heap.Ok (h : Heap) : Prop := ∀ p ∈ h.live, p < h.next

/-- Between the heaps `h` and `h'` the blocks `S` have been taken and nothing else has changed. -/
structure Grows (h h' : Heap) (S : Finset ℕ) : Prop where
  ok : h'.Ok
  mono : h.next ≤ h'.next
  live : h'.live = h.live ∪ S
  fresh : ∀ s ∈ S, h.next ≤ s

theorem Grows.refl {h : Heap} (hh : h.Ok) : Grows h h ∅ := ⟨hh, le_rfl, by simp, by simp⟩

theorem Grows.bound {h h' : Heap} {S : Finset ℕ} (g : Grows h h' S) : ∀ s ∈ S, s < h'.next := by
  intro s hs
  apply g.ok
  rw [g.live]
  exact Finset.mem_union_right _ hs

theorem Grows.trans {h h1 h2 : Heap} {S T : Finset ℕ} (g : Grows h h1 S) (g' : Grows h1 h2 T) :
    Grows h h2 (S ∪ T) := by
  refine ⟨g'.ok, g.mono.trans g'.mono, ?_, ?_⟩
  · rw [g'.live, g.live, Finset.union_assoc]
  · intro s hs
    rcases Finset.mem_union.1 hs with hs | hs
    · exact g.fresh s hs
    · exact g.mono.trans (g'.fresh s hs)

theorem Grows.disj {h h1 h2 : Heap} {S T : Finset ℕ} (g : Grows h h1 S) (g' : Grows h1 h2 T) : Disjoint S T := by
  rw [Finset.disjoint_left]
  intro s hs ht
  have := g.bound s hs
  have := g'.fresh s ht
  omega

theorem Grows.notMem {h h' : Heap} {S : Finset ℕ} (hh : h.Ok) (g : Grows h h' S) : ∀ s ∈ S, s ∉ h.live := by
  intro s hs hl
  have := hh s hl
  have := g.fresh s hs
  omega

theorem Grows.card {h h' : Heap} {S : Finset ℕ} (hh : h.Ok) (g : Grows h h' S) :
    h'.live.card = h.live.card + S.card := by
  rw [g.live, Finset.card_union_of_disjoint]
  rw [Finset.disjoint_left]
  exact fun s hs ht => g.notMem hh s ht hs

theorem bind_apply {α β : Type} (a : Act α) (f : α → Act β) (h : Heap) :
    (a >>= f) h = match a h with
      | .error x => .error x
      | .ok (.error e, h) => .ok (.error e, h)
      | .ok (.ok x, h) => f x h := rfl

theorem pure_apply {α : Type} (x : α) (h : Heap) : (pure x : Act α) h = .ok (.ok x, h) := rfl

theorem raiseOpt_none (h : Heap) : raiseOpt none h = .ok (.ok (), h) := rfl

theorem raiseOpt_some (e : PyExc) (h : Heap) : raiseOpt (some e) h = .ok (.error e, h) := rfl

theorem newBlock_spec {h : Heap} (hh : h.Ok) :
    ∃ h', newBlock h = .ok (.ok h.next, h') ∧ Grows h h' {h.next} := by
  refine ⟨_, rfl, ?_, ?_, ?_, ?_⟩
  · intro p hp
    rcases Finset.mem_insert.1 hp with rfl | hp
    · exact Nat.lt_succ_self _
    · exact Nat.lt_succ_of_lt (hh p hp)
  · exact Nat.le_succ _
  · ext x; simp [or_comm]
  · simp

theorem deleteBlock_spec {h h1 : Heap} {S : Finset ℕ} (hh : h.Ok) (g : Grows h h1 S) {p : ℕ} (hp : p ∈ S) :
    ∃ h2, deleteBlock p h1 = .ok (.ok (), h2) ∧ Grows h h2 (S.erase p) := by
  have hl : p ∈ h1.live := by rw [g.live]; exact Finset.mem_union_right _ hp
  refine ⟨{ h1 with live := h1.live.erase p }, ?_, ?_, g.mono, ?_, ?_⟩
  · simp [deleteBlock, hl]
  · intro q hq
    exact g.ok q (Finset.mem_of_mem_erase hq)
  · show h1.live.erase p = _
    rw [g.live]
    have := g.notMem hh p hp
    ext x
    simp only [Finset.mem_erase, Finset.mem_union]
    constructor
    · rintro ⟨a, b | b⟩
      · exact .inl b
      · exact .inr ⟨a, b⟩
    · rintro (b | b)
      · exact ⟨fun e => this (e ▸ b), .inl b⟩
      · exact ⟨b.1, .inr b.2⟩
  · intro s hs
    exact g.fresh s (Finset.mem_of_mem_erase hs)

theorem deleteBlocks_spec {h : Heap} (hh : h.Ok) (ps : List ℕ) : ∀ {h1 : Heap} {S : Finset ℕ}, Grows h h1 S →
    ps.Nodup → (∀ p ∈ ps, p ∈ S) →
    ∃ h2, deleteBlocks ps h1 = .ok (.ok (), h2) ∧ Grows h h2 (S \ ps.toFinset) := by
  induction ps with
  | nil =>
    intro h1 S g _ _
    exact ⟨h1, rfl, by simpa using g⟩
  | cons p ps ih =>
    intro h1 S g hn hs
    obtain ⟨h2, e2, g2⟩ := deleteBlock_spec hh g (hs p List.mem_cons_self)
    have hn' := List.nodup_cons.1 hn
    obtain ⟨h3, e3, g3⟩ := ih g2 hn'.2 (fun q hq => by
      refine Finset.mem_erase.2 ⟨?_, hs q (List.mem_cons_of_mem _ hq)⟩
      rintro rfl
      exact hn'.1 hq)
    refine ⟨h3, ?_, ?_⟩
    · rw [deleteBlocks, bind_apply, e2]; exact e3
    · convert g3 using 1
      ext x
      simp only [List.toFinset_cons, Finset.mem_sdiff, Finset.mem_insert, Finset.mem_erase]
      tauto

theorem deleteBlocks_append (a b : List ℕ) (h : Heap) :
    deleteBlocks (a ++ b) h = (do deleteBlocks a; deleteBlocks b : Act Unit) h := by
  induction a generalizing h with
  | nil => rfl
  | cons p a ih =>
    simp only [List.cons_append, deleteBlocks, bind_apply]
    rcases deleteBlock p h with x | ⟨x | x, h1⟩
    · rfl
    · rfl
    · simp only [ih, bind_apply]

theorem newBlocks_spec (n : ℕ) : ∀ {h : Heap}, h.Ok →
    ∃ ps h', newBlocks n h = .ok (.ok ps, h') ∧ Grows h h' ps.toFinset ∧ ps.Nodup ∧ ps.length = n := by
  induction n with
  | zero => intro h hh; exact ⟨[], h, rfl, by simpa using Grows.refl hh, List.nodup_nil, rfl⟩
  | succ n ih =>
    intro h hh
    obtain ⟨h1, e1, g1⟩ := newBlock_spec hh
    obtain ⟨ps, h2, e2, g2, hn, hl⟩ := ih g1.ok
    refine ⟨h.next :: ps, h2, ?_, ?_, ?_, by simp [hl]⟩
    · simp only [newBlocks, bind_apply, e1, e2, pure_apply]
    · rw [List.toFinset_cons, Finset.insert_eq]
      exact g1.trans g2
    · refine List.nodup_cons.2 ⟨fun hm => ?_, hn⟩
      have := Finset.disjoint_left.1 (g1.disj g2) (Finset.mem_singleton_self _)
      exact this (List.mem_toFinset.2 hm)

/-! ### The generator -/

/-- The blocks of generators, in the order in which they are released. -/
def addresses (xs : List Xoshiro) : List ℕ := xs.flatMap fun x => [x.state, x.object]

theorem deleteXoshiros_eq (xs : List Xoshiro) (h : Heap) : deleteXoshiros xs h = deleteBlocks (addresses xs) h := by
  induction xs generalizing h with
  | nil => rfl
  | cons x xs ih =>
    simp only [deleteXoshiros, deleteXoshiro, addresses, List.flatMap_cons, List.cons_append, List.nil_append,
      deleteBlocks, bind_apply]
    rcases deleteBlock x.state h with e | ⟨e | e, h1⟩
    · rfl
    · rfl
    · simp only
      rcases deleteBlock x.object h1 with e | ⟨e | e, h2⟩
      · rfl
      · rfl
      · simp only; exact ih h2

theorem newXoshiros_spec (n : ℕ) : ∀ {h : Heap}, h.Ok →
    ∃ xs h', newXoshiros n h = .ok (.ok xs, h') ∧ Grows h h' (addresses xs).toFinset ∧ (addresses xs).Nodup ∧
      xs.length = n := by
  induction n with
  | zero => intro h hh; exact ⟨[], h, rfl, by simpa [addresses] using Grows.refl hh, List.nodup_nil, rfl⟩
  | succ n ih =>
    intro h hh
    obtain ⟨h1, e1, g1⟩ := newBlock_spec hh
    obtain ⟨h2, e2, g2⟩ := newBlock_spec g1.ok
    obtain ⟨xs, h3, e3, g3, hn, hl⟩ := ih g2.ok
    have g12 := g1.trans g2
    have hd := Finset.disjoint_left.1 (g12.disj g3)
    have h12 := Finset.disjoint_left.1 (g1.disj g2)
    refine ⟨⟨h.next, h1.next⟩ :: xs, h3, ?_, ?_, ?_, by simp [hl]⟩
    · simp only [newXoshiros, newXoshiro, bind_apply, e1, e2, e3, pure_apply]
    · convert g12.trans g3 using 1
      ext x
      simp only [addresses, List.flatMap_cons, List.cons_append, List.nil_append, List.toFinset_cons, Finset.mem_insert,
        Finset.mem_union, Finset.mem_singleton]
      tauto
    · have a : h.next ∉ addresses xs := fun hm => hd (by simp) (List.mem_toFinset.2 hm)
      have b : h1.next ∉ addresses xs := fun hm => hd (by simp) (List.mem_toFinset.2 hm)
      have c : h.next ≠ h1.next := fun e => h12 (Finset.mem_singleton_self _) (Finset.mem_singleton.2 e)
      show (h1.next :: h.next :: addresses xs).Nodup
      simp [a, b, hn, c.symm]

theorem newRng_spec (threads : ℕ) {h : Heap} (hh : h.Ok) :
    ∃ r h', newRng threads h = .ok (.ok r, h') ∧ Grows h h' (addresses r.generators ++ [r.table]).toFinset ∧
      (addresses r.generators ++ [r.table]).Nodup := by
  obtain ⟨h1, e1, g1⟩ := newBlock_spec hh
  obtain ⟨xs, h2, e2, g2, hn, _⟩ := newXoshiros_spec threads g1.ok
  refine ⟨⟨h.next, xs⟩, h2, ?_, ?_, ?_⟩
  · simp only [newRng, bind_apply, e1, e2, pure_apply]
  · convert g1.trans g2 using 1
    ext x
    simp only [List.toFinset_append, Finset.mem_union, List.toFinset_cons, List.toFinset_nil,
      Finset.mem_insert, Finset.notMem_empty, or_false, Finset.mem_singleton]
    tauto
  · have hd := Finset.disjoint_left.1 (g1.disj g2) (Finset.mem_singleton_self _)
    refine List.nodup_append.2 ⟨hn, by simp, ?_⟩
    intro a ha b hb hab
    subst hab
    rw [List.mem_singleton] at hb
    subst hb
    exact hd (List.mem_toFinset.2 ha)

theorem deleteRng_eq (r : Rng) (h : Heap) :
    deleteRng r h = deleteBlocks (addresses r.generators ++ [r.table]) h := by
  rw [deleteBlocks_append]
  simp only [deleteRng, bind_apply, deleteXoshiros_eq]
  rcases deleteBlocks (addresses r.generators) h with e | ⟨e | e, h1⟩
  · rfl
  · rfl
  · simp only [deleteBlocks, bind_apply]
    rcases deleteBlock r.table h1 with e | ⟨e | e, h2⟩ <;> rfl

/-! ### Samples -/

theorem newNamed_spec (names : List Block) : ∀ {h : Heap}, h.Ok → names.Nodup →
    ∃ f h', newNamed names h = .ok (.ok f, h') ∧ Grows h h' (names.toFinset.image f) ∧
      Set.InjOn f {b | b ∈ names} := by
  induction names with
  | nil => intro h hh _; exact ⟨_, h, rfl, by simpa using Grows.refl hh, by simp [Set.InjOn]⟩
  | cons b bs ih =>
    intro h hh hn
    have hn' := List.nodup_cons.1 hn
    obtain ⟨h1, e1, g1⟩ := newBlock_spec hh
    obtain ⟨f, h2, e2, g2, hf⟩ := ih g1.ok hn'.2
    have hu : ∀ x ∈ bs, Function.update f b h.next x = f x := by
      intro x hx
      rw [Function.update_of_ne]
      rintro rfl
      exact hn'.1 hx
    have hd := Finset.disjoint_left.1 (g1.disj g2) (Finset.mem_singleton_self _)
    refine ⟨Function.update f b h.next, h2, ?_, ?_, ?_⟩
    · simp only [newNamed, bind_apply, e1, e2, pure_apply]
    · convert g1.trans g2 using 1
      rw [List.toFinset_cons, Finset.image_insert, Function.update_self, Finset.insert_eq]
      congr 1
      apply Finset.image_congr
      intro x hx
      exact hu x (List.mem_toFinset.1 hx)
    · intro x hx y hy hxy
      rcases List.mem_cons.1 hx with rfl | hx' <;> rcases List.mem_cons.1 hy with rfl | hy'
      · rfl
      · rw [Function.update_self, hu y hy'] at hxy
        exact absurd (Finset.mem_image.2 ⟨y, List.mem_toFinset.2 hy', hxy.symm⟩) hd
      · rw [Function.update_self, hu x hx'] at hxy
        exact absurd (Finset.mem_image.2 ⟨x, List.mem_toFinset.2 hx', hxy⟩) hd
      · rw [hu x hx', hu y hy'] at hxy
        exact hf hx' hy' hxy

theorem allocatedBlocks_nodup (gram : Bool) (required num : ℕ) (converged : ℕ → Bool) :
    (allocatedBlocks gram required num converged).Nodup := by
  have hth : ((List.range num).map Block.theta).Nodup := List.nodup_range.map (fun a b h => by simpa using h)
  have hta : ((List.range num).map Block.tau).Nodup := List.nodup_range.map (fun a b h => by simpa using h)
  have hc : (computedInquiries required num converged).Nodup := List.nodup_range.filter _
  have hi : ((computedInquiries required num converged).flatMap (inquiryBlocks gram)).Nodup := by
    rw [List.nodup_flatMap]
    constructor
    · intro j _; cases gram <;> simp [inquiryBlocks]
    · apply hc.imp
      intro a b hab
      rw [Function.onFun, List.disjoint_left]
      intro x hx hy
      cases gram <;> simp [inquiryBlocks] at hx hy
      · subst hx; simp at hy; exact hab hy
      · rcases hx with rfl | rfl <;> simp at hy <;> exact hab hy
  unfold allocatedBlocks
  rw [List.nodup_append]
  refine ⟨?_, hi, ?_⟩
  · unfold initialBlocks
    simp [List.nodup_append, hth, hta]
    rintro a _ b (⟨c, _, rfl⟩ | rfl) <;> simp
  · intro x hx y hy hxy
    subst hxy
    obtain ⟨j, _, hj⟩ := List.mem_flatMap.1 hy
    cases gram <;> simp [inquiryBlocks] at hj
    · subst hj; simp [initialBlocks] at hx
    · rcases hj with rfl | rfl <;> simp [initialBlocks] at hx

/-- The number of blocks a sample does not release (`leaked_blocks` tells which). -/
def sampleLeak (numInquiries : ℕ) (s : Sample) : ℕ :=
  (leakedBlocks s.gram s.relationKnown numInquiries s.converged).length

theorem runSample_spec {num : ℕ} (hnum : 1 ≤ num) (s : Sample) {h : Heap} (hh : h.Ok) :
    ∃ L h', runSample num s h = .ok (.ok (), h') ∧ Grows h h' L ∧ L.card = sampleLeak num s := by
  set A := allocatedBlocks s.gram (s.required num) num s.converged with hA
  set R := releasedBlocks s.gram (s.required num) num s.converged with hR
  have hAn : A.Nodup := allocatedBlocks_nodup _ _ _ _
  obtain ⟨hRn, hRA⟩ : R.Nodup ∧ ∀ b ∈ R, b ∈ A :=
    Props.sample_releases_only_allocated s.gram s.relationKnown num hnum s.converged
  obtain ⟨f, h1, e1, g1, hf⟩ := newNamed_spec A hh hAn
  obtain ⟨h2, e2, g2⟩ := deleteBlocks_spec hh (R.map f) g1
    (hRn.map_on fun x hx y hy e => hf (hRA x hx) (hRA y hy) e)
    (by
      intro p hp
      obtain ⟨b, hb, rfl⟩ := List.mem_map.1 hp
      exact Finset.mem_image.2 ⟨b, List.mem_toFinset.2 (hRA b hb), rfl⟩)
  refine ⟨_, h2, ?_, g2, ?_⟩
  · rw [runSample, bind_apply, e1]; exact e2
  · have : A.toFinset.image f \ (R.map f).toFinset = (A.diff R).toFinset.image f := by
      ext p
      simp only [Finset.mem_sdiff, Finset.mem_image, List.mem_toFinset, List.mem_map, hAn.mem_sdiff_iff]
      constructor
      · rintro ⟨⟨b, hb, rfl⟩, hn⟩
        exact ⟨b, ⟨hb, fun hr => hn ⟨b, hr, rfl⟩⟩, rfl⟩
      · rintro ⟨b, ⟨hb, hr⟩, rfl⟩
        refine ⟨⟨b, hb, rfl⟩, ?_⟩
        rintro ⟨c, hc, e⟩
        exact hr (hf (hRA c hc) hb e ▸ hc)
    rw [this, Finset.card_image_of_injOn, List.toFinset_card_of_nodup hAn.diff]
    · rfl
    · intro x hx y hy e
      have hx' := (hAn.mem_sdiff_iff.1 (List.mem_toFinset.1 (Finset.mem_coe.1 hx))).1
      have hy' := (hAn.mem_sdiff_iff.1 (List.mem_toFinset.1 (Finset.mem_coe.1 hy))).1
      exact hf hx' hy' e

theorem runSamples_spec {num : ℕ} (hnum : 1 ≤ num) (ss : List Sample) : ∀ {h : Heap}, h.Ok →
    ∃ L h', runSamples num ss h = .ok (.ok (), h') ∧ Grows h h' L ∧ L.card = (ss.map (sampleLeak num)).sum := by
  induction ss with
  | nil => intro h hh; exact ⟨∅, h, rfl, Grows.refl hh, rfl⟩
  | cons s ss ih =>
    intro h hh
    obtain ⟨L1, h1, e1, g1, c1⟩ := runSample_spec hnum s hh
    obtain ⟨L2, h2, e2, g2, c2⟩ := ih g1.ok
    refine ⟨L1 ∪ L2, h2, ?_, g1.trans g2, ?_⟩
    · rw [runSamples, bind_apply, e1]; exact e2
    · rw [Finset.card_union_of_disjoint (g1.disj g2), c1, c2]; simp

theorem averageEstimates_spec {h : Heap} (hh : h.Ok) :
    ∃ h', averageEstimates h = .ok (.ok (), h') ∧ Grows h h' ∅ := by
  obtain ⟨h1, e1, g1⟩ := newBlock_spec hh
  obtain ⟨h2, e2, g2⟩ := deleteBlock_spec hh g1 (Finset.mem_singleton_self _)
  refine ⟨h2, ?_, by simpa using g2⟩
  rw [averageEstimates, bind_apply, e1]; exact e2

theorem cTraceEstimator_spec {num : ℕ} (hnum : 1 ≤ num) (threads : ℕ) (ss : List Sample) {h : Heap} (hh : h.Ok) :
    ∃ L h', cTraceEstimator threads num ss h = .ok (.ok (), h') ∧ Grows h h' L ∧
      L.card = (ss.map (sampleLeak num)).sum := by
  obtain ⟨h1, e1, g1⟩ := newBlock_spec hh
  obtain ⟨r, h2, e2, g2, hn⟩ := newRng_spec threads g1.ok
  obtain ⟨L, h3, e3, g3, hc⟩ := runSamples_spec hnum ss g2.ok
  obtain ⟨h4, e4, g4⟩ := averageEstimates_spec g3.ok
  have g := ((g1.trans g2).trans g3).trans g4
  obtain ⟨h5, e5, g5⟩ := deleteBlock_spec hh g (p := h.next) (by simp)
  have hd : ∀ p ∈ addresses r.generators ++ [r.table], p ≠ h.next := by
    rintro p hp rfl
    exact Finset.disjoint_left.1 (g1.disj g2) (Finset.mem_singleton_self _) (List.mem_toFinset.2 hp)
  obtain ⟨h6, e6, g6⟩ := deleteBlocks_spec hh _ g5 hn (by
    intro p hp
    refine Finset.mem_erase.2 ⟨hd p hp, ?_⟩
    have := List.mem_toFinset.2 hp
    simp only [Finset.mem_union]
    tauto)
  refine ⟨L, h6, ?_, ?_, hc⟩
  · simp only [cTraceEstimator, bind_apply, e1, e2, e3, e4, e5, deleteRng_eq, e6]
  · convert g6 using 1
    have hL := Finset.disjoint_left.1 ((g1.trans g2).disj g3)
    ext x
    simp only [Finset.mem_sdiff, Finset.mem_erase, Finset.mem_union, Finset.mem_singleton, Finset.notMem_empty, or_false,
      List.mem_toFinset] at hL ⊢
    constructor
    · intro hx
      have h1 : ¬ (x = h.next ∨ x ∈ addresses r.generators ++ [r.table]) := fun hh => hL hh hx
      tauto
    · tauto

/-! ### Operators -/

/-- The Python object of an operator of the given type that holds exactly the block `p`. -/
def Owns (o : PyOperator) (dtype : DType) (p : ℕ) : Prop :=
  (dtype = .float32 ∧ o = { emptyOperator .float32 with aopFloat := some p }) ∨
  (dtype = .float64 ∧ o = { emptyOperator .float64 with aopDouble := some p }) ∨
  (dtype = .float128 ∧ o = { emptyOperator .float128 with aopLongDouble := some p })

theorem Owns.pointer {o : PyOperator} {dtype : DType} {p : ℕ} (w : Owns o dtype p) : o.pointer dtype = none := by
  rcases w with ⟨rfl, rfl⟩ | ⟨rfl, rfl⟩ | ⟨rfl, rfl⟩ <;> rfl

theorem Owns.dealloc {o : PyOperator} {dtype : DType} {p : ℕ} (w : Owns o dtype p) {h h1 : Heap} {S : Finset ℕ}
    (hh : h.Ok) (g : Grows h h1 S) (hp : p ∈ S) :
    ∃ h2, o.dealloc h1 = .ok (.ok (), h2) ∧ Grows h h2 (S.erase p) := by
  obtain ⟨h2, e, g2⟩ := deleteBlock_spec hh g hp
  refine ⟨h2, ?_, g2⟩
  rcases w with ⟨rfl, rfl⟩ | ⟨rfl, rfl⟩ | ⟨rfl, rfl⟩ <;>
    simp [PyOperator.dealloc, emptyOperator, deletePointer, bind_apply, pure_apply, e]

/-- The exception of the construction of an operator. -/
def buildError (dtype : DType) (failure : Option PyExc) : Option PyExc :=
  match failure with
  | some e => some e
  | none => if dtype = .other then some .typeError else none

theorem newOperator_error {dtype : DType} {failure : Option PyExc} {e : PyExc} (he : buildError dtype failure = some e)
    (h : Heap) : newOperator dtype failure h = .ok (.error e, h) := by
  cases failure with
  | some x => simp only [buildError, Option.some.injEq] at he; subst he; rfl
  | none =>
    cases dtype <;> simp [buildError] at he
    subst he; rfl

theorem newOperator_spec {dtype : DType} {failure : Option PyExc} (he : buildError dtype failure = none)
    {h : Heap} (hh : h.Ok) :
    ∃ o h', newOperator dtype failure h = .ok (.ok o, h') ∧ Grows h h' {h.next} ∧ Owns o dtype h.next := by
  cases failure with
  | some x => simp [buildError] at he
  | none =>
    obtain ⟨h1, e1, g1⟩ := newBlock_spec hh
    cases dtype with
    | other => simp [buildError] at he
    | float32 => exact ⟨_, h1, by simp only [newOperator, bind_apply, e1, pure_apply], g1, .inl ⟨rfl, rfl⟩⟩
    | float64 => exact ⟨_, h1, by simp only [newOperator, bind_apply, e1, pure_apply], g1, .inr (.inl ⟨rfl, rfl⟩)⟩
    | float128 => exact ⟨_, h1, by simp only [newOperator, bind_apply, e1, pure_apply], g1, .inr (.inr ⟨rfl, rfl⟩)⟩

/-! ### Calls -/

theorem pycTraceEstimator_error {c : Call} {e : PyExc} (he : c.convert = some e) (dtype : DType) (o : PyOperator)
    (h : Heap) : pycTraceEstimator c dtype o h = .ok (.error e, h) := by
  simp only [pycTraceEstimator, bind_apply, he, raiseOpt_some]

theorem pycTraceEstimator_spec {c : Call} (he : c.convert = none) (hnum : 1 ≤ c.numInquiries) {dtype : DType}
    {o : PyOperator} {p : ℕ} (w : Owns o dtype p) {h : Heap} (hh : h.Ok) :
    ∃ L h', pycTraceEstimator c dtype o h = .ok (.ok (), h') ∧ Grows h h' L ∧
      L.card = (c.samples.map (sampleLeak c.numInquiries)).sum := by
  obtain ⟨h1, e1, g1⟩ := newBlock_spec hh
  obtain ⟨rows, h2, e2, g2, hn, _⟩ := newBlocks_spec c.maxNumSamples g1.ok
  obtain ⟨L, h3, e3, g3, hc⟩ := cTraceEstimator_spec hnum c.threads c.samples g2.ok
  have g := (g1.trans g2).trans g3
  have hd := Finset.disjoint_left.1 (g1.disj g2) (Finset.mem_singleton_self _)
  obtain ⟨h4, e4, g4⟩ := deleteBlocks_spec hh rows g hn (by
    intro q hq
    have := List.mem_toFinset.2 hq
    simp only [Finset.mem_union]
    tauto)
  obtain ⟨h5, e5, g5⟩ := deleteBlock_spec hh g4 (p := h.next) (by
    refine Finset.mem_sdiff.2 ⟨by simp, hd⟩)
  refine ⟨L, h5, ?_, ?_, hc⟩
  · simp only [pycTraceEstimator, bind_apply, he, raiseOpt_none, e1, e2, w.pointer, e3, e4, e5]
  · convert g5 using 1
    have hL := Finset.disjoint_left.1 ((g1.trans g2).disj g3)
    ext x
    simp only [Finset.mem_sdiff, Finset.mem_erase, Finset.mem_union, Finset.mem_singleton, List.mem_toFinset] at hL ⊢
    constructor
    · intro hx
      have h1 : ¬ (x = h.next ∨ x ∈ rows) := fun hh => hL hh hx
      tauto
    · tauto

end Imate.NativeHeap
