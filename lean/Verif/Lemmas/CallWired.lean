import Mathlib.Data.List.Nodup
import Verif.Lemmas.CallOptions
import Verif.Spec.CallOptions

/-!
# Calls of functions whose methods take all the arguments of the function by their names
-/

namespace Imate.CallOptions

open Imate.Args Imate.Spec.CallOptions

variable {M : Type}

/-- The argument names that are handed on by name. -/
def handed (f : Public) : List String := (names f.params).filter fun n => decide (n ≠ "A" ∧ n ≠ "method")

/-- A method of `f` takes `A` first and all the arguments of `f` but `method` by their names. -/
def MethodWired (f : Public) (m : Method) : Prop :=
  (names m.params).Nodup ∧ (names m.params).head? = some "A" ∧
    (∀ p ∈ m.params, p.default.isSome = (p.name != "A")) ∧
    m.forward = (handed f).map (fun n => (n, n)) ∧
    (∀ n ∈ names f.params, n ≠ "method" → n ∈ names m.params) ∧ "method" ∉ names m.params

instance (f : Public) (m : Method) : Decidable (MethodWired f m) := by
  unfold MethodWired
  infer_instance

/-- … and all methods do. -/
def Wired (f : Public) : Prop :=
  (names f.params).Nodup ∧ (names f.params).head? = some "A" ∧
    (∀ p ∈ f.params, p.default.isSome = (p.name != "A")) ∧ "method" ∈ names f.params ∧
    (f.methods.map Method.name).Nodup ∧ ∀ m ∈ f.methods, MethodWired f m

instance (f : Public) : Decidable (Wired f) := by
  unfold Wired
  infer_instance

/-- The conditions on a call with method `m`. -/
def Fits (f : Public) (m : Method) (pos : List (Val M)) (kw : Names M) : Prop :=
  Accepts f.params pos kw ∧ (∀ i p, f.params[i]? = some p → p.name = "method" →
      valueAt pos kw i p = some (.py (.str m.name))) ∧
    ∀ n ∈ keys kw, n ∈ names f.params ∨ n ∈ names m.params

theorem exists_param {params : List Param} {n : String} (h : n ∈ names params) :
    ∃ (i : ℕ) (p : Param), params[i]? = some p ∧ p.name = n := by
  obtain ⟨p, hp, rfl⟩ := List.mem_map.mp h
  obtain ⟨i, hi, he⟩ := List.mem_iff_getElem.mp hp
  exact ⟨i, p, by rw [List.getElem?_eq_getElem hi, he], rfl⟩

theorem name_mem {params : List Param} {i : ℕ} {p : Param} (h : params[i]? = some p) : p.name ∈ names params :=
  List.mem_map_of_mem (List.mem_of_getElem? h)

theorem head_of {params : List Param} (h : (names params).head? = some "A") :
    ∃ p, params[0]? = some p ∧ p.name = "A" := by
  cases params with
  | nil => simp [names] at h
  | cons p ps => exact ⟨p, rfl, by simpa [names] using h⟩

theorem index_unique {params : List Param} (hn : (names params).Nodup) {i j : ℕ} {p q : Param}
    (hi : params[i]? = some p) (hj : params[j]? = some q) (h : p.name = q.name) : i = j ∧ p = q := by
  have hi' : (names params)[i]? = some p.name := by simp [names, hi]
  have hj' : (names params)[j]? = some p.name := by simp [names, hj, h]
  obtain ⟨hil, hie⟩ := List.getElem?_eq_some_iff.mp hi'
  obtain ⟨hjl, hje⟩ := List.getElem?_eq_some_iff.mp hj'
  have : i = j := (List.Nodup.getElem_inj_iff hn).mp (hie.trans hje.symm)
  subst this
  exact ⟨rfl, by rw [hi] at hj; exact Option.some.inj hj⟩

theorem accepts_value {params : List Param} {pos : List (Val M)} {kw : Names M} (h : Accepts params pos kw) {i : ℕ}
    {p : Param} (hp : params[i]? = some p) : (valueAt pos kw i p).isSome := by
  unfold valueAt
  by_cases hi : i < pos.length
  · simp [List.getElem?_eq_getElem hi]
  · rcases (h.2 i p hp).2 (by omega) with h1 | h1
    · have := (lookup_isSome_iff p.name kw).mpr h1
      obtain ⟨v, hv⟩ := Option.isSome_iff_exists.mp this
      cases hpos : pos[i]? <;> simp [hv]
    · obtain ⟨v, hv⟩ := Option.isSome_iff_exists.mp h1
      simp [hv]

theorem find_method {f : Public} (hn : (f.methods.map Method.name).Nodup) {m : Method} (hm : m ∈ f.methods) :
    f.methods.find? (fun m' => m'.name == m.name) = some m := by
  generalize f.methods = l at hn hm
  induction l with
  | nil => simp at hm
  | cons a l ih =>
    rw [List.map_cons, List.nodup_cons] at hn
    rcases List.mem_cons.mp hm with rfl | hm'
    · simp
    · have hne : a.name ≠ m.name := fun he => hn.1 (he ▸ List.mem_map_of_mem hm')
      rw [List.find?_cons_of_neg (by simpa using hne)]
      exact ih hn.2 hm'

/-- A call of a function: what the method gets, or how it is refused. -/
theorem callPublic_spec {f : Public} (w : Wired f) (pos : List (Val M)) (kw : Names M) (hk : (keys kw).Nodup) :
    (∃ m ∈ f.methods, ∃ env, callPublic f pos kw = .ok (m.name, env) ∧ Fits f m pos kw ∧
      keys env = names m.params ∧
      (∀ i p, f.params[i]? = some p → p.name ≠ "method" → env.lookup p.name = valueAt pos kw i p) ∧
      ∀ p ∈ m.params, p.name ∉ names f.params → env.lookup p.name = (kw.lookup p.name).or (p.default.map .py)) ∨
    ((∀ m ∈ f.methods, ¬ Fits f m pos kw) ∧
      (callPublic f pos kw = .error .typeError ∨
        callPublic f pos kw = .error f.unknown ∧ ∀ m ∈ f.methods, ∀ i p, f.params[i]? = some p → p.name = "method" →
          valueAt pos kw i p ≠ some (.py (.str m.name)))) := by
  obtain ⟨hn, hA, hdef, hmeth, hnm, hms⟩ := w
  rcases bindParams_spec f.params hn pos kw with ⟨env, he, ha, hke, hv⟩ | ⟨he, ha⟩
  swap
  · refine Or.inr ⟨fun m _ h => ha h.1, Or.inl ?_⟩
    unfold callPublic; rw [he]; rfl
  obtain ⟨iM, pM, hiM, hpM⟩ := exists_param hmeth
  have hmv : env.lookup "method" = valueAt pos kw iM pM := by rw [← hpM]; exact hv iM pM hiM
  have hcall : callPublic f pos kw = match env.lookup "method" with
      | some (.py (.str s)) =>
        match f.methods.find? (fun m => m.name == s) with
        | some m => do
          let A ← localVar env "A"
          let fwd ← keywords env m.forward
          let values ← bindCall m.params [A] (fwd ++ extra f.params kw)
          .ok (m.name, values)
        | none => .error f.unknown
      | _ => .error f.unknown := by
    unfold callPublic; rw [he]; rfl
  by_cases hm : ∃ m ∈ f.methods, env.lookup "method" = some (.py (.str m.name))
  swap
  · have hno : ∀ m ∈ f.methods, ∀ i p, f.params[i]? = some p → p.name = "method" →
        valueAt pos kw i p ≠ some (.py (.str m.name)) := by
      intro m hmm i p hi hp hval
      obtain ⟨rfl, rfl⟩ := index_unique hn hi hiM (hp.trans hpM.symm)
      exact hm ⟨m, hmm, by rw [hmv, hval]⟩
    refine Or.inr ⟨fun m hmm h => hno m hmm iM pM hiM hpM (h.2.1 iM pM hiM hpM), Or.inr ⟨?_, hno⟩⟩
    rw [hcall]
    split
    · next s hs =>
      cases hf : f.methods.find? (fun m => m.name == s) with
      | none => rfl
      | some m =>
        exfalso
        have h1 := List.mem_of_find?_eq_some hf
        have h2 : m.name = s := by simpa using List.find?_some hf
        exact hm ⟨m, h1, by rw [hs, h2]⟩
    · rfl
  obtain ⟨m, hmm, hme⟩ := hm
  rw [hme] at hcall
  simp only [find_method hnm hmm] at hcall
  obtain ⟨pA, hpA, hpAn⟩ := head_of hA
  obtain ⟨vA, hvA⟩ := Option.isSome_iff_exists.mp (accepts_value ha hpA)
  have hlA : env.lookup "A" = some vA := by rw [← hpAn, hv 0 pA hpA, hvA]
  obtain ⟨wn, wA, wd, wf, wsub, wm⟩ := hms m hmm
  have hsome : ∀ n ∈ handed f, (env.lookup n).isSome := by
    intro n hnn
    have hnf : n ∈ names f.params := (List.mem_filter.mp hnn).1
    rw [lookup_isSome_iff]
    show n ∈ keys env
    rw [hke]; exact hnf
  obtain ⟨fwd, hf1, hf2, hf3⟩ := keywords_same env (handed f) hsome
  rw [localVar_ok hlA, wf, hf1] at hcall
  have hcall' : callPublic f pos kw = (do
      let values ← bindCall m.params [vA] (fwd ++ extra f.params kw)
      .ok (m.name, values)) := hcall
  have hkeys : keys (fwd ++ extra f.params kw) = handed f ++ keys (extra f.params kw) := by
    simp only [keys, List.map_append]
    congr 1
  have hnodup : (keys (fwd ++ extra f.params kw)).Nodup := by
    rw [hkeys, List.nodup_append]
    refine ⟨List.Nodup.filter _ hn, ?_, ?_⟩
    · unfold keys extra
      exact List.Nodup.sublist (List.Sublist.map _ List.filter_sublist) hk
    · intro a h1 b h2 hab
      subst hab
      exact ((mem_keys_extra f.params kw a).mp h2).2 (List.mem_filter.mp h1).1
  have hacc : Accepts m.params [vA] (fwd ++ extra f.params kw) := by
    obtain ⟨q, hq, hqn⟩ := head_of wA
    refine ⟨?_, ?_⟩
    · have : 0 < m.params.length := by
        by_contra hc
        rw [List.getElem?_eq_none (by omega)] at hq
        cases hq
      simp only [List.length_cons, List.length_nil]; omega
    · intro i p hp
      refine ⟨fun hi => ?_, fun hi => Or.inr ?_⟩
      · obtain rfl : i = 0 := by simpa using hi
        rw [hq] at hp
        obtain rfl := Option.some.inj hp
        rw [hqn, hkeys, List.mem_append, not_or]
        refine ⟨fun h => by simpa using (List.mem_filter.mp h).2, fun h => ?_⟩
        exact ((mem_keys_extra f.params kw "A").mp h).2 (hpAn ▸ name_mem hpA)
      · rw [wd p (List.mem_of_getElem? hp), bne_iff_ne]
        intro hpe
        have := (index_unique wn hp hq (hpe.trans hqn.symm)).1
        simp [this] at hi
  have hknown : (∀ n ∈ keys (fwd ++ extra f.params kw), n ∈ names m.params) ↔
      ∀ n ∈ keys kw, n ∈ names f.params ∨ n ∈ names m.params := by
    rw [hkeys]
    constructor
    · intro h n hnk
      by_cases hnf : n ∈ names f.params
      · exact Or.inl hnf
      · exact Or.inr (h n (List.mem_append.mpr (Or.inr ((mem_keys_extra f.params kw n).mpr ⟨hnk, hnf⟩))))
    · intro h n hnk
      rcases List.mem_append.mp hnk with h1 | h1
      · have h2 := List.mem_filter.mp h1
        have h3 : n ≠ "A" ∧ n ≠ "method" := by simpa using h2.2
        exact wsub n h2.1 h3.2
      · have h2 := (mem_keys_extra f.params kw n).mp h1
        exact (h n h2.1).resolve_left h2.2
  have hmethod : ∀ i p, f.params[i]? = some p → p.name = "method" →
      valueAt pos kw i p = some (.py (.str m.name)) := by
    intro i p hi hp
    obtain ⟨rfl, rfl⟩ := index_unique hn hi hiM (hp.trans hpM.symm)
    rw [← hmv, hme]
  rcases bindCall_spec m.params wn [vA] (fwd ++ extra f.params kw) with
    ⟨values, hb, -, -, hkn, hkv, hbv⟩ | ⟨hb, hb2⟩
  · refine Or.inl ⟨m, hmm, values, by rw [hcall', hb]; rfl, ⟨ha, hmethod, hknown.mp hkn⟩, hkv, ?_, ?_⟩
    · intro i p hi hp
      obtain ⟨j, q, hj, hq⟩ := exists_param (wsub p.name (name_mem hi) hp)
      rw [← hq, hbv j q hj]
      by_cases hpa : p.name = "A"
      · obtain ⟨rfl, rfl⟩ := index_unique hn hi hpA (hpa.trans hpAn.symm)
        obtain ⟨q', hq', hqn'⟩ := head_of wA
        obtain ⟨rfl, rfl⟩ := index_unique wn hj hq' (hq.trans (hpa.trans hqn'.symm))
        rw [hvA]
        rfl
      · have hj0 : j ≠ 0 := by
          rintro rfl
          obtain ⟨q', hq', hqn'⟩ := head_of wA
          rw [hj] at hq'
          obtain rfl := Option.some.inj hq'
          exact hpa (hq.symm.trans hqn')
        have hh : p.name ∈ handed f := List.mem_filter.mpr ⟨name_mem hi, by simp [hpa, hp]⟩
        have h1 : env.lookup p.name = valueAt pos kw i p := hv i p hi
        obtain ⟨v, hvv⟩ := Option.isSome_iff_exists.mp (accepts_value ha hi)
        rw [hvv]
        unfold valueAt
        rw [List.getElem?_eq_none (by simp; omega), Option.none_or, lookup_append_eq, hq, hf3 _ hh, h1, hvv]
        rfl
    · intro p hp hpf
      obtain ⟨j, hjl, hje⟩ := List.mem_iff_getElem.mp hp
      have hj : m.params[j]? = some p := by rw [List.getElem?_eq_getElem hjl, hje]
      rw [hbv j p hj]
      have hj0 : j ≠ 0 := by
        rintro rfl
        obtain ⟨q', hq', hqn'⟩ := head_of wA
        rw [hj] at hq'
        obtain rfl := Option.some.inj hq'
        exact hpf (hqn' ▸ hpAn ▸ name_mem hpA)
      have hnone : fwd.lookup p.name = none := by
        rw [lookup_none_iff]
        intro h
        have : p.name ∈ handed f := hf2 ▸ h
        exact hpf (List.mem_filter.mp this).1
      unfold valueAt
      rw [List.getElem?_eq_none (by simp; omega), Option.none_or, lookup_append_eq, hnone, Option.none_or,
        lookup_extra _ _ _ hpf]
  · have hbad : ¬ ∀ n ∈ keys kw, n ∈ names f.params ∨ n ∈ names m.params := fun h =>
      hb2 ⟨hacc, hnodup, hknown.mpr h⟩
    refine Or.inr ⟨fun m' hm' h => ?_, Or.inl (by rw [hcall', hb]; rfl)⟩
    have h1 := h.2.1 iM pM hiM hpM
    rw [hmethod iM pM hiM hpM] at h1
    have h2 : m.name = m'.name := by simpa using h1
    have h3 : m = m' := by
      have e1 := find_method hnm hmm
      have e2 := find_method hnm hm'
      rw [h2, e2] at e1
      exact (Option.some.inj e1).symm
    exact hbad (h3 ▸ h.2.2)

end Imate.CallOptions
