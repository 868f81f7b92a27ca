import Verif.Model.CallOptions

/-!
# Lemmas on Python's binding of arguments
-/

namespace Imate.CallOptions

open Imate.Args

variable {M : Type}

theorem lookup_none_iff {β : Type} (n : String) (l : List (String × β)) :
    l.lookup n = none ↔ n ∉ l.map Prod.fst := by
  induction l with
  | nil => simp
  | cons a l ih =>
    obtain ⟨k, v⟩ := a
    by_cases h : n = k
    · subst h; simp
    · have hb : (n == k) = false := by simpa using h
      rw [List.lookup_cons, hb, List.map_cons, List.mem_cons, not_or]
      exact ⟨fun hl => ⟨h, ih.mp hl⟩, fun hl => ih.mpr hl.2⟩

theorem lookup_isSome_iff {β : Type} (n : String) (l : List (String × β)) :
    (l.lookup n).isSome ↔ n ∈ l.map Prod.fst := by
  rw [← not_iff_not, ← lookup_none_iff, Option.not_isSome_iff_eq_none]

theorem lookup_cons_eq {β : Type} (n k : String) (v : β) (l : List (String × β)) :
    ((k, v) :: l).lookup n = if n = k then some v else l.lookup n := by
  by_cases h : n = k
  · subst h; simp
  · have hb : (n == k) = false := by simpa using h
    rw [List.lookup_cons, hb, if_neg h]

theorem lookup_append_eq {β : Type} (n : String) (l₁ l₂ : List (String × β)) :
    (l₁ ++ l₂).lookup n = (l₁.lookup n).or (l₂.lookup n) := by
  induction l₁ with
  | nil => simp
  | cons a l ih =>
    obtain ⟨k, v⟩ := a
    rw [List.cons_append, lookup_cons_eq, lookup_cons_eq, ih]
    split <;> simp

theorem lookup_filter_eq {β : Type} (n : String) (P : String → Prop) [DecidablePred P] (l : List (String × β)) :
    (l.filter fun k => decide (P k.1)).lookup n = if P n then l.lookup n else none := by
  induction l with
  | nil => simp
  | cons a l ih =>
    obtain ⟨k, v⟩ := a
    rw [List.filter_cons]
    by_cases h : n = k
    · subst h
      by_cases hp : P n
      · simp [hp]
      · simp [hp, ih]
    · by_cases hp : P k
      · simp only [hp, decide_true, if_true, lookup_cons_eq, h, if_false, ih]
      · simp only [hp, decide_false, lookup_cons_eq, h, if_false, ih, Bool.false_eq_true]

/-- When a call is accepted. -/
def Accepts (params : List Param) (pos : List (Val M)) (kw : Names M) : Prop :=
  pos.length ≤ params.length ∧
    ∀ i p, params[i]? = some p →
      (i < pos.length → p.name ∉ keys kw) ∧ (pos.length ≤ i → p.name ∈ keys kw ∨ p.default.isSome)

/-- What a parameter is set to. -/
def valueAt (pos : List (Val M)) (kw : Names M) (i : ℕ) (p : Param) : Option (Val M) :=
  ((pos[i]?).or (kw.lookup p.name)).or (p.default.map .py)

theorem fill_eq (kw : Names M) (p : Param) :
    fill kw p = match (kw.lookup p.name).or (p.default.map .py) with
      | some v => .ok v
      | none => .error .typeError := by
  unfold fill
  cases kw.lookup p.name <;> cases p.default <;> rfl

theorem bindParams_spec (params : List Param) (hn : (names params).Nodup) (pos : List (Val M)) (kw : Names M) :
    (∃ env, bindParams params pos kw = .ok env ∧ Accepts params pos kw ∧ keys env = names params ∧
      ∀ i p, params[i]? = some p → env.lookup p.name = valueAt pos kw i p) ∨
    (bindParams params pos kw = .error .typeError ∧ ¬ Accepts params pos kw) := by
  induction params generalizing pos with
  | nil =>
    cases pos with
    | nil => exact Or.inl ⟨[], rfl, ⟨le_refl _, by simp⟩, rfl, by simp⟩
    | cons v vs => exact Or.inr ⟨rfl, fun h => by simpa using h.1⟩
  | cons p ps ih =>
    have hn' : (names ps).Nodup := (List.nodup_cons.mp hn).2
    have hp : ∀ (i : ℕ) (q : Param), ps[i]? = some q → q.name ≠ p.name := fun i q hq he =>
      (List.nodup_cons.mp hn).1 (he ▸ List.mem_map_of_mem (List.mem_of_getElem? hq))
    cases pos with
    | cons v vs =>
      by_cases hk : p.name ∈ keys kw
      · refine Or.inr ⟨by simp [bindParams, hk], fun h => ?_⟩
        exact (h.2 0 p rfl).1 (by simp) hk
      · rcases ih hn' vs with ⟨env, he, ha, hke, hv⟩ | ⟨he, ha⟩
        · refine Or.inl ⟨(p.name, v) :: env, ?_, ⟨?_, ?_⟩, ?_, ?_⟩
          · rw [bindParams, if_neg hk, he]; rfl
          · have := ha.1; simp only [List.length_cons]; omega
          · rintro (_ | i) q hq
            · obtain rfl : p = q := by simpa using hq
              exact ⟨fun _ => hk, fun h => by simp at h⟩
            · have := ha.2 i q (by simpa using hq)
              simpa using this
          · simp only [keys, names, List.map_cons, List.cons.injEq, true_and]; exact hke
          · rintro (_ | i) q hq
            · obtain rfl : p = q := by simpa using hq
              simp [valueAt]
            · have hq' : ps[i]? = some q := by simpa using hq
              rw [lookup_cons_eq, if_neg (hp i q hq'), hv i q hq']
              simp [valueAt]
        · refine Or.inr ⟨by rw [bindParams, if_neg hk, he]; rfl, fun h => ha ⟨?_, fun i q hq => ?_⟩⟩
          · have := h.1; simp only [List.length_cons] at this; omega
          · have := h.2 (i + 1) q (by simpa using hq)
            simpa using this
    | nil =>
      cases hf : (kw.lookup p.name).or (p.default.map .py) with
      | none =>
        refine Or.inr ⟨by rw [bindParams, fill_eq, hf]; rfl, fun h => ?_⟩
        have h0 := (h.2 0 p rfl).2 (by simp)
        rw [Option.or_eq_none_iff] at hf
        rcases h0 with h0 | h0
        · exact (lookup_none_iff _ _).mp hf.1 h0
        · have := hf.2
          cases hd : p.default <;> simp [hd] at h0 this
      | some v =>
        have h0 : p.name ∈ keys kw ∨ p.default.isSome := by
          by_contra hc
          push Not at hc
          have h1 : kw.lookup p.name = none := (lookup_none_iff _ _).mpr hc.1
          have h2 : p.default = none := by
            cases hd : p.default with
            | none => rfl
            | some d => simp [hd] at hc
          rw [h1, h2] at hf
          cases hf
        rcases ih hn' [] with ⟨env, he, ha, hke, hv⟩ | ⟨he, ha⟩
        · refine Or.inl ⟨(p.name, v) :: env, ?_, ⟨by simp, ?_⟩, ?_, ?_⟩
          · rw [bindParams, fill_eq, hf]
            simp only [he]; rfl
          · rintro (_ | i) q hq
            · obtain rfl : p = q := by simpa using hq
              exact ⟨fun h => by simp at h, fun _ => h0⟩
            · have := ha.2 i q (by simpa using hq)
              simpa using this
          · simp only [keys, names, List.map_cons, List.cons.injEq, true_and]; exact hke
          · rintro (_ | i) q hq
            · obtain rfl : p = q := by simpa using hq
              simp [valueAt, hf]
            · have hq' : ps[i]? = some q := by simpa using hq
              rw [lookup_cons_eq, if_neg (hp i q hq'), hv i q hq']
              simp [valueAt]
        · refine Or.inr ⟨by rw [bindParams, fill_eq, hf]; simp only [he]; rfl, fun h => ha ⟨by simp, fun i q hq => ?_⟩⟩
          have := h.2 (i + 1) q (by simpa using hq)
          simpa using this

theorem mem_keys_extra (params : List Param) (kw : Names M) (n : String) :
    n ∈ keys (extra params kw) ↔ n ∈ keys kw ∧ n ∉ names params := by
  unfold keys extra
  simp only [List.mem_map, List.mem_filter, decide_eq_true_eq]
  constructor
  · rintro ⟨a, ⟨h1, h2⟩, rfl⟩; exact ⟨⟨a, h1, rfl⟩, h2⟩
  · rintro ⟨⟨a, h1, rfl⟩, h2⟩; exact ⟨a, ⟨h1, h2⟩, rfl⟩

theorem extra_empty_iff (params : List Param) (kw : Names M) :
    (extra params kw).isEmpty = true ↔ ∀ n ∈ keys kw, n ∈ names params := by
  rw [List.isEmpty_iff]
  constructor
  · intro h n hn
    by_contra hc
    have := (mem_keys_extra params kw n).mpr ⟨hn, hc⟩
    rw [h] at this
    simp [keys] at this
  · intro h
    rw [List.eq_nil_iff_forall_not_mem]
    intro a ha
    have := (mem_keys_extra params kw a.1).mp (List.mem_map_of_mem ha)
    exact this.2 (h _ this.1)

theorem lookup_extra (params : List Param) (kw : Names M) (n : String) (hn : n ∉ names params) :
    (extra params kw).lookup n = kw.lookup n := by
  unfold extra
  rw [lookup_filter_eq n (fun k => k ∉ names params), if_pos hn]

theorem lookup_extra_none (params : List Param) (kw : Names M) (n : String) (hn : n ∈ names params) :
    (extra params kw).lookup n = none := by
  rw [lookup_none_iff]
  intro h
  exact ((mem_keys_extra params kw n).mp h).2 hn

/-- The call of a function without `**options`. -/
theorem bindCall_spec (params : List Param) (hn : (names params).Nodup) (pos : List (Val M)) (kw : Names M) :
    (∃ env, bindCall params pos kw = .ok env ∧ Accepts params pos kw ∧ (keys kw).Nodup ∧
      (∀ n ∈ keys kw, n ∈ names params) ∧ keys env = names params ∧
      ∀ i p, params[i]? = some p → env.lookup p.name = valueAt pos kw i p) ∨
    (bindCall params pos kw = .error .typeError ∧
      ¬ (Accepts params pos kw ∧ (keys kw).Nodup ∧ ∀ n ∈ keys kw, n ∈ names params)) := by
  unfold bindCall
  by_cases h1 : ∀ n ∈ keys kw, n ∈ names params
  · by_cases h2 : (keys kw).Nodup
    · have : ¬ ((!(extra params kw).isEmpty || !decide (keys kw).Nodup) = true) := by
        simp [(extra_empty_iff params kw).mpr h1, h2]
      rw [if_neg this]
      rcases bindParams_spec params hn pos kw with ⟨env, he, ha, hk, hv⟩ | ⟨he, ha⟩
      · exact Or.inl ⟨env, he, ha, h2, h1, hk, hv⟩
      · exact Or.inr ⟨he, fun h => ha h.1⟩
    · rw [if_pos (by simp [h2])]
      exact Or.inr ⟨rfl, fun h => h2 h.2.1⟩
  · have : (extra params kw).isEmpty = false := by
      rw [← Bool.not_eq_true, extra_empty_iff]; exact h1
    rw [if_pos (by simp [this])]
    exact Or.inr ⟨rfl, fun h => h1 h.2.2⟩

theorem localVar_ok {env : Names M} {n : String} {v : Val M} (h : env.lookup n = some v) : localVar env n = .ok v := by
  unfold localVar; rw [h]

/-- The keyword arguments `n=n`. -/
theorem keywords_same (env : Names M) (ns : List String) (h : ∀ n ∈ ns, (env.lookup n).isSome) :
    ∃ fwd, keywords env (ns.map fun n => (n, n)) = .ok fwd ∧ keys fwd = ns ∧
      ∀ n ∈ ns, fwd.lookup n = env.lookup n := by
  induction ns with
  | nil => exact ⟨[], rfl, rfl, by simp⟩
  | cons n ns ih =>
    obtain ⟨fwd, h1, h2, h3⟩ := ih fun k hk => h k (List.mem_cons_of_mem _ hk)
    obtain ⟨v, hv⟩ := Option.isSome_iff_exists.mp (h n List.mem_cons_self)
    refine ⟨(n, v) :: fwd, ?_, by simp only [keys, List.map_cons, List.cons.injEq, true_and]; exact h2, ?_⟩
    · rw [List.map_cons, keywords, localVar_ok hv, h1]; rfl
    · intro k hk
      rw [lookup_cons_eq]
      by_cases hkn : k = n
      · subst hkn; rw [if_pos rfl, hv]
      · rw [if_neg hkn]
        exact h3 k ((List.mem_cons.mp hk).resolve_left hkn)

end Imate.CallOptions
