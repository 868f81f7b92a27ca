import Verif.Spec.MultiGpu
import Mathlib.Tactic.Linarith

/-! # The memory of an operator on several devices: invariants -/

namespace Imate.MultiGpu

open Imate.Spec

variable {α : Type} {r team k : Nat} {host : Nat → α} {h0 : List (Block α)}

theorem modify_ne {l : List (Block α)} {a a' : Nat} {f : Block α → Block α} (h : a ≠ a') : (l.modify a f)[a']? = l[a']? := by
  rw [List.getElem?_modify]
  simp [h]

theorem modify_eq {l : List (Block α)} {a : Nat} {f : Block α → Block α} : (l.modify a f)[a]? = (l[a]?).map f := by
  rw [List.getElem?_modify]
  simp

/-- The invariant of the parallel region. -/
structure Inv (r team : Nat) (host : Nat → α) (h0 : List (Block α)) (s : State α) : Prop where
  len : h0.length ≤ s.heap.length
  base : s.heap.take h0.length = h0
  pcle : ∀ i, s.pc i ≤ 2 * r + 1
  cur : ∀ i, 1 ≤ s.pc i → s.current i = i
  alloc : ∀ i j, j < s.pc i / 2 → ∃ a, s.pointer i j = some a ∧ h0.length ≤ a ∧
    s.heap[a]? = some ⟨i, if j < (s.pc i - 1) / 2 then some (host j) else none, true⟩
  unset : ∀ i j, s.pc i / 2 ≤ j → s.pointer i j = none
  owner : ∀ a, h0.length ≤ a → a < s.heap.length → ∃ i j, s.pointer i j = some a
  inj : ∀ i j i' j' a, s.pointer i j = some a → s.pointer i' j' = some a → i = i' ∧ j = j'
  idle : ∀ i, team ≤ i → s.pc i = 0

theorem Inv.start (current : Nat → Nat) : Inv r team host h0 (State.start h0 current) where
  len := le_refl _
  base := by simp [State.start]
  pcle := fun i => by simp [State.start]
  cur := fun i h => by simp [State.start] at h
  alloc := fun i j h => by simp [State.start] at h
  unset := fun i j _ => rfl
  owner := fun a h1 h2 => by simp [State.start] at h2; omega
  inj := fun i j i' j' a h => by simp [State.start] at h
  idle := fun i _ => rfl

theorem Inv.lt {s : State α} (h : Inv r team host h0 s) {i j a : Nat} (hp : s.pointer i j = some a) :
    j < s.pc i / 2 ∧ h0.length ≤ a ∧ a < s.heap.length := by
  have h1 : j < s.pc i / 2 := by
    by_contra hc
    rw [h.unset i j (by omega)] at hp
    cases hp
  obtain ⟨a', h2, h3, h4⟩ := h.alloc i j h1
  rw [hp] at h2
  cases h2
  exact ⟨h1, h3, (List.getElem?_eq_some_iff.1 h4).1⟩

theorem Inv.step {s : State α} (h : Inv r team host h0 s) {i : Nat} (hi : i < team) :
    Inv r team host h0 (step r host i s) := by
  unfold MultiGpu.step
  split
  · rename_i h0pc
    constructor
    · exact h.len
    · exact h.base
    · intro i'
      show Function.update s.pc i 1 i' ≤ _
      by_cases e : i' = i
      · subst e; rw [Function.update_self]; omega
      · rw [Function.update_of_ne e]; exact h.pcle i'
    · intro i'
      show 1 ≤ Function.update s.pc i 1 i' → Function.update s.current i i i' = i'
      by_cases e : i' = i
      · subst e; simp
      · rw [Function.update_of_ne e, Function.update_of_ne e]; exact h.cur i'
    · intro i' j
      show j < Function.update s.pc i 1 i' / 2 → ∃ a, s.pointer i' j = some a ∧ h0.length ≤ a ∧
        s.heap[a]? = some ⟨i', if j < (Function.update s.pc i 1 i' - 1) / 2 then some (host j) else none, true⟩
      by_cases e : i' = i
      · subst e; rw [Function.update_self]; omega
      · rw [Function.update_of_ne e]; exact h.alloc i' j
    · intro i' j
      show Function.update s.pc i 1 i' / 2 ≤ j → s.pointer i' j = none
      by_cases e : i' = i
      · subst e; intro _; exact h.unset i' j (by omega)
      · rw [Function.update_of_ne e]; exact h.unset i' j
    · exact h.owner
    · exact h.inj
    · intro i' hi'
      show Function.update s.pc i 1 i' = 0
      rw [Function.update_of_ne (by omega)]
      exact h.idle i' hi'
  · split
    · rename_i hpc0 hpc
      split
      · rename_i hodd
        set j0 := (s.pc i - 1) / 2 with hj0
        have hj : s.pc i / 2 = j0 := by omega
        have hj' : (s.pc i + 1) / 2 = j0 + 1 := by omega
        constructor
        · show h0.length ≤ (s.heap ++ [_]).length
          rw [List.length_append]
          have := h.len
          omega
        · show (s.heap ++ [_]).take h0.length = h0
          rw [List.take_append_of_le_length h.len]
          exact h.base
        · intro i'
          show Function.update s.pc i (s.pc i + 1) i' ≤ _
          by_cases e : i' = i
          · subst e; rw [Function.update_self]; omega
          · rw [Function.update_of_ne e]; exact h.pcle i'
        · intro i'
          show 1 ≤ Function.update s.pc i (s.pc i + 1) i' → s.current i' = i'
          by_cases e : i' = i
          · subst e; intro _; exact h.cur i' (by omega)
          · rw [Function.update_of_ne e]; exact h.cur i'
        · intro i' j
          show j < Function.update s.pc i (s.pc i + 1) i' / 2 → ∃ a,
            Function.update s.pointer i (Function.update (s.pointer i) j0 (some s.heap.length)) i' j = some a ∧
            h0.length ≤ a ∧ (s.heap ++ [⟨s.current i, none, true⟩])[a]? = some ⟨i',
              if j < (Function.update s.pc i (s.pc i + 1) i' - 1) / 2 then some (host j) else none, true⟩
          by_cases e : i' = i
          · subst e
            rw [Function.update_self, Function.update_self, hj']
            intro hjlt
            by_cases ej : j = j0
            · subst ej
              rw [Function.update_self]
              refine ⟨_, rfl, h.len, ?_⟩
              rw [List.getElem?_append_right (le_refl _), Nat.sub_self, h.cur i' (by omega), if_neg (by omega)]
              rfl
            · rw [Function.update_of_ne ej]
              obtain ⟨a, h1, h2, h3⟩ := h.alloc i' j (by omega)
              refine ⟨a, h1, h2, ?_⟩
              rw [List.getElem?_append_left (h.lt h1).2.2, h3, if_pos (by omega), if_pos (by omega)]
          · rw [Function.update_of_ne e, Function.update_of_ne e]
            intro hjlt
            obtain ⟨a, h1, h2, h3⟩ := h.alloc i' j hjlt
            refine ⟨a, h1, h2, ?_⟩
            rw [List.getElem?_append_left (h.lt h1).2.2, h3]
        · intro i' j
          show Function.update s.pc i (s.pc i + 1) i' / 2 ≤ j →
            Function.update s.pointer i (Function.update (s.pointer i) j0 (some s.heap.length)) i' j = none
          by_cases e : i' = i
          · subst e
            rw [Function.update_self, Function.update_self, hj']
            intro hle
            rw [Function.update_of_ne (by omega)]
            exact h.unset i' j (by omega)
          · rw [Function.update_of_ne e, Function.update_of_ne e]; exact h.unset i' j
        · intro a h1 h2
          show ∃ i' j, Function.update s.pointer i (Function.update (s.pointer i) j0 (some s.heap.length)) i' j = some a
          have h2' : a < s.heap.length + 1 := by simpa using h2
          by_cases ea : a = s.heap.length
          · subst ea
            exact ⟨i, j0, by rw [Function.update_self, Function.update_self]⟩
          · obtain ⟨i', j, h3⟩ := h.owner a h1 (by omega)
            refine ⟨i', j, ?_⟩
            by_cases e : i' = i
            · subst e
              rw [Function.update_self, Function.update_of_ne, h3]
              have := (h.lt h3).1
              omega
            · rw [Function.update_of_ne e, h3]
        · have key : ∀ i' j a,
            Function.update s.pointer i (Function.update (s.pointer i) j0 (some s.heap.length)) i' j = some a →
            (i' = i ∧ j = j0 ∧ a = s.heap.length) ∨ (s.pointer i' j = some a ∧ a < s.heap.length) := by
            intro i' j a hp
            by_cases e : i' = i
            · subst e
              rw [Function.update_self] at hp
              by_cases ej : j = j0
              · subst ej
                rw [Function.update_self] at hp
                cases hp
                exact Or.inl ⟨rfl, rfl, rfl⟩
              · rw [Function.update_of_ne ej] at hp
                exact Or.inr ⟨hp, (h.lt hp).2.2⟩
            · rw [Function.update_of_ne e] at hp
              exact Or.inr ⟨hp, (h.lt hp).2.2⟩
          intro i1 j1 i2 j2 a hp1 hp2
          rcases key i1 j1 a hp1 with ⟨a1, a2, a3⟩ | ⟨a1, a2⟩ <;> rcases key i2 j2 a hp2 with ⟨b1, b2, b3⟩ | ⟨b1, b2⟩
          · omega
          · omega
          · omega
          · exact h.inj i1 j1 i2 j2 a a1 b1
        · intro i' hi'
          show Function.update s.pc i (s.pc i + 1) i' = 0
          rw [Function.update_of_ne (by omega)]
          exact h.idle i' hi'
      · rename_i heven
        set j0 := (s.pc i - 1) / 2 with hj0
        have hj : s.pc i / 2 = j0 + 1 := by omega
        obtain ⟨a0, hp0, hb0, hv0⟩ := h.alloc i j0 (by omega)
        show Inv r team host h0 (match s.pointer i j0 with | none => s | some a => _)
        rw [hp0]
        show Inv r team host h0 { s with
          heap := s.heap.modify a0 fun b => { b with content := some (host j0) }
          pc := Function.update s.pc i (s.pc i + 1) }
        constructor
        · show h0.length ≤ (s.heap.modify _ _).length
          rw [List.length_modify]
          exact h.len
        · show (s.heap.modify _ _).take h0.length = h0
          conv_rhs => rw [← h.base]
          apply List.ext_getElem?
          intro m
          rw [List.getElem?_take, List.getElem?_take]
          split
          · rw [modify_ne (by omega)]
          · rfl
        · intro i'
          show Function.update s.pc i (s.pc i + 1) i' ≤ _
          by_cases e : i' = i
          · subst e; rw [Function.update_self]; omega
          · rw [Function.update_of_ne e]; exact h.pcle i'
        · intro i'
          show 1 ≤ Function.update s.pc i (s.pc i + 1) i' → s.current i' = i'
          by_cases e : i' = i
          · subst e; intro _; exact h.cur i' (by omega)
          · rw [Function.update_of_ne e]; exact h.cur i'
        · intro i' j
          show j < Function.update s.pc i (s.pc i + 1) i' / 2 → ∃ a, s.pointer i' j = some a ∧ h0.length ≤ a ∧
            (s.heap.modify a0 fun b => { b with content := some (host j0) })[a]? = some ⟨i',
              if j < (Function.update s.pc i (s.pc i + 1) i' - 1) / 2 then some (host j) else none, true⟩
          by_cases e : i' = i
          · subst e
            rw [Function.update_self]
            intro hjlt
            obtain ⟨a, h1, h2, h3⟩ := h.alloc i' j (by omega)
            refine ⟨a, h1, h2, ?_⟩
            by_cases ej : j = j0
            · subst ej
              rw [hp0] at h1
              cases h1
              rw [modify_eq, h3, if_pos (show j0 < (s.pc i' + 1 - 1) / 2 by omega)]
              rfl
            · have : a0 ≠ a := fun ea => ej (h.inj i' j i' j0 a h1 (ea ▸ hp0)).2
              rw [modify_ne this, h3, if_pos (by omega), if_pos (by omega)]
          · rw [Function.update_of_ne e]
            intro hjlt
            obtain ⟨a, h1, h2, h3⟩ := h.alloc i' j hjlt
            refine ⟨a, h1, h2, ?_⟩
            have : a0 ≠ a := fun ea => e (h.inj i' j i j0 a h1 (ea ▸ hp0)).1
            rw [modify_ne this, h3]
        · intro i' j
          show Function.update s.pc i (s.pc i + 1) i' / 2 ≤ j → s.pointer i' j = none
          by_cases e : i' = i
          · subst e; rw [Function.update_self]; intro _; exact h.unset i' j (by omega)
          · rw [Function.update_of_ne e]; exact h.unset i' j
        · intro a h1 h2
          exact h.owner a h1 (by simpa using h2)
        · exact h.inj
        · intro i' hi'
          show Function.update s.pc i (s.pc i + 1) i' = 0
          rw [Function.update_of_ne (by omega)]
          exact h.idle i' hi'
    · exact h

theorem Inv.run : ∀ (is : List Nat) {s : State α}, Inv r team host h0 s → (∀ i ∈ is, i < team) →
    Inv r team host h0 (run r host is s)
  | [], _, h, _ => h
  | i :: is, _, h, hi => Inv.run is (h.step (hi i (by simp))) fun j hj => hi j (by simp [hj])

/-- After the region. -/
structure Done (r team : Nat) (host : Nat → α) (h0 : List (Block α)) (s : State α) : Prop where
  base : s.heap.take h0.length = h0
  set : ∀ i j, i < team → j < r → ∃ a, s.pointer i j = some a ∧ h0.length ≤ a ∧ s.heap[a]? = some ⟨i, some (host j), true⟩
  unset : ∀ i j, team ≤ i → s.pointer i j = none
  owner : ∀ a, h0.length ≤ a → a < s.heap.length → ∃ i j, i < team ∧ j < r ∧ s.pointer i j = some a
  inj : ∀ i j i' j' a, s.pointer i j = some a → s.pointer i' j' = some a → i = i' ∧ j = j'

theorem Built.done {s : State α} {current : Nat → Nat} (h : Built r team host (State.start h0 current) s) :
    Done r team host h0 s := by
  obtain ⟨is, his, rfl, hf⟩ := h
  have hI := Inv.run is (Inv.start (r := r) (host := host) (h0 := h0) current) his
  refine ⟨hI.base, fun i j hi hj => ?_, fun i j hi => ?_, fun a h1 h2 => ?_, hI.inj⟩
  · have h1 := hf i hi
    obtain ⟨a, h2, h3, h4⟩ := hI.alloc i j (by omega)
    exact ⟨a, h2, h3, by rw [h4, if_pos (by omega)]⟩
  · exact hI.unset i j (by rw [hI.idle i hi]; omega)
  · obtain ⟨i, j, h3⟩ := hI.owner a h1 h2
    have h4 := (hI.lt h3).1
    have h5 : i < team := by
      by_contra hc
      rw [hI.idle i (by omega)] at h4
      omega
    have := hf i h5
    exact ⟨i, j, h5, by omega, h3⟩

theorem Done.read {s : State α} (h : Done r team host h0 s) (hk : team ≤ k) {i j : Nat} (hi : i < team) (hj : j < r) :
    read k s i j = .ok (host j) := by
  obtain ⟨a, h1, h2, h3⟩ := h.set i j hi hj
  unfold MultiGpu.read
  rw [if_neg (by omega), h1]
  simp only [h3, if_true]

/-- The arrays in `F` are released. -/
structure Freed (s s' : State α) (F : Nat → Nat → Prop) : Prop where
  pointer : s'.pointer = s.pointer
  dead : ∀ i j a, F i j → s.pointer i j = some a → s'.heap[a]? = (s.heap[a]?).map fun b => { b with live := false }
  same : ∀ a, (∀ i j, F i j → s.pointer i j ≠ some a) → s'.heap[a]? = s.heap[a]?

theorem Freed.one {s s' : State α} {F : Nat → Nat → Prop} (hF : Freed s s' F) (h : Done r team host h0 s) {i j : Nat}
    (hi : i < team) (hj : j < r) (hn : ¬ F i j) :
    ∃ s'', free s' i j = .ok s'' ∧ Freed s s'' fun i' j' => F i' j' ∨ (i' = i ∧ j' = j) := by
  obtain ⟨a, h1, h2, h3⟩ := h.set i j hi hj
  have h4 : s'.heap[a]? = s.heap[a]? := hF.same a fun i' j' hf hp => by
    obtain ⟨rfl, rfl⟩ := h.inj _ _ _ _ _ hp h1
    exact hn hf
  refine ⟨{ s' with heap := s'.heap.modify a fun b => { b with live := false } }, ?_, hF.pointer, ?_, ?_⟩
  · unfold free
    rw [hF.pointer, h1]
    simp only [h4, h3, if_true]
  · intro i' j' a' hf hp
    show (s'.heap.modify a fun b => { b with live := false })[a']? = _
    rcases hf with hf | ⟨rfl, rfl⟩
    · have : a ≠ a' := by
        rintro rfl
        obtain ⟨rfl, rfl⟩ := h.inj _ _ _ _ _ hp h1
        exact hn hf
      rw [modify_ne this, hF.dead i' j' a' hf hp]
    · rw [h1] at hp
      cases hp
      rw [modify_eq, h4]
  · intro a' hne
    show (s'.heap.modify a fun b => { b with live := false })[a']? = _
    have : a ≠ a' := by
      rintro rfl
      exact hne i j (Or.inr ⟨rfl, rfl⟩) h1
    rw [modify_ne this, hF.same a' fun i' j' hf => hne i' j' (Or.inl hf)]

theorem Freed.congr {s s' : State α} {F G : Nat → Nat → Prop} (hF : Freed s s' F) (h : ∀ i j, G i j ↔ F i j) :
    Freed s s' G :=
  ⟨hF.pointer, fun i j a hg => hF.dead i j a ((h i j).1 hg), fun a hne => hF.same a fun i j hf => hne i j ((h i j).2 hf)⟩

theorem freeDevice_done {s : State α} (h : Done r team host h0 s) {i : Nat} (hi : i < team) {F : Nat → Nat → Prop}
    (hn : ∀ j, ¬ F i j) {s' : State α} (hF : Freed s s' F) : ∀ m ≤ r, ∃ s'', freeDevice i m s' = .ok s'' ∧
      Freed s s'' fun i' j' => F i' j' ∨ (i' = i ∧ j' < m)
  | 0, _ => ⟨s', rfl, hF.congr fun i' j' => by simp⟩
  | m + 1, hm => by
    obtain ⟨s1, h1, h2⟩ := freeDevice_done h hi hn hF m (by omega)
    obtain ⟨s2, h3, h4⟩ := h2.one h hi (j := m) (by omega) (by
      rintro (hf | ⟨_, hf⟩)
      · exact hn m hf
      · omega)
    refine ⟨s2, ?_, h4.congr fun i' j' => ?_⟩
    · unfold freeDevice
      rw [h1]
      exact h3
    · constructor
      · rintro (hf | ⟨rfl, hf⟩)
        · exact Or.inl (Or.inl hf)
        · rcases Nat.lt_succ_iff_lt_or_eq.1 hf with hf | rfl
          · exact Or.inl (Or.inr ⟨rfl, hf⟩)
          · exact Or.inr ⟨rfl, rfl⟩
      · rintro ((hf | ⟨rfl, hf⟩) | ⟨rfl, rfl⟩)
        · exact Or.inl hf
        · exact Or.inr ⟨rfl, by omega⟩
        · exact Or.inr ⟨rfl, by omega⟩

theorem destroy_done {s : State α} (h : Done r team host h0 s) : ∀ m ≤ team, ∃ s', destroy r m s = .ok s' ∧
      Freed s s' fun i j => i < m ∧ j < r
  | 0, _ => ⟨s, rfl, rfl, fun i j a hf => absurd hf.1 (by omega), fun a _ => rfl⟩
  | m + 1, hm => by
    obtain ⟨s1, h1, h2⟩ := destroy_done h m (by omega)
    obtain ⟨s2, h3, h4⟩ := freeDevice_done h (i := m) (by omega) (fun j hj => by omega) h2 r (le_refl _)
    refine ⟨s2, ?_, h4.congr fun i j => ?_⟩
    · unfold destroy
      rw [h1]
      exact h3
    · omega

/-- With a smaller team the destructor meets a pointer that was never set. -/
theorem destroy_fails {s : State α} (h : Done r team host h0 s) (hr : 1 ≤ r) : ∀ m, destroy r (team + 1 + m) s =
    .error .undefined
  | 0 => by
    obtain ⟨s1, h1, h2⟩ := destroy_done h team (le_refl _)
    have h3 : ∀ m, freeDevice team (m + 1) s1 = .error .undefined := by
      intro m
      induction m with
      | zero =>
        show free s1 team 0 = _
        unfold free
        rw [h2.pointer, h.unset team 0 (le_refl _)]
      | succ m ih =>
        unfold freeDevice
        rw [ih]
        rfl
    obtain ⟨r', rfl⟩ : ∃ r', r = r' + 1 := ⟨r - 1, by omega⟩
    show (destroy (r' + 1) team s).bind (fun s => freeDevice team (r' + 1) s) = _
    rw [h1]
    exact h3 r'
  | m + 1 => by
    show (destroy r (team + 1 + m) s).bind (fun s => freeDevice (team + 1 + m) r s) = _
    rw [destroy_fails h hr m]
    rfl

end Imate.MultiGpu
