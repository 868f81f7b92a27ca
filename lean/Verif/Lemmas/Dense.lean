import Verif.Model.Correlation
import Verif.Spec.Interleave

/-!
# The dense loop under every schedule
-/

namespace Imate.Sample

open Imate.Spec

variable {V : Type}

theorem cell_inj {n i j i' j' : ℕ} (hj : j < n) (hj' : j' < n) (h : i * n + j = i' * n + j') : i = i' ∧ j = j' := by
  have hn : 0 < n := by omega
  have h1 : (i * n + j) / n = i := by
    rw [mul_comm, Nat.mul_add_div hn, Nat.div_eq_of_lt hj, add_zero]
  have h2 : (i' * n + j') / n = i' := by
    rw [mul_comm, Nat.mul_add_div hn, Nat.div_eq_of_lt hj', add_zero]
  have hi : i = i' := by rw [← h1, ← h2, h]
  subst hi
  exact ⟨rfl, by omega⟩

theorem cell_lt {n i j : ℕ} (hi : i < n) (hj : j < n) : i * n + j < n * n := by
  have : (i + 1) * n ≤ n * n := Nat.mul_le_mul_right n hi
  rw [Nat.add_mul, one_mul] at this
  omega

/-- The actions that occur. -/
def DenseAct.Valid (n : ℕ) : DenseAct → Prop
  | .compute i j => i ≤ j ∧ j < n
  | .mirror i j => i < j ∧ j < n

/-- What the buffer holds after the actions in `done`. -/
structure DenseInv (entry : ℕ → ℕ → V) (n : ℕ) (done : DenseAct → Prop) (c : Array V) : Prop where
  size : c.size = n * n
  upper : ∀ i j, done (.compute i j) → c[i * n + j]? = some (entry i j)
  lower : ∀ i j, done (.mirror i j) → c[j * n + i]? = some (entry i j)
  valid : ∀ a, done a → a.Valid n

/-- In the program `p`, every copy comes after the computation of the entry it copies. -/
def Ordered (done : DenseAct → Prop) (p : List DenseAct) : Prop :=
  ∀ pre post i j, p = pre ++ .mirror i j :: post → done (.compute i j) ∨ .compute i j ∈ pre

theorem denseExec_inv {entry : ℕ → ℕ → V} {n : ℕ} {done : DenseAct → Prop} {c : Array V}
    (h : DenseInv entry n done c) {a : DenseAct} (ha : a.Valid n)
    (ho : ∀ i j, a = .mirror i j → done (.compute i j)) :
    ∃ c', denseExec entry n c a = .ok c' ∧ DenseInv entry n (fun b => b = a ∨ done b) c' := by
  cases a with
  | compute i j =>
    obtain ⟨hij, hj⟩ := ha
    have hlt : i * n + j < c.size := by rw [h.size]; exact cell_lt (by omega) hj
    refine ⟨c.set (i * n + j) (entry i j), by simp [denseExec, wr, hlt], by simp [h.size], ?_, ?_, ?_⟩
    · rintro i' j' hd
      rw [Array.getElem?_set hlt]
      split_ifs with he
      · rcases hd with hd | hd
        · cases hd; rfl
        · have hv := h.valid _ hd
          obtain ⟨rfl, rfl⟩ := cell_inj hj hv.2 he
          rfl
      · rcases hd with hd | hd
        · cases hd; exact absurd rfl he
        · exact h.upper _ _ hd
    · rintro i' j' hd
      have hd : done (.mirror i' j') := by simpa using hd
      have hv := h.valid _ hd
      rw [Array.getElem?_set hlt, if_neg, h.lower _ _ hd]
      intro he
      obtain ⟨rfl, rfl⟩ := cell_inj hj (show i' < n from hv.1.trans hv.2) he
      exact absurd hv.1 (by omega)
    · rintro b (rfl | hd)
      · exact ⟨hij, hj⟩
      · exact h.valid _ hd
  | mirror i j =>
    obtain ⟨hij, hj⟩ := ha
    have hread := h.upper _ _ (ho i j rfl)
    have hlt : j * n + i < c.size := by rw [h.size]; exact cell_lt hj (by omega)
    refine ⟨c.set (j * n + i) (entry i j), by simp [denseExec, rd, wr, hread, hlt, bind, Except.bind],
      by simp [h.size], ?_, ?_, ?_⟩
    · rintro i' j' hd
      have hd : done (.compute i' j') := by simpa using hd
      have hv := h.valid _ hd
      rw [Array.getElem?_set hlt, if_neg, h.upper _ _ hd]
      intro he
      obtain ⟨rfl, rfl⟩ := cell_inj (show i < n by omega) hv.2 he
      exact absurd hv.1 (by omega)
    · rintro i' j' hd
      rw [Array.getElem?_set hlt]
      split_ifs with he
      · rcases hd with hd | hd
        · cases hd; rfl
        · have hv := h.valid _ hd
          obtain ⟨rfl, rfl⟩ := cell_inj (show i < n by omega) (show i' < n from hv.1.trans hv.2) he
          rfl
      · rcases hd with hd | hd
        · cases hd; exact absurd rfl he
        · exact h.lower _ _ hd
    · rintro b (rfl | hd)
      · exact ⟨hij, hj⟩
      · exact h.valid _ hd

theorem denseRun_inv {entry : ℕ → ℕ → V} {n : ℕ} {ps : List (List DenseAct)} {es : List DenseAct}
    (hi : Interleaving ps es) : ∀ {done : DenseAct → Prop} {c : Array V}, DenseInv entry n done c →
    (∀ p ∈ ps, Ordered done p) → (∀ p ∈ ps, ∀ a ∈ p, a.Valid n) →
    ∃ c', denseRun entry n es c = .ok c' ∧ DenseInv entry n (fun b => b ∈ es ∨ done b) c' := by
  induction hi with
  | done _ =>
    intro done c h _ _
    exact ⟨c, rfl, by simpa using h⟩
  | @step ps t e rest es ht _ ih =>
    intro done c h ho hv
    have hmem := List.mem_of_getElem? ht
    obtain ⟨c1, h1, hi1⟩ := denseExec_inv h (hv _ hmem e List.mem_cons_self) (by
      rintro i j rfl
      simpa using ho _ hmem [] rest i j rfl)
    obtain ⟨c2, h2, hi2⟩ := ih hi1 (by
      intro p hp
      rcases List.mem_or_eq_of_mem_set hp with hp | rfl
      · intro pre post i j he
        rcases ho p hp pre post i j he with h | h
        · exact .inl (.inr h)
        · exact .inr h
      · intro pre post i j he
        rcases ho _ hmem (e :: pre) post i j (by rw [he]; rfl) with h | h
        · exact .inl (.inr h)
        · rcases List.mem_cons.1 h with h | h
          · exact .inl (.inl h)
          · exact .inr h) (by
      intro p hp a ha
      rcases List.mem_or_eq_of_mem_set hp with hp | rfl
      · exact hv p hp a ha
      · exact hv _ hmem a (List.mem_cons_of_mem _ ha))
    refine ⟨c2, ?_, ?_⟩
    · unfold denseRun at h2 ⊢
      rw [List.foldlM_cons, h1]
      exact h2
    · convert hi2 using 2 with b
      simp only [List.mem_cons]
      tauto

theorem mem_denseRow {n i : ℕ} {a : DenseAct} :
    a ∈ denseRow n i ↔ (∃ j, i ≤ j ∧ j < n ∧ a = .compute i j) ∨ ∃ j, i < j ∧ j < n ∧ a = .mirror i j := by
  unfold denseRow
  simp only [List.mem_flatMap, List.mem_range'_1]
  constructor
  · rintro ⟨j, ⟨h1, h2⟩, ha⟩
    split_ifs at ha with hne
    · simp only [List.mem_cons, List.not_mem_nil, or_false] at ha
      rcases ha with rfl | rfl
      · exact .inl ⟨j, h1, by omega, rfl⟩
      · exact .inr ⟨j, by omega, by omega, rfl⟩
    · simp only [List.mem_cons, List.not_mem_nil, or_false] at ha
      exact .inl ⟨j, h1, by omega, ha⟩
  · rintro (⟨j, h1, h2, rfl⟩ | ⟨j, h1, h2, rfl⟩)
    · exact ⟨j, ⟨h1, by omega⟩, by split_ifs <;> simp⟩
    · exact ⟨j, ⟨h1.le, by omega⟩, by rw [if_pos h1.ne]; simp⟩

/-- A list of blocks in each of which the copies come after the computations. -/
theorem ordered_flatMap {α : Type} (f : α → List DenseAct) (l : List α)
    (h : ∀ x ∈ l, Ordered (fun _ => False) (f x)) : Ordered (fun _ => False) (l.flatMap f) := by
  induction l with
  | nil => intro pre post i j he; simp at he
  | cons x l ih =>
    intro pre post i j he
    rw [List.flatMap_cons] at he
    rcases List.append_eq_append_iff.1 he with ⟨as, h1, h2⟩ | ⟨bs, h1, h2⟩
    · rcases ih (fun y hy => h y (List.mem_cons_of_mem _ hy)) as post i j h2 with hd | hd
      · exact hd.elim
      · exact .inr (by rw [h1]; exact List.mem_append_right _ hd)
    · cases bs with
      | nil =>
        rcases ih (fun y hy => h y (List.mem_cons_of_mem _ hy)) [] post i j (by simpa using h2.symm) with hd | hd
        · exact hd.elim
        · simp at hd
      | cons b bs =>
        simp only [List.cons_append, List.cons.injEq] at h2
        obtain ⟨rfl, _⟩ := h2
        exact h x List.mem_cons_self pre bs i j h1

theorem ordered_denseRow (n i : ℕ) : Ordered (fun _ => False) (denseRow n i) := by
  refine ordered_flatMap _ _ fun j _ => ?_
  intro pre post i' j' he
  split_ifs at he
  · match pre, he with
    | [a], he => simp at he; obtain ⟨rfl, ⟨rfl, rfl⟩, _⟩ := he; simp
    | [], he => simp at he
    | _ :: _ :: pre, he => simp at he
  · match pre, he with
    | [], he => simp at he
    | _ :: pre, he => simp at he

/-- The dense loop: under every order of the actions of the threads it writes inside the buffer and the result holds
the entry `(min, max)` at both places. -/
theorem denseRun_correct (entry : ℕ → ℕ → V) (zero : V) (n numThreads : ℕ) {started : ℕ} (hs : 0 < started)
    {es : List DenseAct} (hi : Interleaving (densePrograms n numThreads started) es) :
    ∃ c, denseRun entry n es (Array.replicate (n * n) zero) = .ok c ∧ c.size = n * n ∧
      ∀ i j, i < n → j < n → c[i * n + j]? = some (entry (min i j) (max i j)) := by
  have hprog : ∀ p ∈ densePrograms n numThreads started,
      ∃ t, p = (staticRows n (chunkSize n numThreads) started t).flatMap (denseRow n) := by
    intro p hp
    obtain ⟨t, _, rfl⟩ := List.mem_map.1 hp
    exact ⟨t, rfl⟩
  obtain ⟨c, hc, inv⟩ := denseRun_inv (entry := entry) (n := n) hi (done := fun _ => False)
    (c := Array.replicate (n * n) zero) ⟨by simp, fun _ _ h => h.elim, fun _ _ h => h.elim, fun _ h => h.elim⟩ (by
      intro p hp
      obtain ⟨t, rfl⟩ := hprog p hp
      exact ordered_flatMap _ _ fun i _ => ordered_denseRow n i) (by
      intro p hp a ha
      obtain ⟨t, rfl⟩ := hprog p hp
      obtain ⟨i, _, ha⟩ := List.mem_flatMap.1 ha
      rcases mem_denseRow.1 ha with ⟨j, h1, h2, rfl⟩ | ⟨j, h1, h2, rfl⟩
      · exact ⟨h1, h2⟩
      · exact ⟨h1, h2⟩)
  have hall : ∀ i a, i < n → a ∈ denseRow n i → a ∈ es := by
    intro i a hin ha
    refine hi.mem ((staticRows n (chunkSize n numThreads) started (i / chunkSize n numThreads % started)).flatMap
      (denseRow n)) ?_ a ?_
    · exact List.mem_map.2 ⟨_, List.mem_range.2 (Nat.mod_lt _ hs), rfl⟩
    · exact List.mem_flatMap.2 ⟨i, by simp [staticRows, hin], ha⟩
  refine ⟨c, hc, inv.size, fun i j hi hj => ?_⟩
  rcases Nat.lt_or_ge j i with h | h
  · rw [min_eq_right h.le, max_eq_left h.le]
    exact inv.lower j i (.inl (hall j _ hj (mem_denseRow.2 (.inr ⟨i, h, hi, rfl⟩))))
  · rw [min_eq_left h, max_eq_right h]
    exact inv.upper i j (.inl (hall i _ hi (mem_denseRow.2 (.inl ⟨j, h, hj, rfl⟩))))

end Imate.Sample
