import Mathlib.Algebra.BigOperators.Fin
import Mathlib.Tactic.Linarith
import Verif.Model.Wrapper
import Verif.Spec.Operators

/-!
# Sorting the rows of a sparse matrix does not change it
-/

namespace Imate.Wrapper

open Imate.Spec

variable {K : Type} [Field K] {α : Type}

theorem splice_size (a : Array α) (lo : ℕ) (l : List α) : (splice a lo l).size = a.size := by
  simp [splice]

theorem splice_out {a : Array α} {lo k : ℕ} {l : List α} (h : k < lo ∨ lo + l.length ≤ k) :
    (splice a lo l)[k]? = a[k]? := by
  by_cases hk : k < a.size
  · rw [Array.getElem?_eq_getElem (by simpa [splice_size] using hk), Array.getElem?_eq_getElem hk]
    simp only [splice, Array.getElem_ofFn]
    split_ifs with hlo
    · rw [List.getD_eq_getElem?_getD, List.getElem?_eq_none (by omega)]
      rfl
    · rfl
  · rw [Array.getElem?_eq_none (by simp [splice_size]; omega), Array.getElem?_eq_none (by omega)]

theorem splice_in {a : Array α} {lo k : ℕ} {l : List α} (h1 : lo ≤ k) (h2 : k - lo < l.length) (hk : k < a.size) :
    (splice a lo l)[k]? = some l[k - lo] := by
  rw [Array.getElem?_eq_getElem (by simpa [splice_size] using hk)]
  simp [splice, h1, h2]

theorem ptr_mono {n m : ℕ} {data : Array K} {idx ptr : Array ℕ} {M : Matrix (Fin n) (Fin m) K}
    (h : CSRRepr data idx ptr M) {i j x y : ℕ} (hij : i ≤ j) (hj : j ≤ n) (hx : ptr[i]? = some x)
    (hy : ptr[j]? = some y) : x ≤ y := by
  induction j, hij using Nat.le_induction generalizing y with
  | base => rw [hx] at hy; exact (Option.some.inj hy).le
  | succ j hij ih =>
    obtain ⟨lo, hi, h1, h2, h3, -⟩ := h.2.2 ⟨j, by omega⟩
    rw [h2] at hy
    cases hy
    exact (ih (by omega) h1).trans h3

theorem sum_Ico_list (lo hi : ℕ) (g : ℕ → K) :
    ∑ k ∈ Finset.Ico lo hi, g k = ((List.range' lo (hi - lo)).map g).sum := rfl

theorem getD_of_some {a : Array α} {k : ℕ} {x d : α} (h : a[k]? = some x) : a.getD k d = x := by
  simp [Array.getD_eq_getD_getElem?, h]

theorem csr_step {n m : ℕ} {data : Array K} {idx ptr : Array ℕ} {M : Matrix (Fin n) (Fin m) K}
    (h : CSRRepr data idx ptr M) (i : Fin n) {lo hi : ℕ} (hlo : ptr[i.1]? = some lo) (hhi : ptr[i.1 + 1]? = some hi)
    {l : List (ℕ × K)} (hp : l.Perm (segment idx data lo hi)) :
    CSRRepr (splice data lo (l.map Prod.snd)) (splice idx lo (l.map Prod.fst)) ptr M := by
  obtain ⟨hps, hsz, hrow⟩ := h
  have hlen : l.length = hi - lo := by rw [hp.length_eq]; simp [segment]
  refine ⟨hps, by simp [splice_size, hsz], fun i' => ?_⟩
  obtain ⟨lo', hi', h1, h2, h3, h4, h5, h6⟩ := hrow i'
  refine ⟨lo', hi', h1, h2, h3, by rw [splice_size]; exact h4, ?_, ?_⟩
  · intro k hk1 hk2
    by_cases hin : lo ≤ k ∧ k < lo + l.length
    · rw [splice_in hin.1 (by simp; omega) (by omega)]
      have hmem : l[k - lo]'(by omega) ∈ segment idx data lo hi := hp.subset (List.getElem_mem _)
      have hii : i' = i := by
        by_contra hne
        rcases Nat.lt_or_gt_of_ne (fun hc => hne (Fin.ext hc)) with hlt | hlt
        · have := ptr_mono ⟨hps, hsz, hrow⟩ (show i'.1 + 1 ≤ i.1 by omega) i.2.le h2 hlo
          omega
        · have := ptr_mono ⟨hps, hsz, hrow⟩ (show i.1 + 1 ≤ i'.1 by omega) i'.2.le hhi h1
          omega
      subst hii
      rw [hlo] at h1
      rw [hhi] at h2
      cases h1
      cases h2
      simp only [segment, List.mem_map, List.mem_range'_1] at hmem
      obtain ⟨k', hk', he⟩ := hmem
      obtain ⟨j, hj, hj'⟩ := h5 k' hk'.1 (by omega)
      refine ⟨j, hj, ?_⟩
      simp only [List.getElem_map, Option.some.injEq]
      rw [← he]
      exact getD_of_some hj'
    · rw [splice_out (by simp only [List.length_map]; omega)]
      exact h5 k hk1 hk2
  · intro j
    rw [h6 j]
    by_cases hii : i' = i
    · subst hii
      rw [hlo] at h1
      rw [hhi] at h2
      cases h1
      cases h2
      rw [sum_Ico_list, sum_Ico_list]
      have e1 : (List.range' lo (hi - lo)).map (fun k => if idx[k]? = some j.1 then data.getD k 0 else 0) =
          (segment idx data lo hi).map fun q => if q.1 = j.1 then q.2 else 0 := by
        simp only [segment, List.map_map]
        refine List.map_congr_left fun k hk => ?_
        rw [List.mem_range'_1] at hk
        obtain ⟨c, _, hc⟩ := h5 k hk.1 (by omega)
        simp [hc]
      have e2 : (List.range' lo (hi - lo)).map (fun k => if (splice idx lo (l.map Prod.fst))[k]? = some j.1 then
          (splice data lo (l.map Prod.snd)).getD k 0 else 0) = l.map fun q => if q.1 = j.1 then q.2 else 0 := by
        refine List.ext_getElem (by simp [hlen]) fun t ht1 ht2 => ?_
        simp only [List.length_map] at ht2
        simp only [List.getElem_map, List.getElem_range', one_mul]
        have hkd : lo + t < data.size := by omega
        rw [splice_in (by omega) (by simp; omega) (by omega),
          getD_of_some (splice_in (a := data) (lo := lo) (k := lo + t) (by omega) (by simp; omega) hkd)]
        simp
      rw [e1, e2]
      exact ((hp.map _).sum_eq).symm
    · refine Finset.sum_congr rfl fun k hk => ?_
      rw [Finset.mem_Ico] at hk
      have hout : k < lo ∨ lo + l.length ≤ k := by
        rcases Nat.lt_or_gt_of_ne (fun hc => hii (Fin.ext hc)) with hlt | hlt
        · have := ptr_mono ⟨hps, hsz, hrow⟩ (show i'.1 + 1 ≤ i.1 by omega) i.2.le h2 hlo
          omega
        · have := ptr_mono ⟨hps, hsz, hrow⟩ (show i.1 + 1 ≤ i'.1 by omega) i'.2.le hhi h1
          obtain ⟨lo2, hi2, q1, q2, q3, -⟩ := hrow i
          rw [hlo] at q1
          rw [hhi] at q2
          cases q1
          cases q2
          omega
      rw [splice_out (by simpa using hout), Array.getD_eq_getD_getElem?, Array.getD_eq_getD_getElem?,
        splice_out (by simpa using hout)]

theorem csr_sort {n m : ℕ} {data : Array K} {idx ptr : Array ℕ} {M : Matrix (Fin n) (Fin m) K}
    (h : CSRRepr data idx ptr M) {sort : List (ℕ × K) → List (ℕ × K)} (hs : ∀ l, (sort l).Perm l) :
    CSRRepr (sortIndices sort ptr idx data).2 (sortIndices sort ptr idx data).1 ptr M := by
  have key : ∀ (L : List ℕ) (s : Array ℕ × Array K), (∀ i ∈ L, i < n) → CSRRepr s.2 s.1 ptr M →
      CSRRepr (L.foldl (sortSegment sort ptr) s).2 (L.foldl (sortSegment sort ptr) s).1 ptr M := by
    intro L
    induction L with
    | nil => intro s _ hs; exact hs
    | cons i L ih =>
      intro s hi hr
      rw [List.foldl_cons]
      refine ih _ (fun i' hi' => hi i' (List.mem_cons_of_mem _ hi')) ?_
      have hin := hi i List.mem_cons_self
      obtain ⟨lo, hi', h1, h2, -⟩ := hr.2.2 ⟨i, hin⟩
      have g1 := getD_of_some (d := 0) h1
      have g2 := getD_of_some (d := 0) h2
      simp only at g1 g2
      simp only [sortSegment, g1, g2]
      exact csr_step hr ⟨i, hin⟩ h1 h2 (hs _)
  refine key _ _ (fun i hi => ?_) h
  rw [List.mem_range, h.1] at hi
  omega

/-- The three arrays hold a matrix of some shape. -/
def Holds (f : Format) {n m : ℕ} (data : Array K) (idx ptr : Array ℕ) (M : Matrix (Fin n) (Fin m) K) : Prop :=
  match f with
  | .csr => CSRRepr data idx ptr M
  | .csc => CSCRepr data idx ptr M

theorem represents_iff {n m : ℕ} (s : State K) (o : ℕ) (M : Matrix (Fin n) (Fin m) K) :
    Represents (s.stored o) M ↔
      Holds (s.objs o).format (s.vals (s.objs o).data) (s.idxs (s.objs o).indices) (s.idxs (s.objs o).indptr) M := by
  simp only [State.stored, Holds]
  cases (s.objs o).format <;> rfl

theorem holds_sort {f : Format} {n m : ℕ} {data : Array K} {idx ptr : Array ℕ} {M : Matrix (Fin n) (Fin m) K}
    (h : Holds f data idx ptr M) {sort : List (ℕ × K) → List (ℕ × K)} (hs : ∀ l, (sort l).Perm l) :
    Holds f (sortIndices sort ptr idx data).2 (sortIndices sort ptr idx data).1 ptr M := by
  cases f with
  | csr => exact csr_sort h hs
  | csc => exact csr_sort (M := M.transpose) h hs

end Imate.Wrapper
