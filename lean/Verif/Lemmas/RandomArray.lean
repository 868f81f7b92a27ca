import Verif.Lemmas.RandomSeed
import Verif.Lemmas.Mem
import Verif.Spec.Interleave
set_option linter.unusedSectionVars false

/-! Behaviour of `generate_random_array`. -/

namespace Imate.Random
open Xoshiro Function

variable {K : Type} [OfNat K 1] [Neg K]

/-- the `i`-th draw (from 0) of a generator in state `x` -/
def nthDraw (x : Xoshiro) (i : ℕ) : BitVec 64 := (step^[i] x).output

/-- `+1` for a set bit, `-1` for a clear one -/
def bitSign (w : BitVec 64) (j : ℕ) : K := if w.getLsbD j then 1 else -1

theorem signOfBit_eq (w : BitVec 64) (j : ℕ) (hj : j < 64) :
    (signOfBit w j : K) = bitSign w j := by
  unfold signOfBit bitSign
  have := GF2.and_one_shift_ne w j hj
  by_cases h : w.getLsbD j = true
  · rw [if_pos (this.2 h), if_pos h]
  · rw [if_neg (fun h' => h (this.1 h')), if_neg h]

theorem generatorNext_ok {g : Array Xoshiro} {t : ℕ} {x : Xoshiro} (h : g[t]? = some x) :
    ∃ g', generatorNext g t = .ok (x.output, g') ∧ g'.size = g.size ∧
      ∀ u, g'[u]? = if u = t then some x.step else g[u]? := by
  have ht : t < g.size := by
    by_contra hh
    rw [Array.getElem?_eq_none (by omega)] at h
    simp at h
  refine ⟨g.set t x.step, ?_, by simp, ?_⟩
  · simp only [generatorNext, rd_ok h, Except.ok_bind', Xoshiro.next, wr_ok ht]
  · intro u
    by_cases hu : u = t
    · subst hu; simp [ht]
    · rw [if_neg hu, Array.getElem?_set_ne _ (fun h => hu h.symm)]

/-- filling one chunk -/
theorem fill_chunk (w : BitVec 64) (i : ℕ) (a : Array K) (h : i * 64 + 64 ≤ a.size) :
    ∃ a', forRange 0 64 (fun j a => wr a (i * 64 + j) (signOfBit w j : K)) a = .ok a' ∧
      a'.size = a.size ∧
      ∀ k, a'[k]? = if i * 64 ≤ k ∧ k < i * 64 + 64 then
        some (bitSign w (k % 64)) else a[k]? := by
  obtain ⟨a', h1, h2, h3⟩ := forRange_inv
    (body := fun j (a : Array K) => wr a (i * 64 + j) (signOfBit w j : K))
    (fun j (a' : Array K) => a'.size = a.size ∧ ∀ k, a'[k]? = if i * 64 ≤ k ∧ k < i * 64 + j then
      some (bitSign w (k % 64)) else a[k]?) (Nat.zero_le 64) a
    ⟨rfl, fun k => by rw [if_neg (by omega)]⟩ (by
      intro j _ hj b ⟨hs, hb⟩
      refine ⟨_, wr_ok (by omega) _, by simp [hs], ?_⟩
      intro k
      by_cases hk : k = i * 64 + j
      · subst hk
        have hm : (i * 64 + j) % 64 = j := by omega
        rw [if_pos (by omega), hm, ← signOfBit_eq w j hj]
        simp
      · rw [Array.getElem?_set_ne _ (fun h => hk h.symm), hb k]
        by_cases hc : i * 64 ≤ k ∧ k < i * 64 + j
        · rw [if_pos hc, if_pos (by omega)]
        · rw [if_neg hc, if_neg (by omega)])
  exact ⟨a', h1, h2, h3⟩

/-- filling the tail -/
theorem fill_tail (w : BitVec 64) (n : ℕ) (a : Array K) (h : n ≤ a.size) :
    ∃ a' c, forRange (n / 64 * 64) n (fun i (s : Array K × ℕ) => do
        let a ← wr s.1 i (signOfBit w s.2)
        .ok (a, s.2 + 1)) (a, 0) = .ok (a', c) ∧
      a'.size = a.size ∧
      ∀ k, a'[k]? = if n / 64 * 64 ≤ k ∧ k < n then
        some (bitSign w (k % 64)) else a[k]? := by
  obtain ⟨⟨a', c⟩, h1, h2, -, h3⟩ := forRange_inv
    (body := fun i (s : Array K × ℕ) => do
        let a ← wr s.1 i (signOfBit w s.2)
        .ok (a, s.2 + 1))
    (fun i (s : Array K × ℕ) => s.1.size = a.size ∧ s.2 = i - n / 64 * 64 ∧
      ∀ k, s.1[k]? = if n / 64 * 64 ≤ k ∧ k < i then
        some (bitSign w (k % 64)) else a[k]?)
    (lo := n / 64 * 64) (hi := n) (by omega) (a, 0)
    ⟨rfl, by simp, fun k => by rw [if_neg (by omega)]⟩ (by
      intro i hlo hi ⟨b, j⟩ ⟨hs, hj, hb⟩
      dsimp only at hs hj hb
      refine ⟨(b.set i (signOfBit w j) (by omega), j + 1), ?_, ?_, ?_, ?_⟩
      · dsimp only
        rw [wr_ok (by omega)]; rfl
      · simp [hs]
      · dsimp only; omega
      · intro k
        dsimp only
        by_cases hk : k = i
        · subst hk
          have hm : k % 64 = j := by omega
          rw [if_pos (by omega), hm, ← signOfBit_eq w j (by omega)]
          simp
        · rw [Array.getElem?_set_ne _ (fun h => hk h.symm), hb k]
          by_cases hc : n / 64 * 64 ≤ k ∧ k < i
          · rw [if_pos hc, if_pos (by omega)]
          · rw [if_neg hc, if_neg (by omega)])
  exact ⟨a', c, h1, h2, h3⟩

/-- The serial generator, completely. -/
theorem generateArray_eq {g : Array Xoshiro} {t : ℕ} {x : Xoshiro} (hx : g[t]? = some x)
    (array : Array K) (n : ℕ) (hn : n ≤ array.size) :
    ∃ a g', generateArray (fun g => generatorNext g t) g array n = .ok (a, g') ∧
      a.size = array.size ∧ g'.size = g.size ∧
      (∀ k, a[k]? = if k < n then
        some (bitSign (nthDraw x (k / 64)) (k % 64)) else array[k]?) ∧
      (∀ u, g'[u]? = if u = t then some (step^[n / 64 + 1] x) else g[u]?) := by
  obtain ⟨⟨a1, g1⟩, h1, hs1, hg1, ha1, hu1⟩ := forRange_inv
    (body := fun i (s : Array K × Array Xoshiro) => do
      let (bits, g) ← generatorNext s.2 t
      let a ← forRange 0 64 (fun j a => wr a (i * 64 + j) (signOfBit bits j)) s.1
      .ok (a, g))
    (fun i (s : Array K × Array Xoshiro) => s.1.size = array.size ∧ s.2.size = g.size ∧
      (∀ k, s.1[k]? = if k < i * 64 then
        some (bitSign (nthDraw x (k / 64)) (k % 64)) else array[k]?) ∧
      (∀ u, s.2[u]? = if u = t then some (step^[i] x) else g[u]?))
    (lo := 0) (hi := n / 64) (Nat.zero_le _) (array, g)
    ⟨rfl, rfl, fun k => by rw [if_neg (by omega)], fun u => by
      by_cases hu : u = t
      · subst hu; simp [hx]
      · rw [if_neg hu]⟩ (by
      intro i _ hi ⟨b, gg⟩ ⟨hsb, hsg, hb, hg⟩
      dsimp only at hsb hsg hb hg
      have hgt : gg[t]? = some (step^[i] x) := by rw [hg t, if_pos rfl]
      obtain ⟨g', e1, e2, e3⟩ := generatorNext_ok hgt
      obtain ⟨b', f1, f2, f3⟩ := fill_chunk (K := K) (step^[i] x).output i b (by omega)
      refine ⟨(b', g'), ?_, by dsimp only; omega, by dsimp only; omega, ?_, ?_⟩
      · dsimp only
        rw [e1]
        simp only [Except.ok_bind']
        rw [f1]
        rfl
      · intro k
        dsimp only
        rw [f3 k, hb k]
        by_cases hk : k < i * 64
        · rw [if_neg (by omega), if_pos hk, if_pos (by omega)]
        · by_cases hk2 : k < (i + 1) * 64
          · have : k / 64 = i := by omega
            rw [if_pos (by omega), if_pos hk2, this]
            rfl
          · rw [if_neg (by omega), if_neg hk, if_neg hk2]
      · intro u
        dsimp only
        rw [e3 u, hg u]
        by_cases hu : u = t
        · simp [hu, iterate_succ_apply']
        · simp [hu])
  dsimp only at hs1 hg1 ha1 hu1
  have hgt : g1[t]? = some (step^[n / 64] x) := by rw [hu1 t, if_pos rfl]
  obtain ⟨g2, e1, e2, e3⟩ := generatorNext_ok hgt
  obtain ⟨a2, c, f1, f2, f3⟩ := fill_tail (K := K) (step^[n / 64] x).output n a1 (by omega)
  refine ⟨a2, g2, ?_, by omega, by omega, ?_, ?_⟩
  · simp only [generateArray]
    rw [h1]
    simp only [Except.ok_bind']
    rw [e1]
    simp only [Except.ok_bind']
    rw [f1]
    rfl
  · intro k
    rw [f3 k, ha1 k]
    by_cases hk : k < n / 64 * 64
    · rw [if_neg (by omega), if_pos hk, if_pos (by omega)]
    · by_cases hk2 : k < n
      · have : k / 64 = n / 64 := by omega
        rw [if_pos (by omega), if_pos hk2, this]
        rfl
      · rw [if_neg (by omega), if_neg hk, if_neg hk2]
  · intro u
    rw [e3 u, hu1 u]
    by_cases hu : u = t
    · simp [hu, iterate_succ_apply']
    · simp [hu]

/-! ### the parallel region -/

/-- `±1` -/
def IsSign (v : K) : Prop := v = 1 ∨ v = -1

/-- Every valid event sequence runs, keeps sizes, and leaves `±1` in every executed chunk. -/
theorem genEvents_ok (n : ℕ) (es : List GenEvent) (s : GenState K) (hn : n ≤ s.array.size)
    (htid : s.tid < s.gens.size)
    (hes : ∀ e ∈ es, (∀ t, e = .setTid t → t < s.gens.size) ∧ (∀ i, e = .chunk i → i < n / 64)) :
    ∃ s', genEvents es s = .ok s' ∧ s'.array.size = s.array.size ∧ s'.gens.size = s.gens.size ∧
      s'.tid < s.gens.size ∧
      (∀ k, n / 64 * 64 ≤ k → s'.array[k]? = s.array[k]?) ∧
      (∀ k, k < n → (GenEvent.chunk (k / 64) ∈ es ∨ ∃ v, s.array[k]? = some v ∧ IsSign v) →
        k / 64 < n / 64 → ∃ v, s'.array[k]? = some v ∧ IsSign v) := by
  induction es generalizing s with
  | nil =>
    refine ⟨s, rfl, rfl, rfl, htid, fun _ _ => rfl, ?_⟩
    intro k hk h _
    rcases h with h | h
    · simp at h
    · exact h
  | cons e es ih =>
    cases e with
    | setTid t =>
      have ht := (hes (.setTid t) List.mem_cons_self).1 t rfl
      obtain ⟨s', h1, h2, h3, h4, h5, h6⟩ := ih { s with tid := t } hn ht
        (fun e he => hes e (List.mem_cons_of_mem _ he))
      refine ⟨s', by simpa [genEvents, genEvent, Except.ok_bind'] using h1, h2, h3, h4, h5, ?_⟩
      intro k hk h hc
      refine h6 k hk ?_ hc
      rcases h with h | h
      · left; simpa using h
      · right; exact h
    | chunk i =>
      have hi := (hes (.chunk i) List.mem_cons_self).2 i rfl
      obtain ⟨x, hx⟩ : ∃ x, s.gens[s.tid]? = some x :=
        ⟨s.gens[s.tid], Array.getElem?_eq_getElem htid⟩
      obtain ⟨g', e1, e2, -⟩ := generatorNext_ok hx
      obtain ⟨a', f1, f2, f3⟩ := fill_chunk (K := K) x.output i s.array (by omega)
      obtain ⟨s', h1, h2, h3, h4, h5, h6⟩ := ih ⟨s.tid, g', a'⟩ (by dsimp only; omega)
        (by dsimp only; omega) (fun e he => by
          have := hes e (List.mem_cons_of_mem _ he)
          dsimp only; rw [e2]; exact this)
      dsimp only at h2 h3 h4 h5 h6
      refine ⟨s', ?_, by omega, by omega, by omega, ?_, ?_⟩
      · simp only [genEvents, genEvent]
        rw [e1]
        simp only [Except.ok_bind']
        rw [f1]
        exact h1
      · intro k hk
        rw [h5 k hk, f3 k, if_neg (by omega)]
      · intro k hk h hc
        refine h6 k hk ?_ hc
        by_cases hki : k / 64 = i
        · right
          refine ⟨_, by rw [f3 k, if_pos (by omega)], ?_⟩
          unfold IsSign bitSign
          split
          · left; rfl
          · right; rfl
        · rcases h with h | h
          · left
            simp only [List.mem_cons, GenEvent.chunk.injEq, hki, false_or] at h
            exact h
          · right
            rw [f3 k, if_neg (by omega)]
            exact h

end Imate.Random
