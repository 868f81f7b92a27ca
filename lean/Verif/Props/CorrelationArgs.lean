import Verif.Spec.CorrelationArgs
import Mathlib.Tactic.NormNum
import Mathlib.Tactic.Positivity
import Mathlib.Data.Rat.Floor

/-!
# C83: `correlation_matrix` accepts the documented arguments and refuses all others
-/

namespace Imate.Props.CorrelationArgs

open Args
open Imate.CorrelationArgs Spec.Correlation

variable {a : Call} {r : Loops}

/-- A value passes the check of a count iff it is a positive integer or a scalar that is no integer. -/
private theorem checkCount_ok (v : PyVal) :
    checkCount v = .ok () ↔ v.isscalar = true ∧ (v.isInteger = true → 1 ≤ v.intValue) := by
  cases v with
  | none => simp [checkCount, PyVal.isscalar]
  | bool b => cases b <;> simp [checkCount, PyVal.isscalar, PyVal.isInteger, PyVal.intValue]
  | int z => by_cases h : z < 1 <;> simp [checkCount, PyVal.isscalar, PyVal.isInteger, PyVal.intValue, h] <;> omega
  | npInt z => by_cases h : z < 1 <;> simp [checkCount, PyVal.isscalar, PyVal.isInteger, PyVal.intValue, h] <;> omega
  | _ => simp [checkCount, PyVal.isscalar, PyVal.isInteger]

private theorem checkFlag_ok (v : PyVal) : checkFlag v = .ok () ↔ v.isscalar = true := by
  cases v <;> simp [checkFlag, PyVal.isscalar]

private theorem checkScale_ok (v : PyVal) :
    checkScale v = .ok () ↔ v = .complex ∨ ∃ x, v.num = some x ∧ (x = .nan ∨ x = .pinf ∨ ∃ q : ℚ, x = .fin q ∧ 0 < q) := by
  have key : ∀ w : PyVal, ∀ x : Num, w.num = some x → ((do
      let c ← pyLe w 0
      if c then .error .valueError else (.ok () : Except PyExc Unit)) = .ok () ↔
      (x = .nan ∨ x = .pinf ∨ ∃ q : ℚ, x = .fin q ∧ 0 < q)) := by
    intro w x hx
    cases x with
    | fin q =>
      by_cases h0 : q ≤ 0
      · simp [pyLe, hx, bind, Except.bind, h0, not_lt.2 h0]
      · simp [pyLe, hx, bind, Except.bind, h0, not_le.1 h0]
    | _ => simp [pyLe, hx, bind, Except.bind]
  cases v with
  | bool b => simpa [checkScale, PyVal.isscalar, PyVal.num] using key (.bool b) _ rfl
  | npBool b => simpa [checkScale, PyVal.isscalar, PyVal.num] using key (.npBool b) _ rfl
  | int z => simpa [checkScale, PyVal.isscalar, PyVal.num] using key (.int z) _ rfl
  | npInt z => simpa [checkScale, PyVal.isscalar, PyVal.num] using key (.npInt z) _ rfl
  | float x => simpa [checkScale, PyVal.isscalar, PyVal.num] using key (.float x) _ rfl
  | npFloat x => simpa [checkScale, PyVal.isscalar, PyVal.num] using key (.npFloat x) _ rfl
  | other s => cases s <;> simp [checkScale, PyVal.isscalar, pyLe, PyVal.num, bind, Except.bind]
  | _ => simp [checkScale, PyVal.isscalar, pyLe, PyVal.num, bind, Except.bind]

private theorem checkDensity_ok (v : PyVal) :
    checkDensity v = .ok () ↔ v = .complex ∨ ∃ x, v.num = some x ∧ (x = .nan ∨ ∃ q : ℚ, x = .fin q ∧ 0 < q ∧ q < 1) := by
  have key : ∀ w : PyVal, ∀ x : Num, w.num = some x → ((do
      let low ← pyLe w 0
      if low then .error .valueError
      else do
        let high ← pyGe w 1
        if high then .error .valueError else (.ok () : Except PyExc Unit)) = .ok () ↔
      (x = .nan ∨ ∃ q : ℚ, x = .fin q ∧ 0 < q ∧ q < 1)) := by
    intro w x hx
    cases x with
    | fin q =>
      by_cases h0 : q ≤ 0
      · simp [pyLe, hx, bind, Except.bind, h0, not_lt.2 h0]
      · by_cases h1 : (1 : ℚ) ≤ q
        · simp [pyLe, pyGe, hx, bind, Except.bind, h0, h1, not_lt.2 h1]
        · simp [pyLe, pyGe, hx, bind, Except.bind, h0, h1, not_le.1 h0, not_le.1 h1]
    | _ => simp [pyLe, pyGe, hx, bind, Except.bind]
  cases v with
  | bool b => simpa [checkDensity, PyVal.isscalar, PyVal.num] using key (.bool b) _ rfl
  | npBool b => simpa [checkDensity, PyVal.isscalar, PyVal.num] using key (.npBool b) _ rfl
  | int z => simpa [checkDensity, PyVal.isscalar, PyVal.num] using key (.int z) _ rfl
  | npInt z => simpa [checkDensity, PyVal.isscalar, PyVal.num] using key (.npInt z) _ rfl
  | float x => simpa [checkDensity, PyVal.isscalar, PyVal.num] using key (.float x) _ rfl
  | npFloat x => simpa [checkDensity, PyVal.isscalar, PyVal.num] using key (.npFloat x) _ rfl
  | other s => cases s <;> simp [checkDensity, PyVal.isscalar, pyLe, PyVal.num, bind, Except.bind]
  | _ => simp [checkDensity, PyVal.isscalar, pyLe, PyVal.num, bind, Except.bind]

private theorem checkKernel_ok (v : PyVal) (k : String) :
    checkKernel v = .ok k ↔
      v = .str k ∧ k ∈ ["matern", "exponential", "square_exponential", "rational_quadratic"] := by
  cases v with
  | str s =>
    unfold checkKernel
    by_cases h : s ∈ ["matern", "exponential", "square_exponential", "rational_quadratic"]
    · simp only [if_pos h, Except.ok.injEq, PyVal.str.injEq]
      exact ⟨fun e => ⟨e, e ▸ h⟩, fun e => e.1⟩
    · simp only [if_neg h, PyVal.str.injEq]
      exact ⟨fun e => (nomatch e), fun e => absurd (e.1 ▸ e.2) h⟩
  | _ => simp [checkKernel]

private theorem checkKernelParam_ok {k : String}
    (hk : k ∈ ["matern", "exponential", "square_exponential", "rational_quadratic"]) (v : PyVal) :
    checkKernelParam k v = .ok () ↔ v = .none ∨ v.isscalar = true := by
  have h1 : k ≠ "exponental" := by
    rintro rfl
    revert hk
    decide +kernel
  have h2 : k ≠ "square-exponental" := by
    rintro rfl
    revert hk
    decide +kernel
  cases v <;> simp [checkKernelParam, PyVal.isscalar, h1, h2]

private theorem checkFormat_ok (v : PyVal) : checkFormat v = .ok () ↔ Name ["csr", "csc"] v := by
  cases v <;> simp [checkFormat, Name, imp_iff_not_or]

private theorem checkDtype_ok (v : PyVal) : checkDtype v = .ok () ↔ Name ["float32", "float64", "float128"] v := by
  cases v <;> simp [checkDtype, Name, imp_iff_not_or]

/-- What the checks establish. -/
private theorem check_ok (a : Call) (k : String) :
    check a = .ok k ↔
      checkCount a.size = .ok () ∧ checkCount a.dimension = .ok () ∧ checkScale a.scale = .ok () ∧
      checkKernel a.kernel = .ok k ∧ checkKernelParam k a.kernelParam = .ok () ∧ checkFlag a.grid = .ok () ∧
      checkFlag a.sparse = .ok () ∧ checkDensity a.density = .ok () ∧ checkFormat a.format = .ok () ∧
      checkDtype a.dtype = .ok () ∧ checkFlag a.plot = .ok () ∧ checkFlag a.verbose = .ok () := by
  unfold check
  cases checkCount a.size <;> simp only [bind, Except.bind, reduceCtorEq, false_and, true_and, and_false]
  cases checkCount a.dimension <;> simp only [reduceCtorEq, false_and, true_and]
  cases checkScale a.scale <;> simp only [reduceCtorEq, false_and, true_and]
  cases hk : checkKernel a.kernel with
  | error e => simp
  | ok k' =>
    simp only [Except.ok.injEq]
    constructor
    · intro h
      cases h1 : checkKernelParam k' a.kernelParam <;> rw [h1] at h <;> simp only [reduceCtorEq] at h
      cases h2 : checkFlag a.grid <;> rw [h2] at h <;> simp only [reduceCtorEq] at h
      cases h3 : checkFlag a.sparse <;> rw [h3] at h <;> simp only [reduceCtorEq] at h
      cases h4 : checkDensity a.density <;> rw [h4] at h <;> simp only [reduceCtorEq] at h
      cases h5 : checkFormat a.format <;> rw [h5] at h <;> simp only [reduceCtorEq] at h
      cases h6 : checkDtype a.dtype <;> rw [h6] at h <;> simp only [reduceCtorEq] at h
      cases h7 : checkFlag a.plot <;> rw [h7] at h <;> simp only [reduceCtorEq] at h
      cases h8 : checkFlag a.verbose <;> rw [h8] at h <;> simp only [reduceCtorEq, Except.ok.injEq] at h
      subst h
      simp_all
    · rintro ⟨rfl, h1, h2, h3, h4, h5, h6, h7, h8⟩
      simp only [h1, h2, h3, h4, h5, h6, h7, h8]

private theorem counts_ok {grid : Bool} {size dimension : PyVal} {n d : ℤ} (hs : checkCount size = .ok ())
    (hd : checkCount dimension = .ok ()) (h : counts grid size dimension = .ok (n, d)) :
    PositiveInteger dimension d ∧ (PositiveInteger size n ∨ grid = true ∧ ∃ b, size = .npBool b) := by
  unfold counts at h
  split at h
  · exact absurd h (by simp)
  · rename_i hi
    have hi' : dimension.isInteger = true := by simpa using hi
    have hd1 := ((checkCount_ok _).1 hd).2 hi'
    split at h
    · rename_i b
      split at h
      · rename_i hg
        simp only [Except.ok.injEq, Prod.mk.injEq] at h
        exact ⟨⟨hi', h.2, h.2 ▸ hd1⟩, .inr ⟨hg, b, rfl⟩⟩
      · exact absurd h (by simp)
    · split at h
      · rename_i hn
        simp only [Except.ok.injEq, Prod.mk.injEq] at h
        exact ⟨⟨hi', h.2, h.2 ▸ hd1⟩, .inl ⟨hn, h.1, h.1 ▸ ((checkCount_ok _).1 hs).2 hn⟩⟩
      · exact absurd h (by simp)

private theorem toCFloat_ok {v : PyVal} {x : Num} (h : toCFloat v = .ok x) : v.num = some x := by
  unfold toCFloat at h
  split at h
  · rename_i y hy
    simp only [Except.ok.injEq] at h
    rw [hy, h]
  · exact absurd h (by simp)

/-- **C83 (soundness, partial).**  When `correlation_matrix` reaches the computation, the dimension is a positive integer,
the kernel, the format and the type are documented ones, and the size, the scale and the density have the given values and
are in their ranges, except as follows: a size of the type `numpy.bool_` is taken for a number, and the scale may be `nan`.
(The full claim has no exceptions, and adds that the flags are flags and that the parameter fits the kernel; see the
negations below.) -/
theorem accepted_partial (h : convert a = .ok r) :
    PositiveInteger a.dimension r.dimension ∧
    (PositiveInteger a.size r.size ∨ r.grid = true ∧ ∃ b, a.size = .npBool b) ∧
    (a.kernel = .str r.kernel ∧ r.kernel ∈ ["matern", "exponential", "square_exponential", "rational_quadratic"]) ∧
    Name ["csr", "csc"] a.format ∧ Name ["float32", "float64", "float128"] a.dtype ∧
    (a.scale.num = some r.scale ∧ (r.scale = .nan ∨ r.scale = .pinf ∨ ∃ q : ℚ, r.scale = .fin q ∧ 0 < q)) ∧
    ∀ x, r.density = some x → a.density.num = some x ∧ ∃ q : ℚ, x = .fin q ∧ 0 < q ∧ q < 1 := by
  unfold convert at h
  cases hc : check a with
  | error e => rw [hc] at h; exact absurd h (by simp [bind, Except.bind])
  | ok k =>
    obtain ⟨h1, h2, h3, h4, -, -, -, h8, h9, h10, -, -⟩ := (check_ok a k).1 hc
    rw [hc] at h
    simp only [bind, Except.bind] at h
    cases hg : truth a.grid with
    | error e => rw [hg] at h; exact absurd h (by simp)
    | ok grid =>
      rw [hg] at h
      simp only at h
      cases hn : counts grid a.size a.dimension with
      | error e => rw [hn] at h; exact absurd h (by simp)
      | ok nd =>
        obtain ⟨n, d⟩ := nd
        rw [hn] at h
        simp only at h
        cases hsp : truth a.sparse with
        | error e => rw [hsp] at h; exact absurd h (by simp)
        | ok sparse =>
          rw [hsp] at h
          simp only at h
          cases hde : usedDensity sparse a.density with
          | error e => rw [hde] at h; exact absurd h (by simp)
          | ok density =>
            rw [hde] at h
            simp only at h
            cases hsc : toCFloat a.scale with
            | error e => rw [hsc] at h; exact absurd h (by simp)
            | ok scale =>
              rw [hsc] at h
              simp only at h
              cases hp : toCFloat (defaultParam k a.kernelParam) with
              | error e => rw [hp] at h; exact absurd h (by simp)
              | ok param =>
                rw [hp] at h
                simp only at h
                cases hv : intOf a.verbose with
                | error e => rw [hv] at h; exact absurd h (by simp)
                | ok verbose =>
                  rw [hv] at h
                  simp only [Except.ok.injEq] at h
                  subst h
                  have hc' := counts_ok h1 h2 hn
                  have hs := toCFloat_ok hsc
                  refine ⟨hc'.1, hc'.2, (checkKernel_ok _ _).1 h4, (checkFormat_ok _).1 h9, (checkDtype_ok _).1 h10,
                    ⟨hs, ?_⟩, ?_⟩
                  · rcases (checkScale_ok _).1 h3 with h | ⟨x, hx, hx'⟩
                    · rw [h] at hs
                      exact absurd hs (by simp [PyVal.num])
                    · rw [hs] at hx
                      cases hx
                      exact hx'
                  · intro x hx
                    simp only at hx
                    subst hx
                    unfold usedDensity at hde
                    by_cases hb : sparse = true
                    · rw [if_pos hb] at hde
                      cases hd : toCFloat a.density with
                      | error e => rw [hd] at hde; exact absurd hde (by simp)
                      | ok y =>
                        rw [hd] at hde
                        have hy := toCFloat_ok hd
                        rcases (checkDensity_ok _).1 h8 with h | ⟨z, hz, hz'⟩
                        · rw [h] at hy
                          exact absurd hy (by simp [PyVal.num])
                        · rw [hy] at hz
                          cases hz
                          rcases hz' with rfl | ⟨q, rfl, hq⟩
                          · exact absurd hde (by simp)
                          · simp only [Except.ok.injEq, Option.some.injEq] at hde
                            subst hde
                            exact ⟨hy, q, rfl, hq⟩
                    · rw [if_neg hb] at hde
                      exact absurd hde (by simp)

/-! ### The documented arguments -/

variable {n d : ℤ} {ρ δ : ℚ} {k : String} {grid sparse : Bool}

private theorem scalar_of_num {v : PyVal} {x : Num} (h : v.num = some x) : v.isscalar = true := by
  cases v <;> simp_all [PyVal.num, PyVal.isscalar]

private theorem scalar_of_integer {v : PyVal} (h : v.isInteger = true) : v.isscalar = true := by
  cases v <;> simp_all [PyVal.isInteger, PyVal.isscalar]

private theorem count_of_positive {v : PyVal} {n : ℤ} (h : PositiveInteger v n) : checkCount v = .ok () :=
  (checkCount_ok v).2 ⟨scalar_of_integer h.1, fun _ => by rw [h.2.1]; exact h.2.2⟩

private theorem check_documented (h : Documented a n d ρ δ k grid sparse) : check a = .ok k := by
  obtain ⟨p, hp⟩ := h.plot
  obtain ⟨v, hv⟩ := h.verbose
  refine (check_ok a k).2 ⟨count_of_positive h.size, count_of_positive h.dimension,
    (checkScale_ok _).2 (.inr ⟨_, h.scale, .inr (.inr ⟨ρ, rfl, h.scale_pos⟩)⟩),
    (checkKernel_ok _ _).2 ⟨h.kernel, h.kernel_mem⟩, (checkKernelParam_ok h.kernel_mem _).2 ?_,
    (checkFlag_ok _).2 (by rw [h.isGrid]; rfl), (checkFlag_ok _).2 (by rw [h.isSparse]; rfl),
    (checkDensity_ok _).2 (.inr ⟨_, h.density, .inr ⟨δ, rfl, h.density_pos, h.density_lt⟩⟩),
    (checkFormat_ok _).2 h.format, (checkDtype_ok _).2 h.dtype, (checkFlag_ok _).2 (by rw [hp]; rfl),
    (checkFlag_ok _).2 (by rw [hv]; rfl)⟩
  rcases h.param with h | ⟨-, x, -, hx⟩
  · exact .inl h
  · exact .inr (scalar_of_num hx)

private theorem counts_integer {v w : PyVal} (grid : Bool) (hv : v.isInteger = true) (hw : w.isInteger = true) :
    counts grid v w = .ok (v.intValue, w.intValue) := by
  cases v <;> simp_all [counts, PyVal.isInteger]

/-- What the native loops receive for documented values of all but some arguments. -/
private theorem convert_eq {k' : String} {x p : Num} {y : ℚ} {g s : Bool} {v : ℤ} (hc : check a = .ok k')
    (hg : truth a.grid = .ok g) (hs : truth a.sparse = .ok s) (hn : PositiveInteger a.size n)
    (hd : PositiveInteger a.dimension d) (hx : a.scale.num = some x) (hy : a.density.num = some (.fin y))
    (hp : (defaultParam k' a.kernelParam).num = some p) (hv : intOf a.verbose = .ok v) :
    convert a = .ok ⟨n, d, x, k', p, g, if s then some (.fin y) else none⟩ := by
  unfold convert
  simp only [hc, bind, Except.bind, hg, counts_integer g hn.1 hd.1, hs, usedDensity, toCFloat, hx, hy, hp, hv, hn.2.1, hd.2.1]
  cases s <;> simp

private theorem param_documented (h : Documented a n d ρ δ k grid sparse) :
    ∃ p, (defaultParam k a.kernelParam).num = some p ∧ ∀ x, Spec.Correlation.Real a.kernelParam x → p = .fin x := by
  rcases h.param with h | ⟨-, x, -, hx⟩
  · rw [h]
    unfold defaultParam
    simp only
    split
    · exact ⟨_, rfl, fun x hx => by simp [Spec.Correlation.Real, PyVal.num] at hx⟩
    · split
      · exact ⟨_, rfl, fun x hx => by simp [Spec.Correlation.Real, PyVal.num] at hx⟩
      · exact ⟨_, rfl, fun x hx => by simp [Spec.Correlation.Real, PyVal.num] at hx⟩
  · have h0 : defaultParam k a.kernelParam = a.kernelParam := by
      generalize a.kernelParam = w at hx
      cases w <;> simp_all [Spec.Correlation.Real, PyVal.num, defaultParam]
    rw [h0]
    refine ⟨_, hx, fun y hy => ?_⟩
    unfold Spec.Correlation.Real at hx hy
    rw [hx] at hy
    simpa using hy

private theorem intOf_bool (b : Bool) : ∃ z, intOf (.bool b) = .ok z := by
  cases b <;> exact ⟨_, rfl⟩

/-- **C83 (completeness).**  Documented arguments are accepted, and the computation receives their values. -/
theorem documented_accepted (h : Documented a n d ρ δ k grid sparse) :
    ∃ p, convert a = .ok ⟨n, d, .fin ρ, k, p, grid, if sparse then some (.fin δ) else none⟩ ∧
      ∀ x, Spec.Correlation.Real a.kernelParam x → p = .fin x := by
  obtain ⟨p, hp, hp'⟩ := param_documented h
  obtain ⟨b, hb⟩ := h.verbose
  obtain ⟨z, hz⟩ := intOf_bool b
  refine ⟨p, convert_eq (check_documented h) (by rw [h.isGrid]; rfl) (by rw [h.isSparse]; rfl) h.size h.dimension h.scale
    h.density hp (by rw [hb, hz]), hp'⟩

/-- **C83.**  Without a kernel parameter the Matern kernel has smoothness one half, and every other kernel gets `nan`: also
the rational quadratic one, whose default of one is set for a name the checks refuse. -/
theorem default_parameter (h : Documented a n d ρ δ k grid sparse) (hp : a.kernelParam = .none) :
    convert a = .ok ⟨n, d, .fin ρ, k, if k = "matern" then .fin (1 / 2) else .nan, grid,
      if sparse then some (.fin δ) else none⟩ := by
  obtain ⟨b, hb⟩ := h.verbose
  obtain ⟨z, hz⟩ := intOf_bool b
  refine convert_eq (check_documented h) (by rw [h.isGrid]; rfl) (by rw [h.isSparse]; rfl) h.size h.dimension h.scale
    h.density ?_ (by rw [hb, hz])
  have hk : k ≠ "rational-quadratic" := by
    rintro rfl
    exact absurd h.kernel_mem (by decide +kernel)
  rw [hp]
  unfold defaultParam
  by_cases hm : k = "matern" <;> simp [hm, hk, PyVal.num]

/-- The hypotheses are met. -/
theorem sample_documented : Documented sample 20 2 (1 / 5) (1 / 20) "matern" true true where
  size := ⟨rfl, rfl, by norm_num⟩
  dimension := ⟨rfl, rfl, by norm_num⟩
  scale := rfl
  scale_pos := by norm_num
  kernel := rfl
  kernel_mem := by simp
  param := .inr ⟨.inl rfl, 5 / 2, by norm_num, rfl⟩
  isGrid := rfl
  isSparse := rfl
  density := rfl
  density_pos := by norm_num
  density_lt := by norm_num
  format := ⟨"csr", by simp, rfl⟩
  dtype := ⟨"float32", by simp, rfl⟩
  plot := ⟨false, rfl⟩
  verbose := ⟨false, rfl⟩

example := default_parameter (a := { sample with kernel := .str "rational_quadratic", kernelParam := .none })
  { sample_documented with kernel := rfl, kernel_mem := by simp, param := .inl rfl } rfl

example : convert sample = .ok ⟨20, 2, .fin (1 / 5), "matern", .fin (5 / 2), true, some (.fin (1 / 20))⟩ := by
  obtain ⟨p, hp, hp'⟩ := documented_accepted sample_documented
  rw [hp, hp' (5 / 2) rfl]
  rfl

/-! ### Negations -/

/-- **C83 (negation: flags).**  Any string that is not empty is accepted for `grid`, and means `True`: so does `"False"`.
The same holds for `sparse`. -/
theorem string_for_flag (h : Documented a n d ρ δ k grid sparse) {s : String} (hs : s ≠ "") :
    convert { a with grid := .str s } = convert { a with grid := .bool true } ∧
    convert { a with sparse := .str s } = convert { a with sparse := .bool true } := by
  obtain ⟨p, hp, -⟩ := param_documented h
  obtain ⟨b, hb⟩ := h.verbose
  obtain ⟨z, hz⟩ := intOf_bool b
  rw [← hb] at hz
  have hc := check_documented h
  rw [check_ok] at hc
  have ht : truth (.str s) = .ok true := by simp [truth, hs]
  have c : ∀ v : PyVal, v.isscalar = true → check { a with grid := v } = .ok k := fun v hv => by
    rw [check_ok]
    exact ⟨hc.1, hc.2.1, hc.2.2.1, hc.2.2.2.1, hc.2.2.2.2.1, (checkFlag_ok v).2 hv, hc.2.2.2.2.2.2⟩
  have c' : ∀ v : PyVal, v.isscalar = true → check { a with sparse := v } = .ok k := fun v hv => by
    rw [check_ok]
    exact ⟨hc.1, hc.2.1, hc.2.2.1, hc.2.2.2.1, hc.2.2.2.2.1, hc.2.2.2.2.2.1, (checkFlag_ok v).2 hv, hc.2.2.2.2.2.2.2⟩
  constructor
  · rw [convert_eq (a := { a with grid := .str s }) (c _ rfl) ht (by rw [h.isSparse]; rfl) h.size h.dimension h.scale
        h.density hp hz,
      convert_eq (a := { a with grid := .bool true }) (c _ rfl) rfl (by rw [h.isSparse]; rfl) h.size h.dimension h.scale
        h.density hp hz]
  · rw [convert_eq (a := { a with sparse := .str s }) (c' _ rfl) (by rw [h.isGrid]; rfl) ht h.size h.dimension h.scale
        h.density hp hz,
      convert_eq (a := { a with sparse := .bool true }) (c' _ rfl) (by rw [h.isGrid]; rfl) rfl h.size h.dimension h.scale
        h.density hp hz]

/-- **C83 (negation: `nan`).**  The scale may be `nan`. -/
theorem nan_scale (h : Documented a n d ρ δ k grid sparse) :
    ∃ p, convert { a with scale := .float .nan } =
      .ok ⟨n, d, .nan, k, p, grid, if sparse then some (.fin δ) else none⟩ := by
  obtain ⟨p, hp, -⟩ := param_documented h
  obtain ⟨b, hb⟩ := h.verbose
  obtain ⟨z, hz⟩ := intOf_bool b
  rw [← hb] at hz
  have hc := check_documented h
  rw [check_ok] at hc
  refine ⟨p, convert_eq (a := { a with scale := .float .nan }) ?_ (by rw [h.isGrid]; rfl) (by rw [h.isSparse]; rfl) h.size
      h.dimension rfl h.density hp hz⟩
  rw [check_ok]
  exact ⟨hc.1, hc.2.1, (checkScale_ok _).2 (.inr ⟨_, rfl, .inl rfl⟩), hc.2.2.2⟩

/-- **C83 (negation: the parameter of the kernel).**  Every real number is accepted as the parameter, also a negative one,
and also by the kernels that have none, although the code means to refuse it there. -/
theorem any_parameter (h : Documented a n d ρ δ k grid sparse) (x : Num) :
    convert { a with kernelParam := .float x } =
      .ok ⟨n, d, .fin ρ, k, x, grid, if sparse then some (.fin δ) else none⟩ := by
  obtain ⟨b, hb⟩ := h.verbose
  obtain ⟨z, hz⟩ := intOf_bool b
  rw [← hb] at hz
  have hc := check_documented h
  rw [check_ok] at hc
  refine convert_eq (a := { a with kernelParam := .float x }) ?_ (by rw [h.isGrid]; rfl) (by rw [h.isSparse]; rfl) h.size
    h.dimension h.scale h.density rfl hz
  rw [check_ok]
  exact ⟨hc.1, hc.2.1, hc.2.2.1, hc.2.2.2.1, (checkKernelParam_ok h.kernel_mem _).2 (.inr rfl), hc.2.2.2.2.2⟩

/-- **C83 (negation: size).**  `numpy.False_` is accepted as the size of a grid; the matrix has no rows. -/
theorem no_points (h : Documented a n d ρ δ k true sparse) :
    ∃ r, convert { a with size := .npBool false } = .ok r ∧ r.size = 0 := by
  obtain ⟨p, hp, -⟩ := param_documented h
  obtain ⟨b, hb⟩ := h.verbose
  obtain ⟨z, hz⟩ := intOf_bool b
  rw [← hb] at hz
  have hc := check_documented h
  rw [check_ok] at hc
  have hc' : check { a with size := .npBool false } = .ok k := by
    rw [check_ok]
    exact ⟨(checkCount_ok _).2 ⟨rfl, fun h => nomatch h⟩, hc.2⟩
  have hg : truth a.grid = .ok true := by rw [h.isGrid]; rfl
  have hs : truth a.sparse = .ok sparse := by rw [h.isSparse]; rfl
  have hn : counts true (.npBool false) a.dimension = .ok (0, d) := by
    unfold counts
    simp [h.dimension.1, h.dimension.2.1]
  have h1 := h.scale
  have h2 := h.density
  unfold Spec.Correlation.Real at h1 h2
  refine ⟨⟨0, d, .fin ρ, k, p, true, if sparse then some (.fin δ) else none⟩, ?_, rfl⟩
  unfold convert
  simp only [hc', bind, Except.bind, hg, hn, hs, usedDensity, toCFloat, h1, h2, hp, hz]
  cases sparse <;> simp

/-! ### Integers of `numpy` as size -/

private theorem writeRows_range' (rows : ℕ) : ∀ m s, s ≤ rows →
    (writeRows rows (List.range' s m) = .ok () ↔ s + m ≤ rows)
  | 0, s, hs => by simp [writeRows, hs]
  | m + 1, s, hs => by
    rw [List.range'_succ]
    unfold writeRows
    split
    · rename_i h
      rw [writeRows_range' rows m (s + 1) h]
      omega
    · simp only [reduceCtorEq, false_iff]
      omega

private theorem writeRows_range (rows m : ℕ) : writeRows rows (List.range m) = .ok () ↔ m ≤ rows := by
  rw [List.range_eq_range', writeRows_range' rows m 0 (by omega)]
  omega

private theorem writeRows_error (rows : ℕ) : ∀ l, writeRows rows l ≠ .ok () → writeRows rows l = .error .outOfBounds
  | [], h => absurd rfl h
  | p :: l, h => by
    unfold writeRows at h ⊢
    split
    · rename_i hp
      rw [if_pos hp] at h
      exact writeRows_error rows l h
    · rfl

/-- **C83 (the points of a grid fit).**  If the number of points is a number of the integer type of `size`, all points are
written into the array, which has a row for each.  For the integers of Python this is always so. -/
theorem grid_fits {type : IntType} {size dimension : ℕ} (h : type.holds ((size : ℤ) ^ dimension)) :
    gridCall type size dimension = .ok (size ^ dimension) := by
  have hs : type.store ((size : ℤ) ^ dimension) = (size : ℤ) ^ dimension := by
    cases type with
    | python => rfl
    | signed bits =>
      obtain ⟨h1, h2⟩ := h
      show Int.bmod _ (2 ^ bits) = _
      rcases Nat.eq_zero_or_pos bits with rfl | hb
      · have h0 : (0 : ℤ) ≤ (size : ℤ) ^ dimension := by positivity
        have h2' : (size : ℤ) ^ dimension < 1 := by simpa using h2
        have : (size : ℤ) ^ dimension = 0 := by omega
        rw [this]
        rfl
      · obtain ⟨m, rfl⟩ := Nat.exists_eq_add_of_le' hb
        rw [Int.bmod_eq_of_le]
        · push_cast
          simp only [Nat.add_sub_cancel] at h1
          rw [pow_succ]
          omega
        · push_cast
          simp only [Nat.add_sub_cancel] at h2
          rw [pow_succ]
          omega
    | unsigned bits => exact Int.emod_eq_of_lt h.1 h.2
  unfold gridCall
  simp only [hs]
  have h0 : ¬ (size : ℤ) ^ dimension < 0 := not_lt.2 (by positivity)
  have ht : ((size : ℤ) ^ dimension).toNat = size ^ dimension := by
    rw [← Nat.cast_pow, Int.toNat_natCast]
  rw [if_neg h0, ht, (writeRows_range _ _).2 le_rfl]
  rfl

example : gridCall .python 20 2 = .ok 400 := grid_fits (type := .python) trivial

/-- **C83 (negation: narrow integers).**  If `size` is an unsigned integer of `numpy` and the number of points exceeds its
range, the points are written beyond the end of the array. -/
theorem narrow_size_out_of_bounds {bits size dimension : ℕ} (h : 2 ^ bits ≤ size ^ dimension) :
    gridCall (.unsigned bits) size dimension = .error (.native .outOfBounds) := by
  have hb : (0 : ℤ) < 2 ^ bits := by positivity
  have h1 : ((size : ℤ) ^ dimension % 2 ^ bits) < 2 ^ bits := Int.emod_lt_of_pos _ hb
  have h0 : 0 ≤ (size : ℤ) ^ dimension % 2 ^ bits := Int.emod_nonneg _ hb.ne'
  have hs : (IntType.unsigned bits).store ((size : ℤ) ^ dimension) = (size : ℤ) ^ dimension % 2 ^ bits := rfl
  rw [← hs] at h0 h1
  unfold gridCall
  simp only
  rw [if_neg (not_lt.2 h0), writeRows_error]
  · rfl
  · rw [Ne, writeRows_range, not_le, Int.toNat_lt h0]
    calc _ < 2 ^ bits := h1
      _ ≤ (size ^ dimension : ℕ) := by exact_mod_cast h

/-- A size of type `numpy.uint8` on a grid of `17 × 17` points. -/
example : gridCall (.unsigned 8) 17 2 = .error (.native .outOfBounds) := narrow_size_out_of_bounds (by norm_num)

/-- C83: `int` of a number that is not integral drops the fraction, for negative numbers too. -/
theorem int_truncates {v : PyVal} {x : ℚ} (hs : ∀ s, v ≠ .str s) (hv : v.num = some (.fin x)) :
    ∃ z : ℤ, intOf v = .ok z ∧ |(z : ℚ)| ≤ |x| ∧ |x| < |(z : ℚ)| + 1 ∧ 0 ≤ (z : ℚ) * x := by
  have h : intOf v = .ok (if 0 ≤ x then x.floor else x.ceil) := by
    cases v <;> simp_all [intOf]
  refine ⟨_, h, ?_⟩
  by_cases hx : 0 ≤ x
  · rw [if_pos hx]
    have h1 := Int.floor_le x
    have h2 := Int.lt_floor_add_one x
    have h3 : (0 : ℚ) ≤ (⌊x⌋ : ℤ) := by exact_mod_cast Int.floor_nonneg.2 hx
    have e : x.floor = ⌊x⌋ := rfl
    rw [e, abs_of_nonneg hx, abs_of_nonneg h3]
    exact ⟨h1, h2, mul_nonneg h3 hx⟩
  · rw [if_neg hx]
    have hx' : x ≤ 0 := (not_le.1 hx).le
    have h1 := Int.le_ceil x
    have h2 := Int.ceil_lt_add_one x
    have h3 : ((⌈x⌉ : ℤ) : ℚ) ≤ 0 := by exact_mod_cast Int.ceil_le.2 (by simpa using hx')
    have e : x.ceil = ⌈x⌉ := Rat.ceil_eq_neg_floor_neg x
    rw [e, abs_of_nonpos hx', abs_of_nonpos h3]
    exact ⟨by linarith, by linarith, mul_nonneg_of_nonpos_of_nonpos h3 hx'⟩

example : intOf (.float (.fin (-3/2))) = .ok (-1) := by decide +kernel

end Imate.Props.CorrelationArgs
