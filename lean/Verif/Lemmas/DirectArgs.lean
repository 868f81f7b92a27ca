import Verif.Spec.DirectArgs
import Verif.Lemmas.Args

/-! # Lemmas on the argument checks of the direct methods -/

namespace Imate.DirectArgs
open Args

theorem raise_ok {c : Bool} {e : PyExc} {u : Unit} : raiseIf c e = .ok u ↔ c = false := by
  cases c <;> simp [raiseIf]

theorem raise_error {c : Bool} {e e' : PyExc} : raiseIf c e = .error e' ↔ c = true ∧ e = e' := by
  cases c <;> simp [raiseIf]

theorem checkSparse_ok {A : MatArg} {u : Unit} : checkSparse A = .ok u ↔ A ≠ .other := by
  cases A <;> simp [checkSparse, raiseIf, MatArg.isNdarray, MatArg.issparse]

theorem checkSpmatrix_ok {A : MatArg} {u : Unit} : checkSpmatrix A = .ok u ↔ A ≠ .other ∧ ∀ r c, A ≠ .sparray r c := by
  cases A <;> simp [checkSpmatrix, raiseIf, MatArg.isNdarray, MatArg.isspmatrix]

theorem square_ok {A : MatArg} {b : Bool} :
    square A = .ok b ↔ ∃ r c, HasRows A r c ∧ b = decide (r = c) := by
  unfold square HasRows
  cases A with
  | ndarray s =>
    match s with
    | [] => simp [MatArg.dim, MatArg.shape, bind_ok]
    | [a] => simp [MatArg.dim, MatArg.shape, bind_ok]
    | a :: b' :: rest =>
      simp [MatArg.dim, MatArg.shape, bind_ok]
      exact eq_comm
  | spmatrix r c =>
    simp [MatArg.dim, MatArg.shape, bind_ok]
    exact eq_comm
  | sparray r c =>
    simp [MatArg.dim, MatArg.shape, bind_ok]
    exact eq_comm
  | other => simp [MatArg.dim, MatArg.shape, bind_ok]

theorem HasRows.unique {A : MatArg} {r c r' c' : ℕ} (h : HasRows A r c) (h' : HasRows A r' c') : r = r' ∧ c = c' := by
  rcases h with ⟨_, rfl⟩ | rfl | rfl <;> simp [HasRows] at h' <;> simp [h']

theorem HasRows.dim0 {A : MatArg} {r c : ℕ} (h : HasRows A r c) : A.dim 0 = .ok r := by
  rcases h with ⟨_, rfl⟩ | rfl | rfl <;> rfl

theorem HasRows.dim1 {A : MatArg} {r c : ℕ} (h : HasRows A r c) : A.dim 1 = .ok c := by
  rcases h with ⟨_, rfl⟩ | rfl | rfl <;> rfl

theorem HasRows.ne_other {A : MatArg} {r c : ℕ} (h : HasRows A r c) : A ≠ .other := by
  rcases h with ⟨_, rfl⟩ | rfl | rfl <;> simp

theorem HasRows.square {A : MatArg} {r c : ℕ} (h : HasRows A r c) : square A = .ok (decide (r = c)) :=
  square_ok.2 ⟨r, c, h, rfl⟩

theorem checkGram_ok {gram : PyVal} {sq : Bool} {u : Unit} :
    checkGram gram sq = .ok u ↔ ∃ g, gram = .bool g ∧ (g = false → sq = true) := by
  unfold checkGram
  cases gram with
  | bool g => cases g <;> cases sq <;> simp [checkBool, PyVal.isscalar, PyVal.isBool, truth, raiseIf, bind_ok]
  | _ => simp [checkBool, PyVal.isscalar, PyVal.isBool, bind_ok]

theorem checkBool_ok' {v : PyVal} {u : Unit} : checkBool v = .ok u ↔ IsBool v := checkBool_ok

theorem exponent_ok {v : PyVal} {u : Unit} : checkExponent v = .ok u ↔ v.isscalar = true := by
  cases v <;> simp [checkExponent, PyVal.isscalar]

theorem checkReturnInfo_ok {v : PyVal} {u : Unit} : checkReturnInfo v = .ok u ↔ IsBool v := by
  cases v <;> simp [checkReturnInfo, raiseIf, PyVal.isBool, IsBool]

theorem checkEigenvalues_ok {A : MatArg} {r c : ℕ} (h : HasRows A r c) {v : PyVal} {u : Unit} :
    checkEigenvalues A v = .ok u ↔ v = .none ∨ ∃ dt nd l, v = .array dt nd l ∧ l.length = r := by
  cases v <;> simp [checkEigenvalues, h.dim0, bind_ok, raise_ok]

theorem checkAssume_ok {e : PyExc} {l : List String} {v : PyVal} {u : Unit} :
    checkAssume e l v = .ok u ↔ ∃ s ∈ l, v = .str s := by
  cases v <;> simp [checkAssume, raise_ok]

theorem lt_fin_fin {a b : ℚ} : lt (.fin a) (.fin b) = decide (a < b) := rfl

theorem notInside_false {x : Num} : notInside x = false ↔ x = .nan ∨ ∃ q : ℚ, x = .fin q ∧ 0 < q ∧ q < 1 := by
  cases x with
  | fin q =>
    simp only [notInside, lt_fin_fin, XR.fin.injEq, Bool.or_eq_false_iff, decide_eq_false_iff_not, reduceCtorEq,
      false_or]
    constructor
    · rintro ⟨⟨⟨h1, h2⟩, h3⟩, h4⟩
      exact ⟨q, rfl, lt_of_le_of_ne (not_lt.1 h1) (Ne.symm h2), lt_of_le_of_ne (not_lt.1 h3) h4⟩
    · rintro ⟨_, rfl, h0, h1⟩
      exact ⟨⟨⟨not_lt.2 h0.le, ne_of_gt h0⟩, not_lt.2 h1.le⟩, ne_of_lt h1⟩
  | nan => simp [notInside, lt, XR.lt]
  | pinf => simp [notInside, lt, XR.lt]
  | ninf => simp [notInside, lt, XR.lt]

theorem checkFraction_ok {ints : Bool} {v : PyVal} {u : Unit} :
    checkFraction ints v = .ok u ↔ v = .float .nan ∨ ∃ x : ℚ, v = .float (.fin x) ∧ 0 < x ∧ x < 1 := by
  have hint (z : ℤ) : notInside (.fin (z : ℚ)) = true := by
    rw [← Bool.not_eq_false, notInside_false]
    rintro (h | ⟨q, h, h0, h1⟩)
    · cases h
    · cases h
      have h0' : 0 < z := by exact_mod_cast h0
      have h1' : z < 1 := by exact_mod_cast h1
      omega
  have hbool (b : Bool) : notInside (.fin (if b then (1 : ℚ) else 0)) = true := by
    cases b
    · simpa using hint 0
    · simpa using hint 1
  cases v with
  | float x => simp [checkFraction, PyVal.isscalar, isFloat, PyVal.num, raise_ok, notInside_false]
  | int z => cases ints <;> simp [checkFraction, PyVal.isscalar, isFloat, PyVal.isIntOrFloat, PyVal.num, raiseIf, hint]
  | bool b =>
    cases ints <;> simp [checkFraction, PyVal.isscalar, isFloat, PyVal.isIntOrFloat, PyVal.num, raiseIf, hbool]
  | other s => cases s <;> simp [checkFraction, PyVal.isscalar, isFloat, PyVal.isIntOrFloat]
  | _ => simp [checkFraction, PyVal.isscalar, isFloat, PyVal.isIntOrFloat]

theorem checkCholmod_ok {s : Bool} {v : PyVal} {u : Unit} : checkCholmod s v = .ok u ↔ CholmodFits s v := by
  cases v with
  | bool b => cases b <;> cases s <;> simp [checkCholmod, raiseIf, CholmodFits]
  | _ => simp [checkCholmod, CholmodFits]

theorem checkSecond_ok {A B : MatArg} {r c : ℕ} (h : HasRows A r c) (hA : ∀ r c, A ≠ .sparray r c) {u : Unit} :
    checkSecond A (decide (r = c)) B = .ok u ↔ SecondFits A r c B := by
  have key : (do
      let c ← A.dim 1
      let r ← B.dim 0
      raiseIf (decide (c ≠ r)) .valueError : Except PyExc Unit) = .ok u ↔ B.shape.head? = some c := by
    rw [h.dim1]
    unfold MatArg.dim
    rcases hs : B.shape with _ | ⟨x, l⟩
    · simp [bind_ok]
    · simp [bind_ok, raise_ok]
      exact eq_comm
  unfold checkSecond SecondFits
  by_cases hrc : r = c
  · rcases h with ⟨rest, rfl⟩ | rfl | rfl
    · cases B <;> simp [MatArg.isNdarray, MatArg.isspmatrix, hrc, raise_ok]
    · cases B <;> simp [MatArg.isNdarray, MatArg.isspmatrix, hrc, raise_ok]
    · exact absurd rfl (hA _ _)
  · simp only [hrc, decide_false, if_false, Bool.false_eq_true]
    rcases h with ⟨rest, rfl⟩ | rfl | rfl
    · cases B <;> simp_all [MatArg.isNdarray, MatArg.isspmatrix]
    · cases B <;> simp_all [MatArg.isNdarray, MatArg.isspmatrix]
    · exact absurd rfl (hA _ _)

theorem checkInteger_ok' {e : PyExc} {b : ℤ} {v : PyVal} {u : Unit} :
    checkInteger e b v = .ok u ↔ ∃ z, IsInt v z ∧ b ≤ z := by
  constructor
  · intro h
    have := checkInteger_ok h
    exact ⟨_, isInteger_isInt this.1, this.2⟩
  · rintro ⟨z, h, hz⟩
    have := isInt_isInteger h
    unfold checkInteger
    rcases h with rfl | rfl | ⟨rfl, rfl⟩ | ⟨rfl, rfl⟩ <;>
      simp_all [PyVal.isscalar, PyVal.isInteger, PyVal.intValue] <;> exact if_neg (not_lt.2 hz)

theorem seed_ok {v : PyVal} {u : Unit} : checkSeed v = .ok u ↔ v = .none ∨ ∃ z, IsInt v z := by
  cases v with
  | bool b => cases b <;> simp [checkSeed, PyVal.isscalar, PyVal.isInteger, IsInt]
  | other s => cases s <;> simp [checkSeed, PyVal.isscalar, PyVal.isInteger, IsInt]
  | _ => simp [checkSeed, PyVal.isscalar, PyVal.isInteger, IsInt]

theorem lt_zero_false {x : Num} : lt x (.fin 0) = false ↔ x = .nan ∨ NonNegative x := by
  cases x <;> simp [lt, XR.lt, NonNegative]

theorem outsideUnit_false {x : Num} : outsideUnit x = false ↔ x = .nan ∨ InUnit x := by
  cases x <;> simp [outsideUnit, lt, XR.lt, InUnit]

theorem plain_num {v : PyVal} {x : Num} : v.isIntegerOrFloat = true ∧ v.num = some x ↔ IsPlainReal v x := by
  cases v with
  | bool b => cases b <;> simp [PyVal.isIntegerOrFloat, PyVal.num, IsPlainReal, IsInt] <;> exact eq_comm
  | int z => simp [PyVal.isIntegerOrFloat, PyVal.num, IsPlainReal, IsInt]; exact eq_comm
  | npInt z => simp [PyVal.isIntegerOrFloat, PyVal.num, IsPlainReal, IsInt]; exact eq_comm
  | float z => simp [PyVal.isIntegerOrFloat, PyVal.num, IsPlainReal, IsInt]
  | _ => simp [PyVal.isIntegerOrFloat, PyVal.num, IsPlainReal, IsInt]

theorem lanczosTol_ok {v : PyVal} {u : Unit} : checkLanczosTol v = .ok u ↔ TolPasses v := by
  have H (y : Num) : ((do
      let negative ← (.ok (lt y (.fin 0)) : Except PyExc Bool)
      if negative then .error .valueError else .ok ()) = (.ok u : Except PyExc Unit)) ↔ y = .nan ∨ NonNegative y := by
    rw [← lt_zero_false]
    cases hb : lt y (.fin 0) <;> simp [bind_ok]
  unfold TolPasses
  simp only [← plain_num]
  cases v with
  | bool b => simpa [checkLanczosTol, PyVal.isscalar, PyVal.isIntegerOrFloat, pyLt, PyVal.num] using H (.fin (if b then 1 else 0))
  | int z => simpa [checkLanczosTol, PyVal.isscalar, PyVal.isIntegerOrFloat, pyLt, PyVal.num] using H (.fin z)
  | npInt z => simpa [checkLanczosTol, PyVal.isscalar, PyVal.isIntegerOrFloat, pyLt, PyVal.num] using H (.fin z)
  | float z => simpa [checkLanczosTol, PyVal.isscalar, PyVal.isIntegerOrFloat, pyLt, PyVal.num] using H (z)
  | other s => cases s <;> simp [checkLanczosTol, PyVal.isscalar, PyVal.isIntegerOrFloat]
  | _ => simp [checkLanczosTol, PyVal.isscalar, PyVal.isIntegerOrFloat]

theorem outlierLevel_ok {v : PyVal} {x : Num} :
    checkOutlierLevel v = .ok x ↔ IsPlainReal v x ∧ (x = .nan ∨ InUnit x) := by
  have H (y : Num) : ((if outsideUnit y then .error .valueError else .ok y) = (.ok x : Except PyExc Num)) ↔
      y = x ∧ (x = .nan ∨ InUnit x) := by
    rw [← outsideUnit_false]
    cases hb : outsideUnit y with
    | false =>
      simp only [Bool.false_eq_true, if_false, Except.ok.injEq]
      exact ⟨fun h => ⟨h, h ▸ hb⟩, And.left⟩
    | true =>
      simp only [if_true, reduceCtorEq, false_iff, not_and]
      rintro rfl h
      rw [hb] at h
      cases h
  rw [← plain_num]
  cases v with
  | bool b => simpa [checkOutlierLevel, PyVal.isscalar, PyVal.isIntegerOrFloat, PyVal.num] using H _
  | int z => simpa [checkOutlierLevel, PyVal.isscalar, PyVal.isIntegerOrFloat, PyVal.num] using H _
  | npInt z => simpa [checkOutlierLevel, PyVal.isscalar, PyVal.isIntegerOrFloat, PyVal.num] using H _
  | float z => simpa [checkOutlierLevel, PyVal.isscalar, PyVal.isIntegerOrFloat, PyVal.num] using H _
  | other s => cases s <;> simp [checkOutlierLevel, PyVal.isscalar, PyVal.isIntegerOrFloat]
  | _ => simp [checkOutlierLevel, PyVal.isscalar, PyVal.isIntegerOrFloat]

theorem checkTol_ok {v w : PyVal} :
    checkTol v = .ok w ↔ TolPasses v ∧ (v = .none ∧ w = .float (.fin 0) ∨ v ≠ .none ∧ w = v) := by
  by_cases hv : v = .none
  · subst hv
    simp [checkTol, TolPasses]
    exact eq_comm
  · have : checkTol v = (do checkLanczosTol v; .ok v) := by
      cases v <;> first | rfl | exact absurd rfl hv
    rw [this, bind_ok]
    simp only [lanczosTol_ok, Except.ok.injEq, hv, false_and, not_false_eq_true, true_and, false_or, ne_eq]
    constructor
    · rintro ⟨_, h, rfl⟩; exact ⟨h, rfl⟩
    · rintro ⟨h, rfl⟩; exact ⟨(), h, rfl⟩

theorem levels_pass {x y : Num} (hx : x = .nan ∨ InUnit x) (hy : y = .nan ∨ InUnit y) :
    lt (oneMinus x) y = false ↔ ∀ a b : ℚ, x = .fin a → y = .fin b → a + b ≤ 1 := by
  cases x with
  | nan => simp [oneMinus, XR.add, XR.neg, lt, XR.lt]
  | pinf => simp [InUnit] at hx
  | ninf => simp [InUnit] at hx
  | fin a =>
    cases y with
    | nan => simp [oneMinus, XR.add, XR.neg, lt, XR.lt]
    | pinf => simp [InUnit] at hy
    | ninf => simp [InUnit] at hy
    | fin b =>
      simp only [oneMinus, XR.add, XR.neg, lt_fin_fin, decide_eq_false_iff_not, not_lt, XR.fin.injEq]
      constructor
      · rintro h _ _ rfl rfl
        linarith
      · intro h
        have := h a b rfl rfl
        linarith

end Imate.DirectArgs
