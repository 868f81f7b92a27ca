import Verif.Model.OperatorDot
import Verif.Spec.OperatorDot
import Verif.Props.Operators
import Mathlib.LinearAlgebra.Matrix.Notation

/-!
# C84: products with the operator objects of Python

`op.set_parameters(t)` and `op.dot(x, y)` compute `y = (A + t B) x` for every history of calls before.
-/

namespace Imate.Props.OperatorDot

open Imate.OperatorDot Imate.Spec.OperatorDot Imate.Spec Args Matrix

variable {K : Type} [Field K] [DecidableEq K] {n m : ℕ}

private theorem dot_keeps {t : Bool} {op : Op K} {s s' : State K} {x y : Vec K} {z : Array K}
    (h : dot t op s x y = .ok (z, s')) : s'.parameters = s.parameters := by
  unfold dot at h
  split at h
  · cases h
  split at h
  · cases h
  cases hx : view x with
  | error e => simp [hx, bind, Except.bind] at h
  | ok a =>
  cases hy : view y with
  | error e => simp [hx, hy, bind, Except.bind] at h
  | ok b =>
  cases hp : pointParameters (op.astype x.dtype) s with
  | error e => simp [hx, hy, hp, bind, Except.bind] at h
  | ok p =>
  simp only [hx, hy, hp, bind, Except.bind] at h
  split at h
  · cases h
  cases hz : ofNative (op.native.product t p a b) with
  | error e => simp [hz] at h
  | ok z' =>
  simp only [hz, Except.ok.injEq, Prod.mk.injEq] at h
  rw [← h.2]

/-- The attribute is what was last set, whatever products were taken in between. -/
theorem parameters_after (op : Op K) (cs : List (Call K)) : ∀ (s s' : State K) (p : Parameters K),
    s.parameters = setParameters op.astype p → after op s cs = .ok s' →
      s'.parameters = setParameters op.astype (lastSet cs p) := by
  induction cs with
  | nil => intro s s' p hp h; cases h; exact hp
  | cons c cs ih =>
    intro s s' p hp h
    unfold after at h
    cases hs : step op s c with
    | error f => rw [hs] at h; cases h
    | ok s1 =>
      rw [hs] at h
      cases c with
      | setParameters q =>
        cases hs
        exact ih _ _ q rfl h
      | dot t x y =>
        refine ih _ _ p ?_ h
        unfold step at hs
        simp only at hs
        cases hd : dot t op s x y with
        | ok r =>
          obtain ⟨z, s2⟩ := r
          rw [hd] at hs
          cases hs
          rw [dot_keeps hd, hp]
        | error e =>
          rw [hd] at hs
          cases e <;> cases hs <;> exact hp

private theorem dot_good {d : DType} {k l : ℕ} {v : Fin k → K} {w : Fin l → K} {x y : Vec K} (hd : d ≠ .other)
    (hx : Good d v x) (hy : Good d w y) (N : Native K) (s : State K) (tr : Bool) {p : Pointer K}
    {c : DType → K → K} (hp : pointParameters (c d) s = .ok p) {z : Array K}
    (hz : N.product tr p (Array.ofFn v) (Array.ofFn w) = .ok z) :
    dot tr ⟨d, N, c⟩ s x y = .ok (z, ⟨s.parameters, leave s⟩) := by
  obtain ⟨h1, h2, h3, -, h5⟩ := hx
  obtain ⟨g1, g2, g3, -, g5⟩ := hy
  simp [dot, view, h1, h2, h3, h5, g1, g2, g3, g5, hd, hp, hz, bind, Except.bind, ofNative]

private theorem gives_point {op : Op K} {cs : List (Call K)} {s : State K} {t : K} (ha : after op init cs = .ok s)
    (hl : Gives op.astype (lastSet cs .none) t) (d : DType) :
    ∃ ts, pointParameters (op.astype d) s = .ok (.live (op.astype d t :: ts)) := by
  have hp := parameters_after _ cs init s .none rfl ha
  obtain ⟨q, r⟩ := s
  rcases hl with ⟨hl, h64⟩ | ⟨ts, hl⟩
  · rw [hl] at hp
    simp only [setParameters, h64] at hp
    subst hp
    exact ⟨[], rfl⟩
  · rw [hl] at hp
    simp only [setParameters] at hp
    subst hp
    exact ⟨ts.map (op.astype d), rfl⟩

/-- **C84 (partial).**  After any history of calls in which `t` was given last, `dot` and `transpose_dot` of the operator of
`A + t B`, with arrays of its type and of the right length, give the product and its transpose, with `t` converted to the
type of the operator.  (The full claim is for all arrays: see the negations.) -/
theorem affine_history_partial {S T : StoredMatrix K} {A B : Matrix (Fin n) (Fin m) K} (hS : Represents S A)
    (hT : Represents T B) (hB : B ≠ 0) {d : DType} (hd : d ≠ .other) (c : DType → K → K) (t : K) (v : Fin m → K)
    (w : Fin n → K) {x x' y y' : Vec K} (hx : Good d v x) (hy : Good d w y) (hx' : Good d v x') (hy' : Good d w y') :
    ∃ O, AffineOp.construct S (some T) n m = .ok O ∧
      ∀ (cs : List (Call K)) (s : State K), after ⟨d, .affine O, c⟩ init cs = .ok s → Gives c (lastSet cs .none) t →
        (∃ s', dot false ⟨d, .affine O, c⟩ s x y = .ok (Array.ofFn ((A + c d t • B) *ᵥ v), s')) ∧
        (∃ s', dot true ⟨d, .affine O, c⟩ s y' x' = .ok (Array.ofFn ((A + c d t • B)ᵀ *ᵥ w), s')) := by
  obtain ⟨O, h1, -, h2, h3⟩ := affine_nonzero_B_correct_partial hS hT hB (c d t) v w (Array.ofFn w) (by simp)
    (Array.ofFn v) (by simp)
  refine ⟨O, h1, fun cs s ha hl => ?_⟩
  obtain ⟨ts, hp⟩ := gives_point ha hl d
  exact ⟨⟨_, dot_good hd hx hy _ _ false hp (by simpa [Native.product] using h2)⟩,
    ⟨_, dot_good hd hy' hx' _ _ true hp (by simpa [Native.product] using h3)⟩⟩

/-- **C84.**  Without `B` the operator is `A + t I`, after any history in which `t` was given last. -/
theorem affine_identity_history {S : StoredMatrix K} {A : Matrix (Fin n) (Fin m) K} (hS : Represents S A)
    {d : DType} (hd : d ≠ .other) (c : DType → K → K) (t : K) (v : Fin m → K) (w : Fin n → K)
    {x x' y y' : Vec K} (hx : Good d v x) (hy : Good d w y) (hx' : Good d v x') (hy' : Good d w y') :
    ∃ O, AffineOp.construct S none n m = .ok O ∧
      ∀ (cs : List (Call K)) (s : State K), after ⟨d, .affine O, c⟩ init cs = .ok s → Gives c (lastSet cs .none) t →
        (∃ s', dot false ⟨d, .affine O, c⟩ s x y = .ok (Array.ofFn ((A + c d t • rectOne) *ᵥ v), s')) ∧
        (∃ s', dot true ⟨d, .affine O, c⟩ s y' x' = .ok (Array.ofFn ((A + c d t • rectOne)ᵀ *ᵥ w), s')) := by
  obtain ⟨O, h1, h2⟩ := affine_identity_dot_correct hS (c d t) v (Array.ofFn w) (by simp)
  obtain ⟨O', h1', h3⟩ := affine_identity_transpose_dot_correct hS (c d t) w (Array.ofFn v) (by simp)
  have : O' = O := Except.ok.inj (h1'.symm.trans h1)
  subst this
  refine ⟨O', h1, fun cs s ha hl => ?_⟩
  obtain ⟨ts, hp⟩ := gives_point ha hl d
  exact ⟨⟨_, dot_good hd hx hy _ _ false hp (by simpa [Native.product] using h2)⟩,
    ⟨_, dot_good hd hy' hx' _ _ true hp (by simpa [Native.product] using h3)⟩⟩

/-- **C84.**  The operator of a matrix gives its product after every history in which no list was given as parameters. -/
theorem matrix_history {S : StoredMatrix K} {A : Matrix (Fin n) (Fin m) K} (hS : Represents S A) {d : DType}
    (hd : d ≠ .other) (v : Fin m → K) (w : Fin n → K) {x y x' y' : Vec K} (hx : Good d v x) (hy : Good d w y)
    (hx' : Good d v x') (hy' : Good d w y') (cs : List (Call K)) (s : State K)
    (c : DType → K → K)
    (ha : after ⟨d, .matrix S n m, c⟩ init cs = .ok s) (hl : lastSet cs .none ≠ .other) :
    (∃ s', dot false ⟨d, .matrix S n m, c⟩ s x y = .ok (Array.ofFn (A *ᵥ v), s')) ∧
    (∃ s', dot true ⟨d, .matrix S n m, c⟩ s y' x' = .ok (Array.ofFn (Aᵀ *ᵥ w), s')) := by
  have hp := parameters_after _ cs init s .none rfl ha
  have : ∃ p, pointParameters (c d) s = .ok p := by
    obtain ⟨q, r⟩ := s
    simp only at hp
    subst hp
    cases hq : lastSet cs .none <;> first | exact ⟨_, rfl⟩ | exact absurd hq hl
  obtain ⟨p, hp⟩ := this
  exact ⟨⟨_, dot_good hd hx hy _ s false hp (by simpa [Native.product] using stored_dot_correct hS v _ (by simp))⟩,
    ⟨_, dot_good hd hy' hx' _ s true hp
      (by simpa [Native.product] using stored_transpose_dot_correct hS w _ (by simp))⟩⟩

/-! ### Exceptions -/

/-- Arrays of different types, and of types that are not real floating point types, are refused. -/
theorem types_refused (tr : Bool) (op : Op K) (s : State K) (x y : Vec K)
    (h : x.dtype ≠ y.dtype ∨ x.dtype = .other) : dot tr op s x y = .error .typeError := by
  unfold dot
  by_cases h1 : x.dtype = y.dtype
  · have h2 := h.resolve_left (not_not.2 h1)
    simp [h1, h1 ▸ h2]
  · simp [h1]

/-- Arrays of a common floating point type are refused if one has not one dimension or is read-only. -/
theorem arrays_refused (tr : Bool) (op : Op K) (s : State K) (x y : Vec K) (hxy : x.dtype = y.dtype)
    (hd : x.dtype ≠ .other) (h : x.ndim ≠ 1 ∨ x.writeable = false ∨ y.ndim ≠ 1 ∨ y.writeable = false) :
    dot tr op s x y = .error .valueError := by
  have hd' : y.dtype ≠ .other := hxy ▸ hd
  by_cases h1 : x.ndim = 1 <;> by_cases h2 : x.writeable = false <;> by_cases h3 : y.ndim = 1 <;>
    by_cases h4 : y.writeable = false <;>
    simp_all [dot, view, bind, Except.bind]

/-- A list given as parameters raises at the next product, with arrays that are accepted. -/
theorem list_refused (tr : Bool) (op : Op K) (p : Pointer K) {d : DType} (hd : d ≠ .other) {k l : ℕ} (v : Fin k → K)
    (w : Fin l → K) {x y : Vec K} (hx : Good d v x) (hy : Good d w y) :
    dot tr op ⟨setParameters op.astype .other, p⟩ x y = .error .attributeError := by
  obtain ⟨h1, h2, h3, -, h5⟩ := hx
  obtain ⟨g1, g2, g3, -, g5⟩ := hy
  simp [dot, view, h1, h2, h3, h5, g1, g2, g3, g5, hd, setParameters, pointParameters, bind, Except.bind]

/-! ### Negations -/

/-- Arrays of another floating point type than the operator end the process, whatever they hold. -/
theorem other_type_aborts (tr : Bool) {d e : DType} (N : Native K) (c : DType → K → K) (hde : e ≠ d) (he : e ≠ .other) {k l : ℕ}
    (v : Fin k → K) (w : Fin l → K) {x y : Vec K} (hx : Good e v x) (hy : Good e w y) :
    dot tr ⟨d, N, c⟩ init x y = .error (.native .abort) := by
  obtain ⟨h1, h2, h3, -, h5⟩ := hx
  obtain ⟨g1, g2, g3, -, g5⟩ := hy
  simp [dot, view, h1, h2, h3, h5, g1, g2, g3, g5, he, hde, init, pointParameters, bind, Except.bind]

/-- A parameter that was set, used and then set to `None` again is still read by the next product, after its memory was
released. -/
theorem unset_reads_released (tr : Bool) {d : DType} (hd : d ≠ .other) (O : AffineOp K) (c : DType → K → K) (t : K) {k l : ℕ}
    (v : Fin k → K) (w : Fin l → K) {x y : Vec K} (hx : Good d v x) (hy : Good d w y) {s : State K}
    (h : after ⟨d, .affine O, c⟩ init [.setParameters (.scalar t), .dot tr x y, .setParameters .none] = .ok s) :
    dot tr ⟨d, .affine O, c⟩ s x y = .error (.native .invalid) := by
  obtain ⟨h1, h2, h3, -, h5⟩ := hx
  obtain ⟨g1, g2, g3, -, g5⟩ := hy
  cases hz : (Native.affine O).product tr (.live [c d (c .float64 t)]) (Array.ofFn v) (Array.ofFn w) with
  | error f =>
    simp [after, step, dot, view, h1, h2, h3, h5, g1, g2, g3, g5, hd, init, setParameters, pointParameters, bind,
      Except.bind, hz, ofNative] at h
  | ok z =>
    simp [after, step, dot, view, h1, h2, h3, h5, g1, g2, g3, g5, hd, init, setParameters, pointParameters, bind,
      Except.bind, hz, ofNative, leave] at h
    subst h
    simp [dot, view, h1, h2, h3, h5, g1, g2, g3, g5, hd, pointParameters, bind, Except.bind, Native.product, ofNative]

/-- The operator of `A + t B` without a parameter ends the process. -/
theorem no_parameter_aborts (tr : Bool) {d : DType} (hd : d ≠ .other) (O : AffineOp K) (c : DType → K → K) {k l : ℕ} (v : Fin k → K)
    (w : Fin l → K) {x y : Vec K} (hx : Good d v x) (hy : Good d w y) :
    dot tr ⟨d, .affine O, c⟩ init x y = .error (.native .abort) := by
  obtain ⟨h1, h2, h3, -, h5⟩ := hx
  obtain ⟨g1, g2, g3, -, g5⟩ := hy
  simp [dot, view, h1, h2, h3, h5, g1, g2, g3, g5, hd, init, pointParameters, bind, Except.bind, Native.product, ofNative]

/-- The matrix with rows `(1, 2)` and `(3, 4)`. -/
def sampleMatrix : StoredMatrix ℚ := .dense #[1, 2, 3, 4] true

/-- A vector that is too short is read beyond its end. -/
theorem short_vector_out_of_bounds :
    ∃ x y : Vec ℚ, Good .float64 (fun _ : Fin 1 => 1) x ∧ Good .float64 (fun _ : Fin 2 => 0) y ∧
      dot false ⟨.float64, .matrix sampleMatrix 2 2, fun _ x => x⟩ init x y = .error (.native .outOfBounds) := by
  refine ⟨⟨.float64, 1, true, 1, #[1]⟩, ⟨.float64, 1, true, 1, #[0, 0]⟩, ⟨rfl, rfl, rfl, rfl, rfl⟩,
    ⟨rfl, rfl, rfl, rfl, rfl⟩, ?_⟩
  rfl

/-- The product with a view of every second entry is that with other numbers: the entries of the view are `(1, 1)`, its
product is `(3, 7)`, and the method gives `(11, 23)`. -/
theorem strided_vector_wrong :
    ∃ x y : Vec ℚ, (∀ i < 2, entry x i = some 1) ∧ Good .float64 (fun _ : Fin 2 => 0) y ∧
      (dot false ⟨.float64, .matrix sampleMatrix 2 2, fun _ x => x⟩ init x y).map (·.1) = .ok #[11, 23] := by
  refine ⟨⟨.float64, 1, true, 2, #[1, 5, 1]⟩, ⟨.float64, 1, true, 1, #[0, 0]⟩, by decide +kernel,
    ⟨rfl, rfl, rfl, rfl, rfl⟩, ?_⟩
  decide +kernel

/-- With the same array as vector and product, the swap of two entries gives one of them twice. -/
theorem in_place_wrong :
    denseInPlace (K := ℚ) #[0, 1, 1, 0] 2 #[1, 2] = .ok #[2, 2] ∧
    Array.ofFn (!![(0 : ℚ), 1; 1, 0] *ᵥ ![1, 2]) = #[2, 1] := by
  constructor <;> decide +kernel

/-- A number of type `float128` given as parameter is rounded to `float64`, also for an operator of type `float128`.  For
every `t` of the longer type that is not of the shorter one, the product of `A + t I` is that of another number, as soon as
it depends on `t`; given as an array of one number, the same `t` gives the right product. -/
theorem long_double_parameter_rounded {S : StoredMatrix K} {A : Matrix (Fin n) (Fin n) K} (hS : Represents S A)
    (c : DType → K → K) (t : K) (h128 : c .float128 t = t) (h64 : c .float64 t ≠ t)
    (hsub : c .float128 (c .float64 t) = c .float64 t) (v w : Fin n → K) (hv : v ≠ 0)
    {x y : Vec K} (hx : Good .float128 v x) (hy : Good .float128 w y) :
    ∃ O, AffineOp.construct S none n n = .ok O ∧
      (∃ z s', dot false ⟨.float128, .affine O, c⟩ ⟨setParameters c (.scalar t), .null⟩ x y = .ok (z, s') ∧
        z ≠ Array.ofFn ((A + t • (1 : Matrix (Fin n) (Fin n) K)) *ᵥ v)) ∧
      ∃ s', dot false ⟨.float128, .affine O, c⟩ ⟨setParameters c (.array [t]), .null⟩ x y =
        .ok (Array.ofFn ((A + t • (1 : Matrix (Fin n) (Fin n) K)) *ᵥ v), s') := by
  obtain ⟨O, h1, h2⟩ := affine_identity_dot_correct hS (c .float64 t) v (Array.ofFn w) (by simp)
  obtain ⟨O', h1', h3⟩ := affine_identity_dot_correct hS t v (Array.ofFn w) (by simp)
  have : O' = O := Except.ok.inj (h1'.symm.trans h1)
  subst this
  have one : (rectOne : Matrix (Fin n) (Fin n) K) = 1 := by
    ext i j
    simp [rectOne, Matrix.one_apply, Fin.ext_iff]
  rw [one] at h2 h3
  refine ⟨O', h1, ⟨_, _, dot_good (by decide) hx hy _ _ false (p := .live [c .float64 t]) ?_
    (by simpa [Native.product] using h2), fun h => ?_⟩, _, dot_good (by decide) hx hy _ _ false (p := .live [t]) ?_
    (by simpa [Native.product] using h3)⟩
  · simp [setParameters, pointParameters, hsub]
  · refine hv (funext fun i => ?_)
    have h4 : (A + c .float64 t • (1 : Matrix (Fin n) (Fin n) K)) *ᵥ v = (A + t • 1) *ᵥ v := by
      funext i
      have := congrArg (fun a : Array K => a[i.1]?) h
      simpa using this
    have h5 := congrFun h4 i
    simp only [Matrix.add_mulVec, Matrix.smul_mulVec, Matrix.one_mulVec, Pi.add_apply, Pi.smul_apply, smul_eq_mul,
      add_right_inj] at h5
    have h6 : (c .float64 t - t) * v i = 0 := by rw [sub_mul, h5, sub_self]
    rcases mul_eq_zero.1 h6 with h | h
    · exact absurd (sub_eq_zero.1 h) h64
    · exact h
  · simp [setParameters, pointParameters, h128]

/-! ### The hypotheses are met -/

private theorem sample_represents : Represents sampleMatrix !![(1 : ℚ), 2; 3, 4] := by
  show DenseRepr true #[1, 2, 3, 4] _
  unfold DenseRepr
  decide +kernel

/-- A good array with two entries. -/
private def pair (a b : ℚ) : Vec ℚ := ⟨.float64, 1, true, 1, #[a, b]⟩

private theorem pair_good (a b : ℚ) : Good .float64 ![a, b] (pair a b) := ⟨rfl, rfl, rfl, rfl, rfl⟩

/-- The operator of `A + t A` for the sample matrix. -/
private def sampleOp : AffineOp ℚ := ⟨sampleMatrix, some sampleMatrix, 2, 2, false, false⟩

/-- `affine_history_partial`: after the parameters 5 and 2 and a product, the product with `(1, 1)` is `3 A (1, 1)`. -/
example : AffineOp.construct sampleMatrix (some sampleMatrix) 2 2 = .ok sampleOp ∧
    ∃ s, after ⟨.float64, .affine sampleOp, fun _ x => x⟩ init
      [.setParameters (.scalar 5), .dot false (pair 1 0) (pair 0 0), .setParameters (.scalar 2)] = .ok s ∧
    (dot false ⟨.float64, .affine sampleOp, fun _ x => x⟩ s (pair 1 1) (pair 0 0)).map (·.1) = .ok #[9, 21] :=
  ⟨rfl, _, rfl, by decide +kernel⟩

example := affine_history_partial sample_represents sample_represents
  (by intro h; have := congrFun (congrFun h 0) 0; simp at this) (d := .float64) (by decide) (fun _ x => x) 2 ![1, 1] ![0, 0]
  (pair_good 1 1) (pair_good 0 0) (pair_good 1 1) (pair_good 0 0)

example := affine_identity_history sample_represents (d := .float64) (by decide) (fun _ x => x) 2 ![1, 1] ![0, 0]
  (pair_good 1 1) (pair_good 0 0) (pair_good 1 1) (pair_good 0 0)

example := matrix_history sample_represents (d := .float64) (by decide) ![1, 1] ![0, 0] (pair_good 1 1) (pair_good 0 0)
  (pair_good 1 1) (pair_good 0 0) [.setParameters (.array [])] _ (fun _ x => x) rfl (by simp [lastSet])

/-- `Gives`: by a number and by an array; `long_double_parameter_rounded`: `1 + 2⁻⁶⁰` is rounded to one. -/
example : Gives (K := ℚ) (fun _ x => x) (.scalar 2) 2 ∧ Gives (K := ℚ) (fun _ x => x) (.array [2, 3]) 2 :=
  ⟨.inl ⟨rfl, rfl⟩, .inr ⟨_, rfl⟩⟩

example := long_double_parameter_rounded sample_represents
  (fun d x => if d = .float64 ∧ x = 1 + 1 / 2 ^ 60 then 1 else x) (1 + 1 / 2 ^ 60) (by simp) (by norm_num)
  (by norm_num) ![1, 1] ![0, 0] (by intro h; have := congrFun h 0; simp at this)
  (x := ⟨.float128, 1, true, 1, #[1, 1]⟩) (y := ⟨.float128, 1, true, 1, #[0, 0]⟩) ⟨rfl, rfl, rfl, rfl, rfl⟩
  ⟨rfl, rfl, rfl, rfl, rfl⟩

/-- `unset_reads_released`: such a history exists. -/
example := unset_reads_released false (d := .float64) (by decide) sampleOp (fun _ x => x) 2 ![1, 1] ![0, 0] (pair_good 1 1)
  (pair_good 0 0) rfl

end Imate.Props.OperatorDot
