import Verif.Spec.Equivariance
import Verif.Lemmas.Convergence

/-! # The convergence code and the sampling loop, with scaled samples -/

namespace Imate.Convergence

open Spec FloatLike

variable {k : ℝ}

theorem signedInf_scale (hk : 0 < k) (y : ℝ) : scaled k (XR.signedInf y) = XR.signedInf y := by
  unfold XR.signedInf scaled
  split
  · simp [XR.mul, XR.signedInf, hk]
  · split
    · simp [XR.mul, XR.signedInf, hk, not_lt.2 hk.le]
    · rfl

theorem scaled_zero : scaled k (ofNat 0 : XR ℝ) = ofNat 0 := by simp [scaled, XR.mul, ofNat]

theorem scaled_inf (hk : 0 < k) : scaled k (inf : XR ℝ) = inf := by simp [scaled, XR.mul, inf, XR.signedInf, hk]

theorem scaled_nan : scaled k (nan : XR ℝ) = nan := rfl

theorem scaled_fin (x : ℝ) : scaled k (.fin x) = .fin (k * x) := rfl

theorem scaled_pinf (hk : 0 < k) : scaled k .pinf = .pinf := by simp [scaled, XR.mul, XR.signedInf, hk]

theorem scaled_ninf (hk : 0 < k) : scaled k .ninf = .ninf := by
  simp [scaled, XR.mul, XR.signedInf, hk, not_lt.2 hk.le]

theorem scaled_nan' : scaled k .nan = .nan := rfl

theorem add_scaled (hk : 0 < k) (x y : XR ℝ) : add (scaled k x) (scaled k y) = scaled k (add x y) := by
  show XR.add _ _ = scaled k (XR.add x y)
  cases x <;> cases y <;>
    simp [scaled_fin, scaled_pinf hk, scaled_ninf hk, scaled_nan', XR.add, mul_add]

theorem sub_scaled (hk : 0 < k) (x y : XR ℝ) : sub (scaled k x) (scaled k y) = scaled k (sub x y) := by
  show XR.add _ (XR.neg _) = scaled k (XR.add x (XR.neg y))
  cases x <;> cases y <;>
    simp [scaled_fin, scaled_pinf hk, scaled_ninf hk, scaled_nan', XR.add, XR.neg, mul_add]

theorem signedInf_mul (hk : 0 < k) (y : ℝ) : XR.signedInf (k * y) = XR.signedInf y := by
  unfold XR.signedInf
  have h : k * y < 0 ↔ y < 0 := ⟨fun h => by
    by_contra h'; push Not at h'; exact absurd h (not_lt.2 (mul_nonneg hk.le h')), fun h => mul_neg_of_pos_of_neg hk h⟩
  simp only [mul_pos_iff_of_pos_left hk, h]

theorem mul_scaled (hk : 0 < k) (x y : XR ℝ) : mul x (scaled k y) = scaled k (mul x y) := by
  show XR.mul _ _ = scaled k (XR.mul x y)
  cases x <;> cases y <;>
    simp [scaled_fin, scaled_pinf hk, scaled_ninf hk, scaled_nan', XR.mul, signedInf_scale hk, signedInf_mul hk,
      ← mul_neg, mul_left_comm]

theorem mul_scaled_left (hk : 0 < k) (x y : XR ℝ) : mul (scaled k x) y = scaled k (mul x y) := by
  show XR.mul _ _ = scaled k (XR.mul x y)
  cases x <;> cases y <;>
    simp [scaled_fin, scaled_pinf hk, scaled_ninf hk, scaled_nan', XR.mul, signedInf_scale hk, signedInf_mul hk,
      ← mul_neg, mul_assoc]

theorem div_scaled (hk : 0 < k) (x : XR ℝ) (y : XR ℝ) : div (scaled k x) y = scaled k (div x y) := by
  show XR.div _ _ = scaled k (XR.div x y)
  cases x <;> cases y
  case fin.fin x y =>
    simp only [scaled_fin, XR.div]
    split
    · rw [signedInf_mul hk, signedInf_scale hk]
    · rw [scaled_fin, mul_div_assoc]
  case pinf.fin y =>
    rw [scaled_pinf hk]
    simp only [XR.div]
    split
    · rw [scaled_ninf hk]
    · rw [scaled_pinf hk]
  case ninf.fin y =>
    rw [scaled_ninf hk]
    simp only [XR.div]
    split
    · rw [scaled_pinf hk]
    · rw [scaled_ninf hk]
  all_goals simp [scaled_fin, scaled_pinf hk, scaled_ninf hk, scaled_nan', XR.div]

theorem sqrt_scaled (hk : 0 < k) (x : XR ℝ) : sqrt (scaled k (scaled k x)) = scaled k (sqrt x) := by
  show XR.sqrt _ = scaled k (XR.sqrt x)
  cases x with
  | fin x =>
    simp only [scaled_fin, XR.sqrt]
    have h : k * (k * x) < 0 ↔ x < 0 := by
      rw [← mul_assoc]
      constructor
      · intro h; by_contra h'; push Not at h'; exact absurd h (not_lt.2 (mul_nonneg (mul_pos hk hk).le h'))
      · intro h; exact mul_neg_of_pos_of_neg (mul_pos hk hk) h
    by_cases hx : x < 0
    · rw [if_pos (h.2 hx), if_pos hx, scaled_nan']
    · rw [if_neg (fun h' => hx (h.1 h')), if_neg hx, scaled_fin]
      congr 1
      show Real.sqrt (k * (k * x)) = k * Real.sqrt x
      rw [← mul_assoc, Real.sqrt_mul (mul_self_nonneg k), Real.sqrt_mul_self hk.le]
  | _ => simp [scaled_pinf hk, scaled_ninf hk, scaled_nan', XR.sqrt]

theorem abs_scaled (hk : 0 < k) (x : XR ℝ) : abs (scaled k x) = scaled k (abs x) := by
  show XR.abs _ = scaled k (XR.abs x)
  cases x <;> simp [scaled_fin, scaled_pinf hk, scaled_ninf hk, scaled_nan', XR.abs, abs_mul, abs_of_pos hk]

theorem lt_scaled (hk : 0 < k) (x y : XR ℝ) : lt (scaled k x) (scaled k y) = lt x y := by
  show XR.lt _ _ = XR.lt x y
  cases x <;> cases y <;>
    simp [scaled_fin, scaled_pinf hk, scaled_ninf hk, scaled_nan', XR.lt, mul_lt_mul_iff_right₀ hk]

theorem max_scaled (hk : 0 < k) (x y : XR ℝ) : FloatLike.max (scaled k x) (scaled k y) = scaled k (FloatLike.max x y) := by
  unfold FloatLike.max
  rw [lt_scaled hk]
  split <;> rfl

theorem foldl_add_scaled (hk : 0 < k) (xs : List (XR ℝ)) (s : XR ℝ) :
    (xs.map (scaled k)).foldl add (scaled k s) = scaled k (xs.foldl add s) := by
  induction xs generalizing s with
  | nil => rfl
  | cons x xs ih => simp only [List.map_cons, List.foldl_cons]; rw [add_scaled hk, ih]

theorem sumOf_scaled (hk : 0 < k) (xs : List (XR ℝ)) : sumOf (xs.map (scaled k)) = scaled k (sumOf xs) := by
  unfold sumOf
  rw [← foldl_add_scaled hk, scaled_zero]

theorem meanOf_scaled (hk : 0 < k) (xs : List (XR ℝ)) : meanOf (xs.map (scaled k)) = scaled k (meanOf xs) := by
  unfold meanOf
  rw [sumOf_scaled hk, div_scaled hk, List.length_map]

theorem sumSq_scaled (hk : 0 < k) (m : XR ℝ) (xs : List (XR ℝ)) :
    sumSq (scaled k m) (xs.map (scaled k)) = scaled k (scaled k (sumSq m xs)) := by
  unfold sumSq
  have h : ∀ s, (xs.map (scaled k)).foldl (fun s x => add s (mul (sub x (scaled k m)) (sub x (scaled k m))))
      (scaled k (scaled k s)) = scaled k (scaled k (xs.foldl (fun s x => add s (mul (sub x m) (sub x m))) s)) := by
    induction xs with
    | nil => intro s; rfl
    | cons x xs ih =>
      intro s
      simp only [List.map_cons, List.foldl_cons]
      rw [sub_scaled hk, mul_scaled hk, mul_scaled_left hk, add_scaled hk, add_scaled hk, ih]
  rw [← h, scaled_zero, scaled_zero]

theorem stdOf_scaled (hk : 0 < k) (xs : List (XR ℝ)) : stdOf (xs.map (scaled k)) = scaled k (stdOf xs) := by
  unfold stdOf
  rw [List.length_map]
  split
  · rw [meanOf_scaled hk, sumSq_scaled hk, div_scaled hk, div_scaled hk, sqrt_scaled hk]
  · rw [scaled_inf hk]

theorem errorOf_scaled (hk : 0 < k) (z : XR ℝ) (xs : List (XR ℝ)) :
    errorOf z (xs.map (scaled k)) = scaled k (errorOf z xs) := by
  unfold errorOf
  rw [stdOf_scaled hk, mul_scaled hk, div_scaled hk, List.length_map]

theorem meetsTol_scaled (hk : 0 < k) (z atol rtol : XR ℝ) (xs : List (XR ℝ)) :
    meetsTol z (scaled k atol) rtol (xs.map (scaled k)) = meetsTol z atol rtol xs := by
  unfold meetsTol
  rw [errorOf_scaled hk, meanOf_scaled hk, mul_scaled hk, max_scaled hk, lt_scaled hk]

theorem isOutlier_scaled (hk : 0 < k) (m half x : XR ℝ) :
    isOutlier (scaled k m) (scaled k half) (scaled k x) = isOutlier m half x := by
  unfold isOutlier
  rw [sub_scaled hk, abs_scaled hk, lt_scaled hk]

theorem averageEstimate_scaled (hk : 0 < k) (ez oz : XR ℝ) (xs : List (XR ℝ)) :
    averageEstimate ez oz (xs.map (scaled k)) = scaledAverage k (averageEstimate ez oz xs) := by
  unfold averageEstimate scaledAverage
  have hfun : ((fun x => !isOutlier (scaled k (meanOf xs)) (scaled k (mul oz (stdOf xs))) x) ∘ scaled k) =
      fun x => !isOutlier (meanOf xs) (mul oz (stdOf xs)) x := by
    funext x; simp [isOutlier_scaled hk]
  have hfun' : ((fun x => isOutlier (scaled k (meanOf xs)) (scaled k (mul oz (stdOf xs))) x) ∘ scaled k) =
      fun x => isOutlier (meanOf xs) (mul oz (stdOf xs)) x := by
    funext x; simp [isOutlier_scaled hk]
  simp only [meanOf_scaled hk, stdOf_scaled hk, mul_scaled hk, List.filter_map, List.countP_map, hfun, hfun',
    List.length_map, sumOf_scaled hk, div_scaled hk, sumSq_scaled hk, sqrt_scaled hk]
  congr 1
  split
  · rw [mul_scaled hk, div_scaled hk]
  · conv_lhs => rw [← scaled_inf hk, mul_scaled hk, div_scaled hk]

theorem updateInquiry_scaled (hk : 0 < k) (z atol rtol : XR ℝ) (xs : List (XR ℝ)) (q : Inquiry (XR ℝ)) :
    updateInquiry z (scaled k atol) rtol (xs.map (scaled k)) (scaledInquiry k q) =
      scaledInquiry k (updateInquiry z atol rtol xs q) := by
  unfold updateInquiry
  show (if q.converged then _ else _) = _
  split
  · rfl
  · rw [errorOf_scaled hk, meetsTol_scaled hk, List.length_map]
    rfl

theorem checkConvergence_scaled (hk : 0 < k) (minNum : Nat) (z atol rtol : XR ℝ) (column : Nat → List (XR ℝ)) (num : Nat)
    (inqs : List (Inquiry (XR ℝ))) :
    checkConvergence minNum z (scaled k atol) rtol (fun j => (column j).map (scaled k)) num
        (inqs.map (scaledInquiry k)) =
      ((checkConvergence minNum z atol rtol column num inqs).1.map (scaledInquiry k),
        (checkConvergence minNum z atol rtol column num inqs).2) := by
  unfold checkConvergence
  split
  · simp only [List.map_map]
    congr 1
    apply List.map_congr_left
    intro q _
    simp [scaledInquiry, scaled_inf hk]
  · have h : List.mapIdx (fun j q => updateInquiry z (scaled k atol) rtol ((column j).map (scaled k)) q)
        (inqs.map (scaledInquiry k)) =
        (List.mapIdx (fun j q => updateInquiry z atol rtol (column j) q) inqs).map (scaledInquiry k) := by
      apply List.ext_getElem?
      intro i
      simp only [List.getElem?_mapIdx, List.getElem?_map]
      cases inqs[i]? with
      | none => rfl
      | some q => simp [updateInquiry_scaled hk]
    simp only [h, List.all_map]
    rfl

end Imate.Convergence

namespace Imate.Estimator

open Spec Convergence FloatLike

variable {k : ℝ} {cfg : Config (XR ℝ)}

theorem cellValue_scaled (i j : Nat) (c : Cell) :
    (scaledConfig k cfg).cellValue i j c = scaled k (cfg.cellValue i j c) := by
  cases c with
  | computed b => cases b <;> rfl
  | untouched => exact scaled_nan.symm
  | _ => rfl

theorem flag_scaled (s : State (XR ℝ)) (j : Nat) : flag (scaledState k s) j = flag s j := by
  unfold flag scaledState
  simp only [List.getElem?_map]
  cases s.inqs[j]? <;> rfl

theorem clearFlag_scaled (s : State (XR ℝ)) (j : Nat) : clearFlag (scaledState k s) j = scaledState k (clearFlag s j) := by
  unfold clearFlag scaledState
  congr 1
  apply List.ext_getElem?
  intro i
  simp only [List.getElem?_modify, List.getElem?_map]
  cases s.inqs[i]? with
  | none => rfl
  | some q =>
    simp only [Option.map_some]
    split <;> rfl

theorem column_scaled (s : State (XR ℝ)) (j : Nat) :
    column (scaledConfig k cfg) (scaledState k s) j = (column cfg s j).map (scaled k) := by
  unfold column
  rw [List.map_map]
  apply List.map_congr_left
  intro i _
  exact cellValue_scaled _ _ _

theorem criticalSection_scaled (hk : 0 < k) (i : Nat) (s : State (XR ℝ)) :
    criticalSection (scaledConfig k cfg) i (scaledState k s) = scaledState k (criticalSection cfg i s) := by
  unfold criticalSection
  have h : ∀ j, column (scaledConfig k cfg) { scaledState k s with processed := s.processed ++ [i] } j =
      (column cfg { s with processed := s.processed ++ [i] } j).map (scaled k) := fun j =>
    column_scaled (k := k) (cfg := cfg) { s with processed := s.processed ++ [i] } j
  have h' := checkConvergence_scaled hk cfg.minNumSamples cfg.z cfg.atol cfg.rtol
    (column cfg { s with processed := s.processed ++ [i] }) (s.processed ++ [i]).length s.inqs
  rw [← funext h] at h'
  simp only [scaledState, scaledConfig] at h' ⊢
  rw [h']

theorem stepThread_scaled (hk : 0 < k) (s : State (XR ℝ)) (th : Thread) :
    stepThread (scaledConfig k cfg) (scaledState k s) th =
      (stepThread cfg s th).map (fun r => (scaledState k r.1, r.2)) := by
  obtain ⟨todo, pc⟩ := th
  cases pc with
  | ready =>
    cases todo with
    | nil =>
      simp only [stepThread]
      show (if s.next < cfg.maxNumSamples then _ else _) = _
      split <;> rfl
    | cons i rest =>
      simp only [stepThread]
      show (if s.allConverged = true then _ else _) = _
      split <;> rfl
  | test i j seen =>
    simp only [stepThread, flag_scaled]
    show (if j < cfg.required then (if (flag s j && decide (cfg.required = cfg.numInquiries)) = true then _ else _)
      else _) = _
    split
    · split <;> rfl
    · rfl
  | setParam i j seen => rfl
  | lanczos i j m own seen => cases m <;> rfl
  | reset i j seen =>
    simp only [stepThread, clearFlag_scaled]
    show (if j < cfg.numInquiries then _ else _) = _
    split <;> rfl
  | quad i j seen =>
    simp only [stepThread, flag_scaled]
    show (if j < cfg.numInquiries then _ else _) = _
    split
    · split <;> rfl
    · rfl
  | critical i =>
    simp only [stepThread, criticalSection_scaled hk]
    rfl

theorem step_scaled (hk : 0 < k) (s : State (XR ℝ)) (t : Nat) :
    step (scaledConfig k cfg) (scaledState k s) t = (step cfg s t).map (scaledState k) := by
  unfold step
  show (match s.threads[t]? with | none => _ | some th => _) = _
  cases s.threads[t]? with
  | none => rfl
  | some th =>
    simp only [stepThread_scaled hk]
    cases stepThread cfg s th <;> rfl

theorem run_scaled_from (hk : 0 < k) (s : State (XR ℝ)) (sched : List Nat) :
    run (scaledConfig k cfg) (scaledState k s) sched = (run cfg s sched).map (scaledState k) := by
  induction sched generalizing s with
  | nil => rfl
  | cons t ts ih =>
    simp only [run, step_scaled hk]
    cases step cfg s t with
    | none => rfl
    | some s' => exact ih s'

theorem init_scaled : init (scaledConfig k cfg) = scaledState k (init cfg) := by
  unfold init scaledState scaledConfig
  simp only [List.map_replicate]
  congr 2
  unfold scaledInquiry
  rw [scaled_zero]

end Imate.Estimator
