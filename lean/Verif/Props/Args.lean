import Verif.Lemmas.Args

/-!
# C31, C32: argument validation and the shape of the result
-/

namespace Imate.Props

open Imate.Args

theorem toCFloat_precision (dtype : DType) : toCFloat (precisionScalar dtype) = .ok (.fin (machinePrecision dtype)) := by
  unfold precisionScalar
  split <;> rfl

/-- C31.  If a call reaches the C++ code then every argument had the documented type, `None` became the
documented default, the integers satisfy the documented constraints and fit their C types, and the C++ code
gets exactly the numbers the caller wrote. -/
theorem arguments_accepted {maxThreads : ℕ} {A : Operand} {parameters : PyVal} {a : Arguments}
    {r : Prepared} (h : prepare maxThreads A parameters a = .ok r) :
    Accepted maxThreads a r.op.dtype r.native := by
  unfold prepare at h
  obtain ⟨threads, ht, h⟩ := bind_ok.1 h
  obtain ⟨op, hop, h⟩ := bind_ok.1 h
  obtain ⟨params, hpar, h⟩ := bind_ok.1 h
  obtain ⟨num, hnum, h⟩ := bind_ok.1 h
  obtain ⟨⟨atol, rtol⟩, hchk, h⟩ := bind_ok.1 h
  obtain ⟨nat, hnat, h⟩ := bind_ok.1 h
  cases h
  unfold checkArguments at hchk
  simp only [bind_ok] at hchk
  obtain ⟨⟨⟩, c1, ⟨⟩, -, ⟨⟩, c3, ⟨⟩, c4, ⟨⟩, c5, atol', c6, rtol', c7, conf, c8, out, c9, ⟨⟩, c10, ⟨⟩, c11,
    ⟨⟩, c12, ⟨⟩, c13, ⟨⟩, c14, ⟨⟩, c15, ⟨⟩, c16, ⟨⟩, c17, ⟨⟩, c18, ⟨⟩, c19, c20⟩ := hchk
  cases c20
  unfold toNative at hnat
  simp only [bind_ok] at hnat
  obtain ⟨n1, d1, n2, d2, n3, d3, n4, d4, n5, d5, n6, d6, n7, d7, n8, d8, n9, d9, n10, d10, n11, d11, n12,
    d12, n13, d13, d14⟩ := hnat
  cases d14
  have i6 := toCInt_ok d6
  have i7 := toCInt_ok d7
  have i4 := toCInt_ok d4
  have i2 := toCInt_ok d2
  have i12 := toCInt_ok d12
  have e6 := (isInt_isInteger i6.1).2
  have e7 := (isInt_isInteger i7.1).2
  have e4 := (isInt_isInteger i4.1).2
  have e2 := (isInt_isInteger i2.1).2
  have e12 := (isInt_isInteger i12.1).2
  obtain ⟨b, hb⟩ := checkBool_ok.1 c1
  constructor
  case gram => rw [hb]; cases b <;> simp [PyVal.intValue]
  case exponent => exact toCFloat_ok d1
  case minNumSamples => exact i6.1
  case maxNumSamples => exact i7.1
  case min_pos => rw [← e6]; exact (checkInteger_ok c3).2
  case min_le_max =>
    rw [raiseIf_ok, decide_eq_false_iff_not] at c5
    rw [← e6, ← e7]
    exact not_lt.1 c5
  case max_lt => exact i7.2.2
  case atol =>
    rcases checkTolerance_ok c6 with ⟨h1, rfl⟩ | ⟨rfl, -⟩
    · cases d8; exact .inl ⟨h1, rfl⟩
    · exact .inr (toCFloat_ok d8)
  case rtol =>
    rcases checkTolerance_ok c7 with ⟨h1, rfl⟩ | ⟨rfl, -⟩
    · cases d9; exact .inl ⟨h1, rfl⟩
    · exact .inr (toCFloat_ok d9)
  case confidenceLevel => exact toCFloat_ok d10
  case outlierLevel => exact toCFloat_ok d11
  case lanczosDegree => exact i4.1
  case degree_pos => rw [← e4]; exact (checkInteger_ok c11).2
  case lanczosTol =>
    by_cases hn : a.lanczosTol = .none
    · rw [hn, show defaultTol op.dtype .none = precisionScalar op.dtype from rfl, toCFloat_precision] at d5
      cases d5
      exact .inl ⟨hn, rfl⟩
    · refine .inr ?_
      have : defaultTol op.dtype a.lanczosTol = a.lanczosTol := by
        unfold defaultTol
        split
        · exact absurd ‹_› hn
        · rfl
      rw [← this]
      exact toCFloat_ok d5
  case orthogonalize => exact i2.1
  case orthogonalize_le => rw [← e2, ← e4]; exact (checkOrthogonalize_ok c13).2
  case seed =>
    by_cases hn : a.seed = .none
    · rw [hn] at d3
      cases d3
      exact .inl ⟨hn, rfl⟩
    · refine .inr ?_
      have : defaultSeed a.seed = a.seed := by
        unfold defaultSeed
        split
        · exact absurd ‹_› hn
        · rfl
      rw [← this]
      exact (toCInt_ok d3).1
  case threads_pos =>
    intro hm
    show 1 ≤ n12
    unfold setThreads at ht
    obtain ⟨s, hs, ht⟩ := bind_ok.1 ht
    cases ht
    cases s with
    | true =>
      rw [← e12]
      show (1 : ℤ) ≤ (maxThreads : ℤ)
      exact_mod_cast hm
    | false =>
      simp only [Bool.false_eq_true, if_false] at e12 i12
      have hr := isReal_num (.inl ⟨n12, i12.1, rfl⟩)
      have : pyLt a.numThreads (.fin 1) = .ok (lt (.fin (n12 : ℚ)) (.fin 1)) := by
        rcases i12.1 with h1 | h1 | ⟨h1, h2⟩ | ⟨h1, h2⟩ <;> rw [h1] at hr ⊢ <;> simp_all [pyLt, PyVal.num]
      rw [this] at hs
      have h1 : ¬ (n12 : ℚ) < 1 := by simpa [lt, XR.lt] using hs
      have : (1 : ℚ) ≤ n12 := not_lt.1 h1
      exact_mod_cast this
  case threads =>
    intro z hz
    show n12 = _
    unfold setThreads at ht
    obtain ⟨s, hs, ht⟩ := bind_ok.1 ht
    have hr := isReal_num (.inl ⟨z, hz, rfl⟩)
    have : pyLt a.numThreads (.fin 1) = .ok (lt (.fin (z : ℚ)) (.fin 1)) := by
      rcases hz with h1 | h1 | ⟨h1, h2⟩ | ⟨h1, h2⟩ <;> rw [h1] at hr ⊢ <;> simp_all [pyLt, PyVal.num]
    rw [this] at hs
    cases hs
    cases ht
    have hlt : lt (.fin (z : ℚ)) (.fin 1) = decide (z < 1) := by
      unfold lt XR.lt
      exact decide_eq_decide.2 (by exact_mod_cast Iff.rfl)
    rw [hlt] at e12
    by_cases h1 : z < 1
    · simp only [h1, decide_true, if_true, PyVal.intValue] at e12
      rw [if_pos h1, e12]
    · simp only [h1, decide_false, Bool.false_eq_true, if_false] at e12
      rw [if_neg h1, ← e12, (isInt_isInteger hz).2]
  case gpuDevices =>
    have := checkInteger_ok c16
    exact ⟨_, isInteger_isInt this.1, this.2⟩
  case verbose => exact checkBool_ok.1 c17
  case plot => exact checkBool_ok.1 c18
  case gpu => exact checkBool_ok.1 c19

/-- C31, the constraints on real numbers: they hold provided no argument is `nan`.  (The full statement has
no such condition; `nan_accepted` refutes it.) -/
theorem arguments_in_range_partial {maxThreads : ℕ} {A : Operand} {parameters : PyVal} {a : Arguments}
    {r : Prepared} (h : prepare maxThreads A parameters a = .ok r)
    (hnan : r.native.atol ≠ .nan ∧ r.native.rtol ≠ .nan ∧ r.native.lanczosTol ≠ .nan ∧
      r.native.confidenceLevel ≠ .nan ∧ r.native.outlierSignificanceLevel ≠ .nan) :
    InRange r.native := by
  unfold prepare at h
  obtain ⟨threads, ht, h⟩ := bind_ok.1 h
  obtain ⟨op, hop, h⟩ := bind_ok.1 h
  obtain ⟨params, hpar, h⟩ := bind_ok.1 h
  obtain ⟨num, hnum, h⟩ := bind_ok.1 h
  obtain ⟨⟨atol, rtol⟩, hchk, h⟩ := bind_ok.1 h
  obtain ⟨nat, hnat, h⟩ := bind_ok.1 h
  cases h
  unfold checkArguments at hchk
  simp only [bind_ok] at hchk
  obtain ⟨⟨⟩, c1, ⟨⟩, -, ⟨⟩, c3, ⟨⟩, c4, ⟨⟩, c5, atol', c6, rtol', c7, conf, c8, out, c9, ⟨⟩, c10, ⟨⟩, c11,
    ⟨⟩, c12, ⟨⟩, c13, ⟨⟩, c14, ⟨⟩, c15, ⟨⟩, c16, ⟨⟩, c17, ⟨⟩, c18, ⟨⟩, c19, c20⟩ := hchk
  cases c20
  unfold toNative at hnat
  simp only [bind_ok] at hnat
  obtain ⟨n1, d1, n2, d2, n3, d3, n4, d4, n5, d5, n6, d6, n7, d7, n8, d8, n9, d9, n10, d10, n11, d11, n12,
    d12, n13, d13, d14⟩ := hnat
  cases d14
  obtain ⟨h1, h2, h3, h4, h5⟩ := hnan
  simp only at h1 h2 h3 h4 h5
  have tol : ∀ {v w : PyVal} {x : Num}, checkTolerance v = .ok w → toCFloat w = .ok x → x ≠ .nan →
      NonNegative x := by
    intro v w x hc hd hx
    rcases checkTolerance_ok hc with ⟨-, rfl⟩ | ⟨rfl, y, hy, hlt, -⟩
    · cases hd; exact le_rfl
    · unfold toCFloat at hd
      rw [hy] at hd
      cases hd
      cases x with
      | fin x => simpa [NonNegative, lt, XR.lt] using hlt
      | pinf => trivial
      | ninf => simp [lt, XR.lt] at hlt
      | nan => exact absurd rfl hx
  have unit : ∀ {x : Num}, outsideUnit x = false → x ≠ .nan → InUnit x := by
    intro x hx hn
    cases x with
    | fin x => simpa [InUnit, outsideUnit, lt, XR.lt] using hx
    | pinf => simp [outsideUnit, lt, XR.lt] at hx
    | ninf => simp [outsideUnit, lt, XR.lt] at hx
    | nan => exact absurd rfl hn
  have k1 := checkConfidence_ok c8
  have k2 := checkOutlierLevel_ok c9
  unfold toCFloat at d10 d11
  rw [show ({a with numThreads := threads} : Arguments).confidenceLevel = a.confidenceLevel from rfl] at k1
  simp only [k1.1, k2.1] at d10 d11
  cases d10
  cases d11
  constructor
  · exact tol c6 d8 h1
  · exact tol c7 d9 h2
  · show NonNegative n5
    rcases checkLanczosTol_ok c12 with hn | ⟨x, hx, hlt⟩
    · rw [show a.lanczosTol = .none from hn, show defaultTol op.dtype .none = precisionScalar op.dtype from rfl,
        toCFloat_precision] at d5
      cases d5
      show (0 : ℚ) ≤ machinePrecision op.dtype
      unfold machinePrecision
      split <;> positivity
    · have hx' : a.lanczosTol.num = some x := hx
      have : defaultTol op.dtype a.lanczosTol = a.lanczosTol := by
        unfold defaultTol
        split
        · rename_i h6
          rw [h6] at hx'
          cases hx'
        · rfl
      rw [this] at d5
      unfold toCFloat at d5
      rw [hx'] at d5
      cases d5
      cases n5 with
      | fin x => simpa [NonNegative, lt, XR.lt] using hlt
      | pinf => trivial
      | ninf => simp [lt, XR.lt] at hlt
      | nan => exact absurd rfl h3
  · exact unit k1.2 h4
  · exact unit k2.2 h5
  · intro x y hx hy
    simp only at hx hy
    subst hx hy
    rw [raiseIf_ok] at c10
    have : 1 + -x ≥ y := by simpa [oneMinus, lt, XR.lt, XR.add, XR.neg] using c10
    linarith

/-- C31, the other direction: every call written after the documentation (`Valid`) on a square matrix of a
supported type without parameters reaches the C++ code. -/
theorem valid_arguments_accepted {maxThreads : ℕ} (hm : (maxThreads : ℤ) < 2 ^ 31) {dtype : DType}
    (hd : dtype ≠ .other) {rows cols : ℕ} {a : Arguments} (hv : Valid a)
    (hsq : a.gram = .bool true ∨ rows = cols) :
    ∃ r, prepare maxThreads (.matrix dtype [rows, cols]) .none a = .ok r := by
  obtain ⟨g, hg⟩ := hv.gram
  obtain ⟨p, hp⟩ := hv.exponent
  obtain ⟨m, M, hm1, hM1, hm2, hmM, hM2⟩ := hv.samples
  obtain ⟨x, y, hx, hy, hx0, hy0, hxy⟩ := hv.levels
  obtain ⟨d, q, hd1, hq1, hd2, hd3, hq2, hq3⟩ := hv.lanczos
  obtain ⟨t, ht1, ht2, ht3⟩ := hv.threads
  obtain ⟨u, hu1, hu2⟩ := hv.gpuDevices
  obtain ⟨b1, hb1⟩ := hv.verbose
  obtain ⟨b2, hb2⟩ := hv.plot
  obtain ⟨b3, hb3⟩ := hv.gpu
  have hthr : ∃ t' : ℤ, setThreads maxThreads a.numThreads = .ok (.int t') ∧ 0 ≤ t' ∧ t' < 2 ^ 31 := by
    unfold setThreads pyLt
    rw [ht1]
    simp only [PyVal.num, Except.ok_bind']
    by_cases h1 : lt (.fin (t : ℚ)) (.fin 1) = true
    · exact ⟨maxThreads, by rw [if_pos h1], by positivity, hm⟩
    · exact ⟨t, by rw [if_neg h1], ht2, ht3⟩
  obtain ⟨t', hth, ht4, ht5⟩ := hthr
  have hop : getOperator (.matrix dtype [rows, cols]) a.gram = .ok ⟨dtype, rows, cols, 0⟩ := by
    unfold getOperator truth makeOperator
    rw [hg]
    simp only [Except.ok_bind']
    rw [if_neg, if_neg hd]
    rcases hsq with h | h
    · rw [hg] at h; cases h; simp
    · simp [h]
  have htol : ∀ {v : PyVal}, (v = .none ∨ ∃ x : ℚ, v = .float (.fin x) ∧ 0 ≤ x) →
      ∃ w : ℚ, checkTolerance v = .ok (.float (.fin w)) := by
    rintro v (rfl | ⟨x, rfl, hx⟩)
    · exact ⟨0, rfl⟩
    · refine ⟨x, ?_⟩
      simp [checkTolerance, PyVal.isscalar, PyVal.isIntOrFloat, pyLt, PyVal.num, lt, XR.lt,
        Except.ok_bind', not_lt.2 hx]
  obtain ⟨atol, hat⟩ := htol hv.atol
  obtain ⟨rtol, hrt⟩ := htol hv.rtol
  have hltol : checkLanczosTol a.lanczosTol = .ok () := by
    rcases hv.lanczosTol with h | ⟨x, h, hx⟩ <;> rw [h]
    · rfl
    · simp [checkLanczosTol, PyVal.isscalar, PyVal.isIntegerOrFloat, pyLt, PyVal.num, lt, XR.lt,
        Except.ok_bind', not_lt.2 hx]
  have hltol' : ∃ w, toCFloat (defaultTol dtype a.lanczosTol) = .ok w := by
    rcases hv.lanczosTol with h | ⟨x, h, hx⟩ <;> rw [h]
    · exact ⟨_, toCFloat_precision dtype⟩
    · exact ⟨_, rfl⟩
  obtain ⟨w, hw⟩ := hltol'
  have hseed : checkSeed a.seed = .ok () := by
    rcases hv.seed with h | ⟨s, h, -⟩ <;> rw [h] <;> rfl
  have hseed' : ∃ s, toCInt 64 (defaultSeed a.seed) = .ok s := by
    rcases hv.seed with h | ⟨s, h, h1, h2⟩ <;> rw [h]
    · exact ⟨-1, by unfold defaultSeed toCInt; simp [PyVal.isInteger, PyVal.intValue]⟩
    · refine ⟨s, ?_⟩
      unfold defaultSeed toCInt
      simp only [PyVal.isInteger, PyVal.intValue, if_true]
      exact if_pos ⟨by simpa using h1, by simpa using h2⟩
  obtain ⟨s, hs⟩ := hseed'
  have hcheck : checkArguments { a with numThreads := .int t' } =
      .ok (.float (.fin atol), .float (.fin rtol)) := by
    unfold checkArguments
    simp only [hg, hp, hm1, hM1, hat, hrt, hx, hy, hd1, hq1, hltol, hseed, hu1, hb1, hb2, hb3]
    have c8 : checkConfidence (.float (.fin x)) = .ok (.fin x) := by
      have : ¬ (x < 0 ∨ 1 < x) := by rintro (h | h) <;> linarith
      simp [checkConfidence, PyVal.isscalar, PyVal.isIntOrFloat, PyVal.num, outsideUnit, lt, XR.lt,
        not_lt.2 hx0, show ¬ 1 < x by linarith]
    have c9 : checkOutlierLevel (.float (.fin y)) = .ok (.fin y) := by
      simp [checkOutlierLevel, PyVal.isscalar, PyVal.isIntegerOrFloat, PyVal.num, outsideUnit, lt, XR.lt,
        not_lt.2 hy0, show ¬ 1 < y by linarith]
    have c10 : lt (oneMinus (.fin x)) (.fin y) = false := by
      simp [oneMinus, lt, XR.lt, XR.add, XR.neg]; linarith
    have hint : ∀ (e : PyExc) (b z : ℤ), b ≤ z → checkInteger e b (.int z) = .ok () := by
      intro e b z hz
      simp [checkInteger, PyVal.isscalar, PyVal.isInteger, PyVal.intValue, not_lt.2 hz]
    have c13 : checkOrthogonalize (.int q) (.int d) = .ok () := by
      simp [checkOrthogonalize, PyVal.isscalar, PyVal.isInteger, PyVal.intValue, not_lt.2 hq3]
    have hbool : ∀ b, checkBool (.bool b) = .ok () := fun b => checkBool_ok.2 ⟨b, rfl⟩
    have c5 : decide (PyVal.intValue (.int M) < PyVal.intValue (.int m)) = false := by
      simp only [PyVal.intValue]
      exact decide_eq_false (not_lt.2 hmM)
    rw [hbool, hint _ _ _ hm2, hint _ _ _ (hm2.trans hmM), c8, c9, hint _ _ _ hd2, c13, hint _ _ _ ht4,
      hint _ _ _ hu2, hbool, hbool, hbool]
    simp only [Except.ok_bind', c5, c10, raiseIf, checkExponent, PyVal.isscalar]
    rfl
  have hc32 : ∀ z : ℤ, -2 ^ 31 ≤ z → z < 2 ^ 31 → toCInt 32 (.int z) = .ok z := by
    intro z h1 h2
    unfold toCInt
    simp only [PyVal.isInteger, PyVal.intValue, if_true]
    exact if_pos ⟨by simpa using h1, by simpa using h2⟩
  have hfl : ∀ x : Num, toCFloat (.float x) = .ok x := fun _ => rfl
  refine ⟨⟨⟨dtype, rows, cols, 0⟩, .none, ⟨g, .fin p, q, s, d, w, m, M, .fin atol, .fin rtol, .fin x, .fin y,
    t', [], 1⟩, false⟩, ?_⟩
  unfold prepare
  rw [hth, Except.ok_bind', hop, Except.ok_bind']
  simp only [getOperatorParameters, Except.ok_bind', findNumInquiries, if_true, hcheck]
  unfold toNative
  simp only [hp, hq1, hs, hd1, hw, hm1, hM1, hx, hy, hfl, Except.ok_bind', hg, toCParameters]
  rw [hc32 q hq2 (by omega), hc32 d (by omega) hd3, hc32 m (by omega) (by omega), hc32 M (by omega) hM2,
    hc32 t' (by omega) ht5]
  simp only [Except.ok_bind', outputIsArray]
  cases g <;> simp [PyVal.intValue]

/-- The arguments of the documentation's defaults. -/
def defaults : Arguments where
  gram := .bool false
  exponent := .float (.fin 1)
  minNumSamples := .int 10
  maxNumSamples := .int 50
  errorAtol := .none
  errorRtol := .float (.fin (1 / 100))
  confidenceLevel := .float (.fin (95 / 100))
  outlierSignificanceLevel := .float (.fin (1 / 1000))
  lanczosDegree := .int 20
  lanczosTol := .none
  orthogonalize := .int 0
  seed := .none
  numThreads := .int 0
  numGpuDevices := .int 0
  verbose := .bool false
  plot := .bool false
  gpu := .bool false

/-- The default arguments are valid. -/
theorem defaults_valid : Valid defaults where
  gram := ⟨_, rfl⟩
  exponent := ⟨_, rfl⟩
  samples := ⟨10, 50, rfl, rfl, by norm_num, by norm_num, by norm_num⟩
  atol := .inl rfl
  rtol := .inr ⟨_, rfl, by norm_num⟩
  levels := ⟨_, _, rfl, rfl, by norm_num, by norm_num, by norm_num⟩
  lanczos := ⟨20, 0, rfl, rfl, by norm_num, by norm_num, by norm_num, by norm_num⟩
  lanczosTol := .inl rfl
  seed := .inl rfl
  threads := ⟨0, rfl, by norm_num, by norm_num⟩
  gpuDevices := ⟨0, rfl, by norm_num⟩
  verbose := ⟨_, rfl⟩
  plot := ⟨_, rfl⟩
  gpu := ⟨_, rfl⟩

example : ∃ r, prepare 8 (.matrix .float64 [3, 3]) .none defaults = .ok r :=
  valid_arguments_accepted (by norm_num) (by decide) defaults_valid (.inr rfl)

/-- C31: a call that does not reach the C++ code raises `TypeError` or `ValueError`, or `OverflowError` for an
integer beyond the C types, or what `numpy` raises when it converts the list given as `parameters`. -/
theorem rejected_arguments_raise {maxThreads : ℕ} {A : Operand} {parameters : PyVal} {a : Arguments}
    {e : PyExc} (h : prepare maxThreads A parameters a = .error e) :
    e = .typeError ∨ e = .valueError ∨ e = .overflowError ∨ parameters = .list (.error e) := by
  have kbool : ∀ v, checkBool v = .error e → e = .typeError := by
    intro v h
    unfold checkBool at h
    split at h
    · cases h; rfl
    · split_ifs at h <;> cases h <;> rfl
  have kint : ∀ x b v, checkInteger x b v = .error e → e = .typeError ∨ e = .valueError ∨ e = x := by
    intro x b v h
    unfold checkInteger at h
    split at h
    · cases h; exact .inr (.inr rfl)
    · split_ifs at h <;> cases h <;> simp
  have klt : ∀ v c, pyLt v c = .error e → e = .typeError ∨ e = .valueError := by
    intro v c h
    unfold pyLt at h
    repeat' split at h
    all_goals first | (cases h; simp; done) | cases h
  have ktol : ∀ v, checkTolerance v = .error e → e = .typeError ∨ e = .valueError := by
    intro v h
    unfold checkTolerance at h
    split at h
    · cases h
    · split_ifs at h
      · cases h; simp
      · cases h; simp
      · rcases bind_error.1 h with h | ⟨b, -, h⟩
        · exact klt _ _ h
        · split_ifs at h; cases h; simp
  have kconf : ∀ v, checkConfidence v = .error e → e = .typeError ∨ e = .valueError := by
    intro v h
    unfold checkConfidence at h
    repeat' split at h
    all_goals first | (cases h; simp; done) | cases h
  have kout : ∀ v, checkOutlierLevel v = .error e → e = .typeError ∨ e = .valueError := by
    intro v h
    unfold checkOutlierLevel at h
    repeat' split at h
    all_goals first | (cases h; simp; done) | cases h
  have kltol : ∀ v, checkLanczosTol v = .error e → e = .typeError ∨ e = .valueError := by
    intro v h
    unfold checkLanczosTol at h
    split at h
    · cases h
    · split_ifs at h
      · cases h; simp
      · cases h; simp
      · rcases bind_error.1 h with h | ⟨b, -, h⟩
        · exact klt _ _ h
        · split_ifs at h; cases h; simp
  have korth : ∀ v d, checkOrthogonalize v d = .error e → e = .typeError ∨ e = .valueError := by
    intro v d h
    unfold checkOrthogonalize at h
    split at h
    · cases h; simp
    · split_ifs at h <;> cases h <;> simp
  have kseed : ∀ v, checkSeed v = .error e → e = .typeError ∨ e = .valueError := by
    intro v h
    unfold checkSeed at h
    split at h
    · cases h
    · split_ifs at h <;> cases h <;> simp
  have kraise : ∀ c, raiseIf c .valueError = .error e → e = .valueError := by
    intro c h
    unfold raiseIf at h
    split_ifs at h
    cases h; rfl
  have kcint : ∀ n v, toCInt n v = .error e → e = .typeError ∨ e = .valueError ∨ e = .overflowError := by
    intro n v h
    unfold toCInt at h
    split_ifs at h <;> cases h <;> simp
  have kcf : ∀ v, toCFloat v = .error e → e = .typeError ∨ e = .valueError ∨ e = .overflowError := by
    intro v h
    unfold toCFloat at h
    split at h <;> cases h
    simp
  have ktruth : ∀ v, truth v = .error e → e = .valueError := by
    intro v h
    unfold truth at h
    repeat' split at h
    all_goals first | (cases h; rfl; done) | cases h
  unfold prepare at h
  rcases bind_error.1 h with h | ⟨threads, -, h⟩
  · unfold setThreads at h
    rcases bind_error.1 h with h | ⟨b, -, h⟩
    · have := klt _ _ h; tauto
    · cases h
  rcases bind_error.1 h with h | ⟨op, -, h⟩
  · have kmk : ∀ d r c k, makeOperator d r c k = .error e → e = .typeError := by
      intro d r c k h
      unfold makeOperator at h
      split_ifs at h
      cases h; rfl
    unfold getOperator at h
    split at h
    · split at h
      · rcases bind_error.1 h with h | ⟨b, -, h⟩
        · have := ktruth _ h; tauto
        · split_ifs at h
          · cases h; simp
          · have := kmk _ _ _ _ h; tauto
      · cases h; simp
    · rcases bind_error.1 h with h | ⟨b, -, h⟩
      · have := ktruth _ h; tauto
      · split_ifs at h
        · cases h; simp
        · have := kmk _ _ _ _ h; tauto
    · cases h; simp
  rcases bind_error.1 h with h | ⟨params, -, h⟩
  · unfold getOperatorParameters at h
    split at h
    · cases h
    · split_ifs at h
      split at h
      · rcases bind_error.1 h with h | ⟨⟨k, es⟩, -, h⟩
        · exact .inr (.inr (.inr (by rw [h])))
        · simp only at h
          split_ifs at h
          cases h; simp
      · split_ifs at h
        cases h; simp
      · cases h; simp
  rcases bind_error.1 h with h | ⟨num, -, h⟩
  · unfold findNumInquiries at h
    split_ifs at h <;> cases h <;> simp
  rcases bind_error.1 h with h | ⟨⟨atol, rtol⟩, -, h⟩
  · unfold checkArguments at h
    simp only [bind_error] at h
    rcases h with h | ⟨-, -, h⟩
    · have := kbool _ h; tauto
    rcases h with h | ⟨-, -, h⟩
    · unfold checkExponent at h
      split at h
      · cases h; simp
      · split_ifs at h; cases h; simp
    rcases h with h | ⟨-, -, h⟩
    · have := kint _ _ _ h; tauto
    rcases h with h | ⟨-, -, h⟩
    · have := kint _ _ _ h; tauto
    rcases h with h | ⟨-, -, h⟩
    · have := kraise _ h; tauto
    rcases h with h | ⟨_, -, h⟩
    · have := ktol _ h; tauto
    rcases h with h | ⟨_, -, h⟩
    · have := ktol _ h; tauto
    rcases h with h | ⟨_, -, h⟩
    · have := kconf _ h; tauto
    rcases h with h | ⟨_, -, h⟩
    · have := kout _ h; tauto
    rcases h with h | ⟨-, -, h⟩
    · have := kraise _ h; tauto
    rcases h with h | ⟨-, -, h⟩
    · have := kint _ _ _ h; tauto
    rcases h with h | ⟨-, -, h⟩
    · have := kltol _ h; tauto
    rcases h with h | ⟨-, -, h⟩
    · have := korth _ _ h; tauto
    rcases h with h | ⟨-, -, h⟩
    · have := kseed _ h; tauto
    rcases h with h | ⟨-, -, h⟩
    · have := kint _ _ _ h; tauto
    rcases h with h | ⟨-, -, h⟩
    · have := kint _ _ _ h; tauto
    rcases h with h | ⟨-, -, h⟩
    · have := kbool _ h; tauto
    rcases h with h | ⟨-, -, h⟩
    · have := kbool _ h; tauto
    rcases h with h | ⟨-, -, h⟩
    · have := kbool _ h; tauto
    cases h
  rcases bind_error.1 h with h | ⟨nat, -, h⟩
  · unfold toNative at h
    simp only [bind_error] at h
    rcases h with h | ⟨_, -, h⟩
    · have := kcf _ h; tauto
    rcases h with h | ⟨_, -, h⟩
    · have := kcint _ _ h; tauto
    rcases h with h | ⟨_, -, h⟩
    · have := kcint _ _ h; tauto
    rcases h with h | ⟨_, -, h⟩
    · have := kcint _ _ h; tauto
    rcases h with h | ⟨_, -, h⟩
    · have := kcf _ h; tauto
    rcases h with h | ⟨_, -, h⟩
    · have := kcint _ _ h; tauto
    rcases h with h | ⟨_, -, h⟩
    · have := kcint _ _ h; tauto
    rcases h with h | ⟨_, -, h⟩
    · have := kcf _ h; tauto
    rcases h with h | ⟨_, -, h⟩
    · have := kcf _ h; tauto
    rcases h with h | ⟨_, -, h⟩
    · have := kcf _ h; tauto
    rcases h with h | ⟨_, -, h⟩
    · have := kcf _ h; tauto
    rcases h with h | ⟨_, -, h⟩
    · have := kcint _ _ h; tauto
    rcases h with h | ⟨_, -, h⟩
    · unfold toCParameters at h
      split at h
      · cases h
      · rcases bind_error.1 h with h | ⟨_, -, h⟩
        · have := kcf _ h; tauto
        · cases h
      · split_ifs at h; cases h; simp
    cases h
  cases h

/-! ## Violations of C31 -/

/-- A result satisfies a test. -/
def okAnd {α : Type} (x : Except PyExc α) (f : α → Bool) : Bool :=
  match x with
  | .ok r => f r
  | .error _ => false

theorem okAnd_iff {α : Type} {x : Except PyExc α} {f : α → Bool} (h : okAnd x f = true) :
    ∃ r, x = .ok r ∧ f r = true := by
  cases x with
  | ok r => exact ⟨r, rfl, h⟩
  | error e => cases h

/-- Whether a number is `nan`. -/
def isNan : Num → Bool
  | .nan => true
  | _ => false

theorem isNan_iff {x : Num} (h : isNan x = true) : x = .nan := by
  cases x <;> first | rfl | cases h

/-- `nan` passes as confidence level, tolerance and significance level. -/
theorem nan_accepted :
    ∃ r, prepare 8 (.matrix .float64 [3, 3]) .none
        { defaults with confidenceLevel := .float .nan, errorAtol := .float .nan,
                        outlierSignificanceLevel := .float .nan } = .ok r ∧
      r.native.confidenceLevel = .nan ∧ r.native.atol = .nan ∧
      r.native.outlierSignificanceLevel = .nan ∧ ¬ InRange r.native := by
  obtain ⟨r, hr, h⟩ := okAnd_iff (x := prepare 8 (.matrix .float64 [3, 3]) .none
        { defaults with confidenceLevel := .float .nan, errorAtol := .float .nan,
                        outlierSignificanceLevel := .float .nan })
      (f := fun r => isNan r.native.confidenceLevel && isNan r.native.atol &&
        isNan r.native.outlierSignificanceLevel) (by decide +kernel)
  simp only [Bool.and_eq_true] at h
  have h2 := isNan_iff h.1.2
  refine ⟨r, hr, isNan_iff h.1.1, h2, isNan_iff h.2, fun hr => ?_⟩
  have := hr.atol
  rw [h2] at this
  exact this

/-- The check that `num_threads` is a non-negative integer cannot fail for a number below one, of whatever
type: such a value has already been replaced by the number of threads of the machine.  `-3`, `0.5` and an
array holding `0` are accepted. -/
theorem small_num_threads_accepted {maxThreads : ℕ} (A : Operand) (parameters : PyVal) (a : Arguments)
    {v : PyVal} (hv : pyLt v (.fin 1) = .ok true) :
    prepare maxThreads A parameters { a with numThreads := v } =
      prepare maxThreads A parameters { a with numThreads := .int maxThreads } := by
  have h1 : setThreads maxThreads v = .ok (.int maxThreads) := by
    unfold setThreads
    rw [hv]
    rfl
  have h2 : setThreads maxThreads (.int maxThreads) = .ok (.int maxThreads) := by
    unfold setThreads pyLt
    simp only [PyVal.num, Except.ok_bind']
    split_ifs <;> rfl
  unfold prepare
  simp only [h1, h2]

example : pyLt (.int (-3)) (.fin 1) = .ok true := by
  simp [pyLt, PyVal.num, lt, XR.lt]; norm_num
example : pyLt (.float (.fin (1 / 2))) (.fin 1) = .ok true := by
  simp [pyLt, PyVal.num, lt, XR.lt]; norm_num
example : pyLt (.array .float64 1 [.fin 0]) (.fin 1) = .ok true := by simp [pyLt, lt, XR.lt]

/-- The documentation promises full reorthogonalisation for `orthogonalize` larger than `lanczos_degree`;
such a call never reaches the C++ code. -/
theorem orthogonalize_above_degree_raises {maxThreads : ℕ} (A : Operand) (parameters : PyVal)
    (a : Arguments) {q d : ℤ} (hq : IsInt a.orthogonalize q) (hd : IsInt a.lanczosDegree d) (h : d < q)
    (r : Prepared) : prepare maxThreads A parameters a ≠ .ok r := by
  intro hr
  have acc := arguments_accepted hr
  have h1 := acc.orthogonalize_le
  rw [← (isInt_isInteger acc.orthogonalize).2, ← (isInt_isInteger acc.lanczosDegree).2,
    (isInt_isInteger hq).2, (isInt_isInteger hd).2] at h1
  omega

/-- The documentation gives the parameters as a tuple; a tuple raises. -/
theorem tuple_parameters_raise {maxThreads : ℕ} (A : Operand) (n : ℕ) (a : Arguments) (r : Prepared) :
    prepare maxThreads A (.tuple n) a ≠ .ok r := by
  intro h
  unfold prepare at h
  obtain ⟨threads, ht, h⟩ := bind_ok.1 h
  obtain ⟨op, hop, h⟩ := bind_ok.1 h
  obtain ⟨params, hpar, h⟩ := bind_ok.1 h
  cases hpar

/-! ## C32 -/

/-- The number of entries the caller gave as `parameters`. -/
def givenSize : PyVal → ℕ
  | .array _ _ entries => entries.length
  | .list (.ok (_, entries)) => entries.length
  | .none => 0
  | _ => 1

/-- C32: an operator without parameters has one inquiry; otherwise the number of inquiries times the number of
parameters of the operator is the number of parameters given. -/
theorem num_inquiries_correct {maxThreads : ℕ} {A : Operand} {parameters : PyVal} {a : Arguments}
    {r : Prepared} (h : prepare maxThreads A parameters a = .ok r) :
    1 ≤ r.native.numInquiries ∧
    (r.op.numParameters = 0 → r.native.numInquiries = 1) ∧
    (r.op.numParameters ≠ 0 → r.native.numInquiries * r.op.numParameters = givenSize parameters ∧
      r.native.parameters.length = givenSize parameters) := by
  unfold prepare at h
  obtain ⟨threads, ht, h⟩ := bind_ok.1 h
  obtain ⟨op, hop, h⟩ := bind_ok.1 h
  obtain ⟨params, hpar, h⟩ := bind_ok.1 h
  obtain ⟨num, hnum, h⟩ := bind_ok.1 h
  obtain ⟨⟨atol, rtol⟩, hchk, h⟩ := bind_ok.1 h
  obtain ⟨nat, hnat, h⟩ := bind_ok.1 h
  cases h
  unfold toNative at hnat
  simp only [bind_ok] at hnat
  obtain ⟨n1, d1, n2, d2, n3, d3, n4, d4, n5, d5, n6, d6, n7, d7, n8, d8, n9, d9, n10, d10, n11, d11, n12,
    d12, n13, d13, d14⟩ := hnat
  cases d14
  have hsize : params.size = givenSize parameters := by
    unfold getOperatorParameters at hpar
    split at hpar
    · cases hpar; rfl
    · split_ifs at hpar with h1
      · cases hpar
        cases parameters <;> simp_all [PyVal.isscalar, givenSize, Parameters.size]
      · split at hpar
        · obtain ⟨⟨k, es⟩, hc, hpar'⟩ := bind_ok.1 hpar
          subst hc
          simp only at hpar'
          split_ifs at hpar'
          cases hpar'; rfl
        · split_ifs at hpar
          cases hpar; rfl
        · cases hpar
  have hlen : n13.length = params.size := by
    unfold toCParameters at d13
    split at d13
    · cases d13; rfl
    · obtain ⟨x, -, d13⟩ := bind_ok.1 d13
      cases d13; rfl
    · split_ifs at d13
      cases d13; rfl
  unfold findNumInquiries at hnum
  split_ifs at hnum with h0 h1 h2 <;> cases hnum
  · exact ⟨le_rfl, fun _ => rfl, fun h => absurd h0 h⟩
  · have hk : 0 < op.numParameters := Nat.pos_of_ne_zero h0
    refine ⟨?_, fun h => absurd h h0, fun _ => ⟨?_, hlen.trans hsize⟩⟩
    · exact Nat.div_pos (not_lt.1 h1) hk
    · rw [← hsize]
      exact Nat.div_mul_cancel (Nat.dvd_of_mod_eq_zero (not_not.1 h2))

example : ∃ r, prepare 8 (.operator .float64 3 3 2) (.array .float64 1 [.fin 1, .fin 2, .fin 3, .fin 4]) defaults
    = .ok r ∧ r.native.numInquiries = 2 ∧ r.isArray = true := by
  obtain ⟨r, hr, h⟩ := okAnd_iff (x := prepare 8 (.operator .float64 3 3 2)
    (.array .float64 1 [.fin 1, .fin 2, .fin 3, .fin 4]) defaults)
    (f := fun r => r.native.numInquiries == 2 && r.isArray) (by decide +kernel)
  simp only [Bool.and_eq_true, beq_iff_eq] at h
  exact ⟨r, hr, h.1, h.2⟩

/-- C32: a number of parameters that is not a multiple of the number the operator has raises, as does a too
small number. -/
theorem bad_parameter_count_raises {maxThreads : ℕ} (dtype : DType) (rows cols k : ℕ) (parameters : PyVal)
    (a : Arguments) (hk : k ≠ 0) (hbad : ¬ k ∣ givenSize parameters ∨ givenSize parameters < k)
    (r : Prepared) : prepare maxThreads (.operator dtype rows cols k) parameters a ≠ .ok r := by
  intro h
  have hop : r.op.numParameters = k := by
    unfold prepare at h
    obtain ⟨threads, ht, h⟩ := bind_ok.1 h
    obtain ⟨op, hop, h⟩ := bind_ok.1 h
    obtain ⟨params, hpar, h⟩ := bind_ok.1 h
    obtain ⟨num, hnum, h⟩ := bind_ok.1 h
    obtain ⟨⟨atol, rtol⟩, hchk, h⟩ := bind_ok.1 h
    obtain ⟨nat, hnat, h⟩ := bind_ok.1 h
    cases h
    unfold getOperator at hop
    obtain ⟨b, -, hop⟩ := bind_ok.1 hop
    split_ifs at hop
    unfold makeOperator at hop
    split_ifs at hop
    cases hop; rfl
  obtain ⟨h1, -, h2⟩ := num_inquiries_correct h
  rw [hop] at h2
  have h3 := (h2 hk).1
  rcases hbad with hb | hb
  · exact hb ⟨_, by rw [← h3, Nat.mul_comm]⟩
  · have := Nat.mul_le_mul_right k h1
    omega

/-- C32: the shape of the result (`verbose=False`): a number if `parameters` is `None` or a scalar, otherwise
an array with one entry per inquiry. -/
theorem result_shape {V : Type} {maxThreads : ℕ} {run : Operator → Native → Except PyExc (List V)}
    {A : Operand} {parameters : PyVal} {a : Arguments}
    (hrun : ∀ op nat t, run op nat = .ok t → t.length = nat.numInquiries) {out : Output V}
    (h : traceEstimator maxThreads run A parameters a = .ok out) :
    ∃ r t, prepare maxThreads A parameters a = .ok r ∧ run r.op r.native = .ok t ∧
      ((parameters = .none ∨ parameters.isscalar = true) → ∃ x, out = .scalar x ∧ t.head? = some x) ∧
      (¬ (parameters = .none ∨ parameters.isscalar = true) →
        out = .array t ∧ t.length = r.native.numInquiries) := by
  unfold traceEstimator at h
  obtain ⟨r, hr, h⟩ := bind_ok.1 h
  obtain ⟨t, ht, h⟩ := bind_ok.1 h
  obtain ⟨v, -, h⟩ := bind_ok.1 h
  obtain ⟨⟨⟩, -, h⟩ := bind_ok.1 h
  refine ⟨r, t, hr, ht, ?_⟩
  have hlen := hrun _ _ _ ht
  have hpos := (num_inquiries_correct hr).1
  have harr : (r.isArray = true) ↔ ¬ (parameters = .none ∨ parameters.isscalar = true) := by
    unfold prepare at hr
    obtain ⟨threads, ht, hr⟩ := bind_ok.1 hr
    obtain ⟨op, hop, hr⟩ := bind_ok.1 hr
    obtain ⟨params, hpar, hr⟩ := bind_ok.1 hr
    obtain ⟨num, hnum, hr⟩ := bind_ok.1 hr
    obtain ⟨⟨atol, rtol⟩, hchk, hr⟩ := bind_ok.1 hr
    obtain ⟨nat, hnat, hr⟩ := bind_ok.1 hr
    cases hr
    show outputIsArray params = true ↔ _
    unfold getOperatorParameters at hpar
    split at hpar
    · cases hpar; exact ⟨fun h => (nomatch h), fun h => absurd (.inl rfl) h⟩
    · rename_i hne
      split_ifs at hpar with h1
      · cases hpar; exact ⟨fun h => (nomatch h), fun h => absurd (.inr h1) h⟩
      · have : ¬ (parameters = .none ∨ parameters.isscalar = true) := by
          rintro (h2 | h2)
          · exact hne h2
          · exact h1 h2
        split at hpar
        · obtain ⟨⟨k, es⟩, hc, hpar'⟩ := bind_ok.1 hpar
          subst hc
          simp only at hpar'
          split_ifs at hpar'
          cases hpar'
          exact ⟨fun _ => this, fun _ => rfl⟩
        · split_ifs at hpar
          cases hpar
          exact ⟨fun _ => this, fun _ => rfl⟩
        · cases hpar
  unfold wrapOutput at h
  constructor
  · intro hs
    have : r.isArray = false := Bool.eq_false_iff.2 fun h => harr.1 h hs
    rw [this] at h
    simp only [Bool.false_eq_true, if_false] at h
    cases t with
    | nil => cases h
    | cons x xs => cases h; exact ⟨x, rfl, rfl⟩
  · intro hs
    have : r.isArray = true := harr.2 hs
    rw [this] at h
    cases h
    exact ⟨rfl, hlen⟩

/-- C32 fails with `verbose=True`: for an operator with parameters and a scalar parameter, the call raises
after the whole computation, whatever it computed. -/
theorem verbose_scalar_parameter_raises {V : Type} {maxThreads : ℕ}
    {run : Operator → Native → Except PyExc (List V)} {dtype : DType} {rows cols k : ℕ} (hk : k ≠ 0)
    {parameters : PyVal} (hs : parameters.isscalar = true) {a : Arguments} (hv : a.verbose = .bool true)
    (out : Output V) :
    traceEstimator maxThreads run (.operator dtype rows cols k) parameters a ≠ .ok out := by
  intro h
  unfold traceEstimator at h
  obtain ⟨r, hr, h⟩ := bind_ok.1 h
  obtain ⟨t, ht, h⟩ := bind_ok.1 h
  obtain ⟨v, hv', h⟩ := bind_ok.1 h
  rw [hv] at hv'
  cases hv'
  obtain ⟨⟨⟩, hp, h⟩ := bind_ok.1 h
  unfold prepare at hr
  obtain ⟨threads, -, hr⟩ := bind_ok.1 hr
  obtain ⟨op, hop, hr⟩ := bind_ok.1 hr
  obtain ⟨params, hpar, hr⟩ := bind_ok.1 hr
  obtain ⟨num, hnum, hr⟩ := bind_ok.1 hr
  obtain ⟨⟨atol, rtol⟩, hchk, hr⟩ := bind_ok.1 hr
  obtain ⟨nat, hnat, hr⟩ := bind_ok.1 hr
  cases hr
  have hk' : op.numParameters = k := by
    unfold getOperator at hop
    obtain ⟨b, -, hop⟩ := bind_ok.1 hop
    split_ifs at hop
    unfold makeOperator at hop
    split_ifs at hop
    cases hop; rfl
  have hpar' : params = .scalar parameters := by
    unfold getOperatorParameters at hpar
    split at hpar
    · simp [PyVal.isscalar] at hs
    · rw [if_pos hs] at hpar
      cases hpar; rfl
  replace hp : printParameters op.numParameters params = .ok () := hp
  unfold printParameters at hp
  rw [hk', if_neg hk, hpar'] at hp
  cases hp

/-- … and the call is otherwise valid: the arguments are accepted. -/
example : ∃ r, prepare 8 (.operator .float64 3 3 1) (.float (.fin 2)) { defaults with verbose := .bool true }
    = .ok r := by
  obtain ⟨r, hr, -⟩ := okAnd_iff (x := prepare 8 (.operator .float64 3 3 1) (.float (.fin 2))
    { defaults with verbose := .bool true }) (f := fun _ => true) (by decide +kernel)
  exact ⟨r, hr⟩

end Imate.Props
