import Verif.Model.InfoSettings
import Verif.Lemmas.Args
import Verif.Props.Args
import Verif.Props.DirectArgs
import Verif.Props.TimeStamp
import Verif.Props.Cholesky

/-!
# C93: `info` tells the settings of the run

The settings in `info` are the numbers the computation used, and a call that takes its arguments from `info` is the same
call.
-/

namespace Imate.Props
open Imate.Args Imate.DirectArgs Imate.InfoSettings Imate.Random Imate.Spec

/-! ### SLQ -/

/-- The model of a call with `return_info=True` returns the trace of the model of the call without it. -/
theorem slq_call_trace {V : Type} (maxThreads : ℕ) (run : Operator → Native → Except PyExc (List V)) (A : Operand)
    (parameters : PyVal) (a : Arguments) :
    (slqCall maxThreads run A parameters a).map Prod.fst = traceEstimator maxThreads run A parameters a := by
  have key : (do
      let s ← settle maxThreads A parameters a
      let native ← toNative s.op s.params s.numInquiries s.args s.args.errorAtol s.args.errorRtol
      Except.ok (⟨s.op, s.params, native, outputIsArray s.params⟩ : Prepared)) = prepare maxThreads A parameters a := by
    unfold settle prepare
    cases setThreads maxThreads a.numThreads with
    | error e => rfl
    | ok t =>
      cases getOperator A a.gram with
      | error e => rfl
      | ok op =>
        simp only [Except.ok_bind']
        cases getOperatorParameters parameters op.dtype with
        | error e => rfl
        | ok ps =>
          simp only [Except.ok_bind']
          cases findNumInquiries op.numParameters ps.size with
          | error e => rfl
          | ok n =>
            simp only [Except.ok_bind']
            cases checkArguments { a with numThreads := t } with
            | error e => rfl
            | ok w => rfl
  unfold slqCall traceEstimator
  rw [← key]
  cases settle maxThreads A parameters a with
  | error e => rfl
  | ok s =>
    simp only [Except.ok_bind']
    cases toNative s.op s.params s.numInquiries s.args s.args.errorAtol s.args.errorRtol with
    | error e => rfl
    | ok native =>
      simp only [Except.ok_bind']
      cases run s.op native with
      | error e => rfl
      | ok tr =>
        simp only [Except.ok_bind']
        cases truth a.verbose with
        | error e => rfl
        | ok v =>
          simp only [Except.ok_bind']
          cases report v ⟨s.op, s.params, native, outputIsArray s.params⟩ with
          | error e => rfl
          | ok u =>
            simp only [Except.ok_bind']
            cases wrapOutput (outputIsArray s.params) tr <;> rfl

/-- C93: what `info` tells are the numbers that the C++ code was given to compute the result. -/
theorem settings_used {V : Type} {maxThreads : ℕ} {run : Operator → Native → Except PyExc (List V)} {A : Operand}
    {parameters : PyVal} {a : Arguments} {out : Output V} {i : SlqInfo}
    (h : slqCall maxThreads run A parameters a = .ok (out, i)) :
    ∃ op native trace, run op native = .ok trace ∧
      (out = .array trace ∨ ∃ x, trace.head? = some x ∧ out = .scalar x) ∧
      i.dataType = op.dtype ∧ i.size = (op.rows, op.cols) ∧ i.numOperatorParameters = op.numParameters ∧
      i.numInquiries = native.numInquiries ∧ i.gram = .bool native.gram ∧ IsReal i.exponent native.exponent ∧
      IsInt i.minNumSamples native.minNumSamples ∧ IsInt i.maxNumSamples native.maxNumSamples ∧
      IsReal i.errorAtol native.atol ∧ IsReal i.errorRtol native.rtol ∧
      IsReal i.confidenceLevel native.confidenceLevel ∧
      IsReal i.outlierSignificanceLevel native.outlierSignificanceLevel ∧
      IsInt i.lanczosDegree native.lanczosDegree ∧ IsReal i.lanczosTol native.lanczosTol ∧
      IsInt i.orthogonalize native.orthogonalize ∧ IsInt i.seed native.seed ∧
      IsInt i.numCpuThreads native.numThreads := by
  simp only [slqCall, settle, bind_ok, Except.ok.injEq, Prod.mk.injEq] at h
  obtain ⟨s, ⟨t, ht, op, hop, ps, hps, n, hn, w, hw, rfl⟩, native, hnat, tr, hrun, v, hv, u, hu, o, ho, rfl, rfl⟩ := h
  have hg : ∃ b, a.gram = .bool b := by
    simp only [checkArguments, bind_ok] at hw
    obtain ⟨_, hg, _⟩ := hw
    exact checkBool_ok.1 hg
  obtain ⟨b, hb⟩ := hg
  simp only [toNative, bind_ok, Except.ok.injEq] at hnat
  obtain ⟨x1, h1, x2, h2, x3, h3, x4, h4, x5, h5, x6, h6, x7, h7, x8, h8, x9, h9, x10, h10, x11, h11, x12, h12, x13,
    h13, rfl⟩ := hnat
  have hout : o = .array tr ∨ ∃ x, tr.head? = some x ∧ o = .scalar x := by
    unfold wrapOutput at ho
    split_ifs at ho
    · cases ho; exact .inl rfl
    · split at ho
      · cases ho; exact .inr ⟨_, rfl, rfl⟩
      · cases ho
  refine ⟨op, _, tr, hrun, hout, rfl, rfl, rfl, rfl, ?_, toCFloat_ok h1, (toCInt_ok h6).1, (toCInt_ok h7).1, toCFloat_ok h8,
    toCFloat_ok h9, toCFloat_ok h10, toCFloat_ok h11, (toCInt_ok h4).1, toCFloat_ok h5, (toCInt_ok h2).1,
    (toCInt_ok h3).1, (toCInt_ok h12).1⟩
  simp only [slqInfo, hb]
  cases b <;> simp [PyVal.intValue]

/-- Threads set once stay. -/
theorem setThreads_idem {m : ℕ} (hm : 1 ≤ m) {v w : PyVal} (h : setThreads m v = .ok w) : setThreads m w = .ok w := by
  simp only [setThreads, bind_ok, Except.ok.injEq] at h
  obtain ⟨b, hb, rfl⟩ := h
  cases b with
  | false => simp [setThreads, hb, Except.ok_bind']
  | true =>
    have : pyLt (.int m) (.fin 1) = .ok false := by
      simp only [pyLt, PyVal.num, lt, XR.lt]
      simp only [Except.ok.injEq, decide_eq_false_iff_not, not_lt]
      exact_mod_cast hm
    simp [setThreads, this, Except.ok_bind']

theorem checkTolerance_idem {v w : PyVal} (h : checkTolerance v = .ok w) : checkTolerance w = .ok w := by
  rcases checkTolerance_ok h with ⟨rfl, rfl⟩ | ⟨rfl, _⟩
  · simp [checkTolerance, PyVal.isscalar, PyVal.isIntOrFloat, pyLt, PyVal.num, lt, XR.lt, Except.ok_bind']
  · exact h

theorem parameters_idem {v : PyVal} {d : DType} {p : Parameters} (h : getOperatorParameters v d = .ok p) :
    getOperatorParameters (Parameters.toPy p) d = .ok p := by
  cases v with
  | none => cases h; rfl
  | list c =>
    cases c with
    | error e => cases h
    | ok w =>
      obtain ⟨k, l⟩ := w
      simp only [getOperatorParameters, PyVal.isscalar, Bool.false_eq_true, if_false, Except.ok_bind'] at h
      split_ifs at h
      cases h
      simp [Parameters.toPy, getOperatorParameters, PyVal.isscalar]
  | array dt k l =>
    simp only [getOperatorParameters, PyVal.isscalar, Bool.false_eq_true, if_false] at h
    split_ifs at h
    cases h
    simp [Parameters.toPy, getOperatorParameters, PyVal.isscalar]
  | other s =>
    cases s <;> simp [getOperatorParameters, PyVal.isscalar] at h
    cases h; simp [Parameters.toPy, getOperatorParameters, PyVal.isscalar]
  | tuple n => simp [getOperatorParameters, PyVal.isscalar] at h
  | _ =>
    simp [getOperatorParameters, PyVal.isscalar] at h
    cases h; simp [Parameters.toPy, getOperatorParameters, PyVal.isscalar]

theorem settle_idem {m : ℕ} (hm : 1 ≤ m) {A : Operand} {par : PyVal} {a : Arguments} {s : Settled}
    (h : settle m A par a = .ok s) (ht : a.lanczosTol ≠ .none ∨ s.op.dtype = .float64) :
    settle m A (Parameters.toPy s.params) s.args = .ok s ∧ s.args = (slqInfo s).arguments a := by
  simp only [settle, bind_ok, Except.ok.injEq] at h
  obtain ⟨t, h1, op, h2, ps, h3, n, h4, ⟨atol, rtol⟩, h5, rfl⟩ := h
  refine ⟨?_, rfl⟩
  simp only [settle, setThreads_idem hm h1, h2, parameters_idem h3, h4, Except.ok_bind']
  simp only [checkArguments, bind_ok, Except.ok.injEq, Prod.mk.injEq] at h5
  obtain ⟨_, c1, _, c2, _, c3, _, c4, _, c5, _, c6, _, c7, x, c8, y, c9, _, c10, _, c11, _, c12, _, c13, _, c14, _, c15,
    _, c16, _, c17, _, c18, _, c19, rfl, rfl⟩ := h5
  have hseed : checkSeed (defaultSeed a.seed) = .ok () := by
    cases hs : a.seed <;> simp_all [defaultSeed, checkSeed, PyVal.isscalar, PyVal.isInteger]
  have hseed' : defaultSeed (defaultSeed a.seed) = defaultSeed a.seed := by
    cases a.seed <;> rfl
  have htol : checkLanczosTol (defaultTol op.dtype a.lanczosTol) = .ok () ∧
      defaultTol op.dtype (defaultTol op.dtype a.lanczosTol) = defaultTol op.dtype a.lanczosTol := by
    cases hl : a.lanczosTol with
    | none =>
      have hd : op.dtype = .float64 := ht.resolve_left (by simp [hl])
      simp [hd, defaultTol, precisionScalar, checkLanczosTol, PyVal.isscalar, PyVal.isIntegerOrFloat, pyLt, PyVal.num,
        lt, XR.lt, machinePrecision, Except.ok_bind']
    | _ => simp [defaultTol]; rw [← hl]; exact c12
  simp only [checkArguments, c1, c2, c3, c4, c5, checkTolerance_idem c6, checkTolerance_idem c7, c8, c9, c10, c11,
    htol.1, c13, hseed, c15, c16, c17, c18, c19, Except.ok_bind', hseed', htol.2]

/-- C93: a call that takes the settings from `info` gives the same result and the same `info`.  Missing: the same for
`lanczos_tol=None` with other data than double precision, which `replay_tol_refused` shows to be false, and for a seed
from the clock (`clock_seed_not_reported`). -/
theorem settings_replay_partial {V : Type} {maxThreads : ℕ} {run : Operator → Native → Except PyExc (List V)}
    {A : Operand} {parameters : PyVal} {a : Arguments} {out : Output V} {i : SlqInfo} (hm : 1 ≤ maxThreads)
    (h : slqCall maxThreads run A parameters a = .ok (out, i))
    (ht : a.lanczosTol ≠ .none ∨ i.dataType = .float64) :
    slqCall maxThreads run A (Parameters.toPy i.parameters) (i.arguments a) = .ok (out, i) := by
  have h0 := h
  simp only [slqCall, bind_ok, Except.ok.injEq, Prod.mk.injEq] at h
  obtain ⟨s, hs, native, hn, tr, hr, v, hv, u, hu, o, ho, rfl, rfl⟩ := h
  obtain ⟨k1, k2⟩ := settle_idem hm hs ht
  rw [← k2]
  have hv' : truth s.args.verbose = .ok v := by rw [k2]; exact hv
  simp only [slqInfo, slqCall, k1, Except.ok_bind', hn, hr, hv', hu, ho]

/-- A call with `return_info=True` returns whenever the call without it does. -/
theorem slqCall_of_trace {V : Type} {maxThreads : ℕ} {run : Operator → Native → Except PyExc (List V)} {A : Operand}
    {parameters : PyVal} {a : Arguments} {out : Output V} (h : traceEstimator maxThreads run A parameters a = .ok out) :
    ∃ i, slqCall maxThreads run A parameters a = .ok (out, i) := by
  rw [← slq_call_trace] at h
  cases hc : slqCall maxThreads run A parameters a with
  | error e => rw [hc] at h; cases h
  | ok w =>
    obtain ⟨o, i⟩ := w
    rw [hc] at h
    cases h
    exact ⟨i, rfl⟩

/-- C93: every setting in `info` is what the caller wrote; only `None` and a number of threads below one are replaced,
by the documented default. -/
theorem settings_written {V : Type} {maxThreads : ℕ} {run : Operator → Native → Except PyExc (List V)} {A : Operand}
    {parameters : PyVal} {a : Arguments} {out : Output V} {i : SlqInfo}
    (h : slqCall maxThreads run A parameters a = .ok (out, i)) :
    i.gram = a.gram ∧ i.exponent = a.exponent ∧ i.minNumSamples = a.minNumSamples ∧
      i.maxNumSamples = a.maxNumSamples ∧ i.confidenceLevel = a.confidenceLevel ∧
      i.outlierSignificanceLevel = a.outlierSignificanceLevel ∧ i.lanczosDegree = a.lanczosDegree ∧
      i.orthogonalize = a.orthogonalize ∧ i.numGpuDevices = a.numGpuDevices ∧
      (a.errorAtol ≠ .none → i.errorAtol = a.errorAtol) ∧ (a.errorAtol = .none → i.errorAtol = .float (.fin 0)) ∧
      (a.errorRtol ≠ .none → i.errorRtol = a.errorRtol) ∧ (a.errorRtol = .none → i.errorRtol = .float (.fin 0)) ∧
      (a.seed ≠ .none → i.seed = a.seed) ∧ (a.seed = .none → i.seed = .int (-1)) ∧
      (a.lanczosTol ≠ .none → i.lanczosTol = a.lanczosTol) ∧
      (a.lanczosTol = .none → IsReal i.lanczosTol (.fin (machinePrecision i.dataType))) ∧
      (∀ z, IsInt a.numThreads z → 1 ≤ z → i.numCpuThreads = a.numThreads) ∧
      (∀ z, IsInt a.numThreads z → z < 1 → i.numCpuThreads = .int maxThreads) ∧
      (parameters = .none → Parameters.toPy i.parameters = .none) ∧
      (parameters.isscalar = true → Parameters.toPy i.parameters = parameters) ∧
      (∀ dt l, parameters = .array dt 1 l → Parameters.toPy i.parameters = parameters) ∧
      (∀ l, parameters = .list (.ok (1, l)) → Parameters.toPy i.parameters = .array i.dataType 1 l) := by
  simp only [slqCall, settle, bind_ok, Except.ok.injEq, Prod.mk.injEq] at h
  obtain ⟨s, ⟨t, ht, op, hop, ps, hps, n, hn, ⟨w, w'⟩, hw, rfl⟩, native, hnat, tr, hrun, v, hv, u, hu, o, ho, rfl,
    rfl⟩ := h
  simp only [checkArguments, bind_ok, Except.ok.injEq, Prod.mk.injEq] at hw
  obtain ⟨_, -, _, -, _, -, _, -, _, -, _, c6, _, c7, _, -, _, -, _, -, _, -, _, -, _, -, _, -, _, -, _, -, _, -, _, -,
    _, -, rfl, rfl⟩ := hw
  have k6 := checkTolerance_ok c6
  have k7 := checkTolerance_ok c7
  have kt : ∀ z, IsInt a.numThreads z → pyLt a.numThreads (.fin 1) = .ok (decide (z < 1)) := by
    intro z hz
    have h1 : pyLt a.numThreads (.fin 1) = .ok (lt (.fin z) (.fin 1)) := by
      rcases hz with hz | hz | ⟨hz, rfl⟩ | ⟨hz, rfl⟩ <;> simp [hz, pyLt, PyVal.num]
    rw [h1]
    simp only [lt, XR.lt, Except.ok.injEq, decide_eq_decide]
    exact_mod_cast Iff.rfl
  refine ⟨rfl, rfl, rfl, rfl, rfl, rfl, rfl, rfl, rfl, ?_, ?_, ?_, ?_, ?_, ?_, ?_, ?_, ?_, ?_, ?_, ?_, ?_, ?_⟩
  · intro hne; rcases k6 with ⟨h0, _⟩ | ⟨h0, _⟩
    · exact absurd h0 hne
    · exact h0.symm
  · intro he; rcases k6 with ⟨_, h0⟩ | ⟨h0, x, h1, _⟩
    · exact h0
    · rw [he] at h1; cases h1
  · intro hne; rcases k7 with ⟨h0, _⟩ | ⟨h0, _⟩
    · exact absurd h0 hne
    · exact h0.symm
  · intro he; rcases k7 with ⟨_, h0⟩ | ⟨h0, x, h1, _⟩
    · exact h0
    · rw [he] at h1; cases h1
  · intro hne; simp only [slqInfo]; cases hs : a.seed <;> first | rfl | exact absurd hs hne
  · intro he; simp only [slqInfo, he, defaultSeed]
  · intro hne; simp only [slqInfo]; cases hs : a.lanczosTol <;> first | rfl | exact absurd hs hne
  · intro he
    simp only [slqInfo, he, defaultTol, precisionScalar]
    split_ifs
    · exact .inr (.inl rfl)
    · exact .inr (.inr (.inl rfl))
  · intro z hz h1
    simp only [setThreads, kt z hz, Except.ok_bind', Except.ok.injEq] at ht
    simp only [slqInfo]
    rw [← ht, if_neg (by simpa using h1)]
  · intro z hz h1
    simp only [setThreads, kt z hz, Except.ok_bind', Except.ok.injEq] at ht
    simp only [slqInfo]
    rw [← ht, if_pos (by simpa using h1)]
  · rintro rfl; cases hps; rfl
  · intro hs
    cases parameters <;> simp [PyVal.isscalar] at hs <;> simp [getOperatorParameters, PyVal.isscalar, hs] at hps <;>
      cases hps <;> simp_all [Parameters.toPy, slqInfo]
  · rintro dt l rfl
    simp [getOperatorParameters, PyVal.isscalar] at hps
    cases hps; rfl
  · rintro l rfl
    simp only [getOperatorParameters, PyVal.isscalar, Bool.false_eq_true, if_false, Except.ok_bind', ne_eq,
      not_true_eq_false] at hps
    cases hps; rfl

/-- A call with documented arguments and without parameters returns, if the C++ code does. -/
theorem valid_call {V : Type} {maxThreads : ℕ} (hm : (maxThreads : ℤ) < 2 ^ 31) {dtype : DType} (hd : dtype ≠ .other)
    {rows cols : ℕ} {a : Arguments} (hv : Valid a) (hsq : a.gram = .bool true ∨ rows = cols)
    (f : Operator → Native → V) :
    ∃ op native i, slqCall maxThreads (fun op n => .ok [f op n]) (.matrix dtype [rows, cols]) .none a =
      .ok (.scalar (f op native), i) := by
  obtain ⟨r, hr⟩ := valid_arguments_accepted hm hd hv hsq
  have hp : r.params = .none ∧ r.op.numParameters = 0 ∧ r.isArray = false := by
    simp only [prepare, bind_ok, Except.ok.injEq] at hr
    obtain ⟨t, _, op, hop, ps, hps, n, _, w, _, nat, _, rfl⟩ := hr
    cases hps
    simp only [getOperator, bind_ok] at hop
    obtain ⟨g, _, hop⟩ := hop
    simp only [makeOperator] at hop
    split_ifs at hop <;> cases hop
    exact ⟨rfl, rfl, rfl⟩
  obtain ⟨b, hb⟩ := hv.verbose
  have : traceEstimator maxThreads (fun op n => .ok [f op n]) (.matrix dtype [rows, cols]) .none a =
      .ok (.scalar (f r.op r.native)) := by
    simp only [traceEstimator, hr, Except.ok_bind', hb, truth, report, printParameters, hp.2.1, hp.2.2, wrapOutput]
    cases b <;> rfl
  obtain ⟨i, hi⟩ := slqCall_of_trace this
  exact ⟨r.op, r.native, i, hi⟩

/-- The sample of C93: the documented defaults but with a tolerance and four threads too many. -/
def sampleInfo : Arguments := { defaults with lanczosTol := .float (.fin (1 / 1024)), numThreads := .int 12 }

theorem sampleInfo_valid : Valid sampleInfo :=
  { defaults_valid with
    lanczosTol := .inr ⟨_, rfl, by norm_num⟩
    threads := ⟨12, rfl, by norm_num, by norm_num⟩ }

example : ∃ out i, slqCall 8 (fun _ n => .ok [n.numThreads]) (.matrix .float32 [3, 3]) .none sampleInfo = .ok (out, i) ∧
    i.seed = .int (-1) ∧ i.errorAtol = .float (.fin 0) ∧ i.numCpuThreads = .int 12 ∧
    slqCall 8 (fun _ n => .ok [n.numThreads]) (.matrix .float32 [3, 3]) (Parameters.toPy i.parameters)
      (i.arguments sampleInfo) = .ok (out, i) := by
  obtain ⟨op, native, i, h⟩ := valid_call (maxThreads := 8) (dtype := .float32) (rows := 3) (cols := 3) (by norm_num)
    (by decide) sampleInfo_valid (.inr rfl) fun _ n => n.numThreads
  have hw := settings_written h
  exact ⟨_, i, h, hw.2.2.2.2.2.2.2.2.2.2.2.2.2.2.1 rfl, hw.2.2.2.2.2.2.2.2.2.2.1 rfl,
    hw.2.2.2.2.2.2.2.2.2.2.2.2.2.2.2.2.2.1 12 (.inl rfl) (by norm_num),
    settings_replay_partial (by norm_num) h (.inl (by simp [sampleInfo]))⟩

/-- C93 fails: with `lanczos_tol=None` and a matrix in single or extended precision, the tolerance that `info` tells is
refused as an argument, because it is a number of `numpy` that is no `float`. -/
theorem replay_tol_refused {V : Type} {maxThreads : ℕ} {run : Operator → Native → Except PyExc (List V)} {A : Operand}
    {parameters : PyVal} {a : Arguments} {out : Output V} {i : SlqInfo} (hm : 1 ≤ maxThreads)
    (h : slqCall maxThreads run A parameters a = .ok (out, i)) (ht : a.lanczosTol = .none)
    (hd : i.dataType ≠ .float64) :
    slqCall maxThreads run A (Parameters.toPy i.parameters) (i.arguments a) = .error .typeError := by
  simp only [slqCall, bind_ok, Except.ok.injEq, Prod.mk.injEq] at h
  obtain ⟨s, h, native, hn, tr, hr, v, hv, u, hu, o, ho, rfl, rfl⟩ := h
  simp only [settle, bind_ok, Except.ok.injEq] at h
  obtain ⟨t, h1, op, h2, ps, h3, n, h4, ⟨atol, rtol⟩, h5, rfl⟩ := h
  simp only [checkArguments, bind_ok, Except.ok.injEq, Prod.mk.injEq] at h5
  obtain ⟨_, c1, _, c2, _, c3, _, c4, _, c5, _, c6, _, c7, x, c8, y, c9, _, c10, _, c11, _, c12, _, c13, _, c14, _, c15,
    _, c16, _, c17, _, c18, _, c19, rfl, rfl⟩ := h5
  have hd' : op.dtype ≠ .float64 := hd
  have htol : checkLanczosTol (defaultTol op.dtype .none) = .error .typeError := by
    simp [defaultTol, precisionScalar, hd', checkLanczosTol, PyVal.isscalar, PyVal.isIntegerOrFloat]
  simp only [slqInfo, SlqInfo.arguments, slqCall, settle, setThreads_idem hm h1, h2, parameters_idem h3, h4,
    Except.ok_bind', checkArguments, c1, c2, c3, c4, c5, checkTolerance_idem c6, checkTolerance_idem c7, c8, c9, c10, c11,
    ht, htol]
  rfl

example : ∃ out i, slqCall 8 (fun _ n => .ok [n.numThreads]) (.matrix .float32 [3, 3]) .none defaults = .ok (out, i) ∧
    slqCall 8 (fun _ n => .ok [n.numThreads]) (.matrix .float32 [3, 3]) (Parameters.toPy i.parameters)
      (i.arguments defaults) = .error .typeError := by
  obtain ⟨op, native, i, h⟩ := valid_call (maxThreads := 8) (dtype := .float32) (rows := 3) (cols := 3) (by norm_num)
    (by decide) defaults_valid (.inr rfl) fun _ n => n.numThreads
  refine ⟨_, i, h, replay_tol_refused (by norm_num) h rfl ?_⟩
  have h' := h
  simp only [slqCall, settle, bind_ok, Except.ok.injEq, Prod.mk.injEq] at h'
  obtain ⟨s, ⟨t, _, op', hop, ps, _, n, _, w, _, rfl⟩, _, _, _, _, _, _, _, _, _, _, _, rfl⟩ := h'
  simp only [getOperator, bind_ok] at hop
  obtain ⟨g, _, hop⟩ := hop
  simp only [makeOperator] at hop
  split_ifs at hop
  cases hop
  simp [slqInfo]

/-- C93 fails: more threads than the processor has are used and reported as they are, against the documentation ("if set
to `0` or a number larger than the available number of threads, all threads of the processor are used"). -/
theorem threads_not_limited {maxThreads : ℕ} (hm : (maxThreads : ℤ) < 2 ^ 31) {dtype : DType} (hd : dtype ≠ .other)
    {rows cols : ℕ} {a : Arguments} (hv : Valid a) (hsq : a.gram = .bool true ∨ rows = cols) {k : ℤ}
    (hk : IsInt a.numThreads k) (hlarge : maxThreads < k) (hpos : 1 ≤ k) :
    ∃ i, slqCall maxThreads (fun _ n => .ok [n.numThreads]) (.matrix dtype [rows, cols]) .none a = .ok (.scalar k, i) ∧
      i.numCpuThreads = a.numThreads := by
  obtain ⟨op, native, i, h⟩ := valid_call hm hd hv hsq fun _ n => n.numThreads
  obtain ⟨_, _, _, _, _, _, _, _, _, _, _, _, _, _, _, _, _, hth, _⟩ := settings_written h
  have hi := hth k hk hpos
  obtain ⟨op', native', tr, hrun, hout, _, _, _, _, _, _, _, _, _, _, _, _, _, _, _, _, hnum⟩ := settings_used h
  cases hrun
  rcases hout with hout | ⟨x, hx, hout⟩
  · cases hout
  · cases hx
    rw [hi] at hnum
    have e : native'.numThreads = k := by
      have h1 := (isInt_isInteger hnum).2
      have h2 := (isInt_isInteger hk).2
      rw [← h1, ← h2]
    rw [hout, e] at h
    exact ⟨i, h, hi⟩

example : IsInt sampleInfo.numThreads 12 ∧ ((8 : ℕ) : ℤ) < 12 ∧ Valid sampleInfo :=
  ⟨.inl rfl, by norm_num, sampleInfo_valid⟩

/-! ### Seeds from the clock -/

/-- C93 fails: without a seed, `info` tells `-1` whatever the clock read, and two readings that differ by more than
256 nanoseconds and less than 4.29 seconds give other random numbers. -/
theorem clock_seed_not_reported {V : Type} {maxThreads : ℕ} {run : Operator → Native → Except PyExc (List V)}
    {A : Operand} {parameters : PyVal} {a : Arguments} {out : Output V} {i : SlqInfo} (ha : a.seed = .none)
    (h : slqCall maxThreads run A parameters a = .ok (out, i)) :
    i.seed = .int (-1) ∧ ∀ {fl : ℝ → ℝ}, Nearest 53 fl → ∀ {c d : ℕ → Timespec} {n m : ℕ} {junk : Timespec}
      {g g' : Array Xoshiro} {t : ℕ} {x y : Xoshiro}, (c t).Modern → (d t).Modern →
      (c t).time + 256 < (d t).time → (d t).time + 256 < (c t).time + 2 ^ 32 →
      initGenerators n (fun t => timeStamp fl (some (c t)) junk) (BitVec.ofInt 64 (-1)) = .ok g →
      initGenerators m (fun t => timeStamp fl (some (d t)) junk) (BitVec.ofInt 64 (-1)) = .ok g' →
      g[t]? = some x → g'[t]? = some y → ∃ k < 4, draw x k ≠ draw y k :=
  ⟨(settings_written h).2.2.2.2.2.2.2.2.2.2.2.2.2.2.1 ha, fun hn _ _ _ _ _ _ _ _ _ _ hc hd h1 h2 hg hg' hx hy =>
    time_seed_distinct_partial hn hc hd h1 h2 hg hg' hx hy⟩

/-! ### Hutchinson -/

theorem dim_hasRows {A : MatArg} {r c : ℕ} (h : HasRows A r c) : A.dim 1 = .ok c := by
  rcases h with ⟨l, rfl⟩ | rfl | rfl <;> rfl

/-- The lower of a number and `cols`. -/
theorem clip_isInt {v : PyVal} {z : ℤ} (h : IsInt v z) (cols : ℕ) :
    IsInt (if (cols : ℤ) < v.intValue then .int cols else v) (min z cols) := by
  rw [(isInt_isInteger h).2]
  split_ifs with hc
  · rw [min_eq_right hc.le]; exact .inl rfl
  · rw [min_eq_left (not_lt.1 hc)]; exact h

theorem clip_idem {v : PyVal} {z : ℤ} (h : IsInt v z) (cols : ℕ) :
    (if (cols : ℤ) < (if (cols : ℤ) < v.intValue then PyVal.int cols else v).intValue then PyVal.int cols
      else (if (cols : ℤ) < v.intValue then PyVal.int cols else v)) =
      if (cols : ℤ) < v.intValue then PyVal.int cols else v := by
  rw [(isInt_isInteger (clip_isInt h cols)).2, if_neg (by simp)]

/-- C93: what the Hutchinson method is given and what `info` tells is what the caller wrote, with zero for a tolerance
`None`, `-1` for a seed `None`, all processors for zero threads, and at most as many samples as the matrix has
columns. -/
theorem hutch_settings {V : Type} {cpus : ℕ} {run : HutchArgs → Except PyExc V} {a : HutchArgs} {v : V} {i : HutchInfo}
    (h : hutchCall cpus run a = .ok (v, i)) :
    ∃ s r c m M t, run s = .ok v ∧ HasRows a.A r c ∧ IsInt a.minNumSamples m ∧ IsInt a.maxNumSamples M ∧
      IsInt a.numThreads t ∧
      (s.A = a.A ∧ s.B = a.B ∧ s.C = a.C ∧ s.gram = a.gram ∧ s.p = a.p ∧ s.assumeMatrix = a.assumeMatrix ∧
        s.confidenceLevel = a.confidenceLevel ∧ s.outlierSignificanceLevel = a.outlierSignificanceLevel ∧
        s.solverTol = a.solverTol ∧ s.orthogonalize = a.orthogonalize) ∧
      (i.gram = s.gram ∧ i.exponent = s.p ∧ i.assumeMatrix = s.assumeMatrix ∧ i.errorAtol = s.errorAtol ∧
        i.errorRtol = s.errorRtol ∧ i.confidenceLevel = s.confidenceLevel ∧
        i.outlierSignificanceLevel = s.outlierSignificanceLevel ∧ i.minNumSamples = s.minNumSamples ∧
        i.maxNumSamples = s.maxNumSamples ∧ i.numCpuThreads = s.numThreads ∧ i.orthogonalize = s.orthogonalize ∧
        i.seed = s.seed ∧ i.solverTol = s.solverTol) ∧
      (a.errorAtol = .none ∧ s.errorAtol = .float (.fin 0) ∨ a.errorAtol ≠ .none ∧ s.errorAtol = a.errorAtol) ∧
      (a.errorRtol = .none ∧ s.errorRtol = .float (.fin 0) ∨ a.errorRtol ≠ .none ∧ s.errorRtol = a.errorRtol) ∧
      (a.seed = .none ∧ s.seed = .int (-1) ∨ a.seed ≠ .none ∧ s.seed = a.seed) ∧
      IsInt s.minNumSamples (min m c) ∧ IsInt s.maxNumSamples (min M c) ∧
      IsInt s.numThreads (if t = 0 then (cpus : ℤ) else t) := by
  simp only [hutchCall, bind_ok, Except.ok.injEq, Prod.mk.injEq] at h
  obtain ⟨s, hs, v', hv, rfl, rfl⟩ := h
  simp only [hutchSettle, bind_ok, Except.ok.injEq] at hs
  obtain ⟨⟨atol, rtol, sq⟩, hc, cols, hcols, rfl⟩ := hs
  obtain ⟨acc, hat, hrt, r, c, hA, hsq⟩ := (DirectArgs.hutchinson_accepts_exactly a atol rtol sq).1 hc
  rw [dim_hasRows hA] at hcols
  obtain rfl : c = cols := by simpa using hcols
  obtain ⟨mn, mx, hmn, hmx, h1, h2⟩ := acc.samples
  obtain ⟨z, hz, hz0⟩ := acc.numThreads
  refine ⟨_, r, c, mn, mx, z, hv, hA, hmn, hmx, hz, ⟨rfl, rfl, rfl, rfl, rfl, rfl, rfl, rfl, rfl, rfl⟩,
    ⟨rfl, rfl, rfl, rfl, rfl, rfl, rfl, rfl, rfl, rfl, rfl, rfl, rfl⟩, hat, hrt, ?_, clip_isInt hmn c, clip_isInt hmx c,
    ?_⟩
  · cases hs : a.seed <;> simp [defaultSeed]
  · dsimp only
    rw [(isInt_isInteger hz).2]
    by_cases h0 : z = 0
    · rw [if_pos (by omega), if_pos h0]; exact .inl rfl
    · rw [if_neg (by omega), if_neg h0]; exact hz

/-- C93: a call of the Hutchinson method that takes the settings from `info` gives the same result and the same `info`. -/
theorem hutch_replay {V : Type} {cpus : ℕ} {run : HutchArgs → Except PyExc V} {a : HutchArgs} {v : V} {i : HutchInfo}
    (hcpu : 1 ≤ cpus) (hcol : ∀ r c, HasRows a.A r c → 1 ≤ c) (h : hutchCall cpus run a = .ok (v, i)) :
    hutchCall cpus run (i.arguments a) = .ok (v, i) := by
  simp only [hutchCall, bind_ok, Except.ok.injEq, Prod.mk.injEq] at h
  obtain ⟨s, hs, v', hv, rfl, rfl⟩ := h
  suffices hk : hutchSettle cpus ((hutchInfo s).arguments a) = .ok s by
    simp only [hutchCall, hk, hv, Except.ok_bind']
  simp only [hutchSettle, bind_ok, Except.ok.injEq] at hs
  obtain ⟨⟨atol, rtol, sq⟩, hc, cols, hcols, rfl⟩ := hs
  obtain ⟨acc, hat, hrt, r, c, hA, hsq⟩ := (DirectArgs.hutchinson_accepts_exactly a atol rtol sq).1 hc
  rw [dim_hasRows hA] at hcols
  obtain rfl : c = cols := by simpa using hcols
  have h1c := hcol r c hA
  obtain ⟨mn, mx, hmn, hmx, h1, h2⟩ := acc.samples
  obtain ⟨z, hz, hz0⟩ := acc.numThreads
  have ez := (isInt_isInteger hz).2
  have hzero : TolPasses (.float (.fin 0)) := .inr ⟨.fin 0, .inr rfl, .inr (le_refl (0 : ℚ))⟩
  have hpass : ∀ {v w : PyVal}, TolPasses v → (v = .none ∧ w = .float (.fin 0) ∨ v ≠ .none ∧ w = v) →
      TolPasses w ∧ w ≠ .none := by
    rintro v w hv (⟨_, rfl⟩ | ⟨hn, rfl⟩)
    · exact ⟨hzero, by simp⟩
    · exact ⟨hv, hn⟩
  have hpa := hpass acc.atol hat
  have hpr := hpass acc.rtol hrt
  have hthr : (if a.numThreads.intValue < 1 then PyVal.int cpus else a.numThreads).intValue ≥ 1 ∧
      ∃ z, IsInt (if a.numThreads.intValue < 1 then PyVal.int cpus else a.numThreads) z ∧ 0 ≤ z := by
    split_ifs with hlt
    · exact ⟨by simpa [PyVal.intValue] using hcpu, cpus, .inl rfl, by positivity⟩
    · exact ⟨not_lt.1 hlt, z, hz, hz0⟩
  have hcheck : checkHutchinson ((hutchInfo { a with
      errorAtol := atol, errorRtol := rtol
      maxNumSamples := if (c : ℤ) < a.maxNumSamples.intValue then .int c else a.maxNumSamples
      minNumSamples := if (c : ℤ) < a.minNumSamples.intValue then .int c else a.minNumSamples
      seed := defaultSeed a.seed
      numThreads := if a.numThreads.intValue < 1 then .int cpus else a.numThreads }).arguments a) =
      .ok (atol, rtol, sq) := by
    refine (DirectArgs.hutchinson_accepts_exactly _ atol rtol sq).2 ⟨⟨acc.matrices, acc.gram, acc.p, acc.returnInfo,
      acc.assumeMatrix, ?_, hpa.1, hpr.1, acc.levels, acc.solverTol, acc.orthogonalize, ?_, hthr.2, acc.verbose,
      acc.plot⟩, .inr ⟨hpa.2, rfl⟩, .inr ⟨hpr.2, rfl⟩, r, c, hA, hsq⟩
    · exact ⟨_, _, clip_isInt hmn c, clip_isInt hmx c, le_min h1 (by exact_mod_cast h1c), min_le_min_right _ h2⟩
    · rcases acc.seed with hs | ⟨w, hw⟩
      · right; exact ⟨-1, by simp [hutchInfo, HutchInfo.arguments, hs, defaultSeed, IsInt]⟩
      · right
        refine ⟨w, ?_⟩
        rcases hw with hw | hw | ⟨hw, rfl⟩ | ⟨hw, rfl⟩ <;> simp [hutchInfo, HutchInfo.arguments, hw, defaultSeed, IsInt]
  have hseed' : defaultSeed (defaultSeed a.seed) = defaultSeed a.seed := by
    cases a.seed <;> rfl
  unfold hutchSettle
  rw [hcheck]
  simp only [Except.ok_bind']
  have hdim : ∀ b, ((hutchInfo b).arguments a).A.dim 1 = .ok c := fun _ => dim_hasRows hA
  rw [hdim, Except.ok_bind', Except.ok.injEq, HutchArgs.mk.injEq]
  exact ⟨rfl, rfl, rfl, rfl, rfl, rfl, rfl, clip_idem hmn c, clip_idem hmx c, rfl, rfl, rfl, rfl, rfl, rfl, hseed',
    if_neg (not_lt.2 hthr.1), rfl, rfl⟩

example : ∃ i, hutchCall 4 (fun s => .ok s.maxNumSamples.intValue) DirectArgs.sampleHutch = .ok (4, i) ∧
    IsInt i.minNumSamples 4 ∧ i.seed = .int (-1) ∧
    hutchCall 4 (fun s => .ok s.maxNumSamples.intValue) (i.arguments DirectArgs.sampleHutch) = .ok (4, i) := by
  have hacc := (DirectArgs.hutchinson_accepts_exactly DirectArgs.sampleHutch (.float (.fin 0))
    DirectArgs.sampleHutch.errorRtol true).2 ⟨DirectArgs.sampleHutch_accepted, .inl ⟨rfl, rfl⟩,
      .inr ⟨by simp [DirectArgs.sampleHutch], rfl⟩, 4, 4, .inr (.inl rfl), rfl⟩
  obtain ⟨i, h, hi⟩ : ∃ i, hutchCall 4 (fun s => .ok s.maxNumSamples.intValue) DirectArgs.sampleHutch = .ok (4, i) ∧
      i.minNumSamples = .int 4 ∧ i.seed = .int (-1) := by
    simp only [hutchCall, hutchSettle, hacc, Except.ok_bind']
    exact ⟨_, rfl, rfl, rfl⟩
  refine ⟨i, h, .inl hi.1, hi.2, hutch_replay (by norm_num) ?_ h⟩
  rintro r c (⟨l, hl⟩ | hl | hl) <;> cases hl
  norm_num

/-! ### Cholesky -/

theorem checkCholmod_used (st : Direct.CholeskySettings) (b : Bool) :
    Direct.checkCholmod st.suitesparse (some (cholmodUsed st b)) = .ok () := by
  unfold Direct.checkCholmod cholmodUsed Direct.useCholmod
  rw [if_neg]
  rintro ⟨h1, h2⟩
  simp [h2] at h1

theorem useCholmod_used (st : Direct.CholeskySettings) (b : Bool) :
    Direct.useCholmod { st with cholmod := some (cholmodUsed st b) } b = Direct.useCholmod st b := by
  unfold cholmodUsed Direct.useCholmod
  obtain ⟨s, c, i⟩ := st
  cases s <;> cases b <;> rcases c with _ | _ | _ <;> rfl

/-- C93: `cholmod=None` means CHOLMOD if it is installed and the matrix is sparse, otherwise SciPy, and `info` says so. -/
theorem cholmod_default (lib : Direct.Lib) (A : Direct.Array2 ℝ) (B : Option (Direct.Array2 ℝ)) (gram : Bool)
    (p : Hutchinson.Exponent) (suitesparse invertCholesky : Bool) :
    Direct.traceinvCholesky lib A B gram p ⟨suitesparse, none, invertCholesky⟩ =
      Direct.traceinvCholesky lib A B gram p ⟨suitesparse, some (suitesparse && A.isSparse), invertCholesky⟩ ∧
    Direct.logdetCholesky lib A gram p ⟨suitesparse, none, invertCholesky⟩ =
      Direct.logdetCholesky lib A gram p ⟨suitesparse, some (suitesparse && A.isSparse), invertCholesky⟩ ∧
    cholmodUsed ⟨suitesparse, none, invertCholesky⟩ A.isSparse = (suitesparse && A.isSparse) := by
  have h1 : Direct.useCholmod ⟨suitesparse, none, invertCholesky⟩ A.isSparse =
      Direct.useCholmod ⟨suitesparse, some (suitesparse && A.isSparse), invertCholesky⟩ A.isSparse := by
    cases suitesparse <;> cases A.isSparse <;> rfl
  have h2 : Direct.checkCholmod suitesparse none = Direct.checkCholmod suitesparse (some (suitesparse && A.isSparse)) := by
    cases suitesparse <;> cases A.isSparse <;> rfl
  refine ⟨?_, ?_, ?_⟩
  · simp only [Direct.traceinvCholesky, Direct.traceinvBranch, h1, h2]
  · simp only [Direct.logdetCholesky, h1, h2]
  · cases suitesparse <;> cases A.isSparse <;> rfl

/-- C93: `traceinv` by Cholesky with the `cholmod_used` of `info` as `cholmod` gives the same value. -/
theorem traceinv_cholesky_replay (lib : Direct.Lib) (A : Direct.Array2 ℝ) (B : Option (Direct.Array2 ℝ)) (gram : Bool)
    (p : Hutchinson.Exponent) (st : Direct.CholeskySettings) {v : ℝ}
    (h : Direct.traceinvCholesky lib A B gram p st = .ok v) :
    Direct.traceinvCholesky lib A B gram p { st with cholmod := some (cholmodUsed st A.isSparse) } = .ok v := by
  simp only [Direct.traceinvCholesky, Direct.traceinvBranch, bind_ok, checkCholmod_used, useCholmod_used] at h ⊢
  obtain ⟨a, ha, b, hb, c, hc, d, hd, h⟩ := h
  exact ⟨a, ha, b, hb, c, hc, (), trivial, h⟩

/-- C93: `logdet` by Cholesky with the `cholmod_used` of `info` as `cholmod` gives the same value. -/
theorem logdet_cholesky_replay (lib : Direct.Lib) (A : Direct.Array2 ℝ) (gram : Bool) (p : Hutchinson.Exponent)
    (st : Direct.CholeskySettings) {v : Option ℝ} (h : Direct.logdetCholesky lib A gram p st = .ok v) :
    Direct.logdetCholesky lib A gram p { st with cholmod := some (cholmodUsed st A.isSparse) } = .ok v := by
  simp only [Direct.logdetCholesky, bind_ok, checkCholmod_used, useCholmod_used] at h ⊢
  obtain ⟨a, ha, b, hb, h⟩ := h
  exact ⟨a, ha, (), trivial, h⟩

example {lib : Direct.Lib} (hlib : LibSpec lib) : ∃ v, Direct.traceinvCholesky lib
    (.dense (Imate.Spec.square !![2, 1; 1, 2])) none false (.int 3) ⟨true, some true, false⟩ = .ok v ∧
    Direct.traceinvCholesky lib (.dense (Imate.Spec.square !![2, 1; 1, 2])) none false (.int 3) ⟨true, some false, false⟩ = .ok v :=
  have h := cholesky_traceinv hlib (st := ⟨true, some true, false⟩) rfl (.inl ⟨rfl, rfl⟩) 3
    (fun _ => ⟨posDef_two_one, Matrix.PosDef.one⟩) (by intro; rfl)
  ⟨_, h, traceinv_cholesky_replay _ _ _ _ _ _ h⟩

end Imate.Props
