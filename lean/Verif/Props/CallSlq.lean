import Verif.Props.CallOptions

/-!
# C95, the SLQ methods and `schatten`
-/

namespace Imate.Props.CallOptions

open Imate.Args Imate.CallOptions Imate.Spec.CallOptions

variable {M : Type}

/-- The functions with an SLQ method and their documentation. -/
def slqTable : List (SlqFunction × Doc) :=
  [(slqTrace, Spec.CallOptions.trace), (slqTraceinv, traceinv), (slqLogdet, logdet), (slqTrexp, trexp),
    (slqTrlinfrac, trlinfrac), (slqEigencount, eigencount), (slqDensity, density)]

theorem slqTable_mem : ∀ x ∈ slqTable, (x.1.fn, x.2) ∈ table := by
  intro x hx
  simp only [slqTable, List.mem_cons, List.not_mem_nil, or_false] at hx
  rcases hx with rfl | rfl | rfl | rfl | rfl | rfl | rfl <;> simp [table, slqTrace, slqTraceinv, slqLogdet, slqTrexp,
    slqTrlinfrac, slqEigencount, slqDensity]

theorem slqTable_passed : ∀ x ∈ slqTable, ∀ m ∈ x.1.fn.methods, m.name = "slq" →
    (∀ n ∈ passed, n ∈ "py_matrix_function" :: names m.params) ∧ "py_matrix_function" ∉ names m.params ∧
      ∀ a ∈ x.1.arguments, a.1 ∈ names m.params := by decide +kernel

theorem slqTable_doc : ∀ x ∈ slqTable, ("slq", slq) ∈ x.2.methods := by decide +kernel

theorem localVars_ok (env : Names M) (ns : List String) (h : ∀ n ∈ ns, (env.lookup n).isSome) :
    ∃ vs, localVars env ns = .ok vs ∧ vs.map some = ns.map fun n => env.lookup n := by
  induction ns with
  | nil => exact ⟨[], rfl, rfl⟩
  | cons n ns ih =>
    obtain ⟨vs, h1, h2⟩ := ih fun k hk => h k (List.mem_cons_of_mem _ hk)
    obtain ⟨v, hv⟩ := Option.isSome_iff_exists.mp (h n List.mem_cons_self)
    refine ⟨v :: vs, ?_, ?_⟩
    · rw [localVars, localVar_ok hv, h1]; rfl
    · rw [List.map_cons, List.map_cons, h2, hv]

theorem constructorArguments_ok (env : Names M) (ns : List (String × Option ℕ))
    (h : ∀ a ∈ ns, (env.lookup a.1).isSome) :
    ∃ vs, constructorArguments env ns = .ok vs ∧
      vs.map (fun a => (some a.1, a.2)) = ns.map fun a => (env.lookup a.1, a.2) := by
  induction ns with
  | nil => exact ⟨[], rfl, rfl⟩
  | cons a ns ih =>
    obtain ⟨vs, h1, h2⟩ := ih fun k hk => h k (List.mem_cons_of_mem _ hk)
    obtain ⟨v, hv⟩ := Option.isSome_iff_exists.mp (h a List.mem_cons_self)
    refine ⟨(v, a.2) :: vs, ?_, ?_⟩
    · rw [constructorArguments, localVar_ok hv, h1]; rfl
    · rw [List.map_cons, List.map_cons, h2, hv]

/-- The name of the parameter of `trace_estimator` that stands for an argument of the user. -/
def estimatorName (n : String) : String := if n = "p" then "exponent" else n

theorem slqMethod_spec {x : SlqFunction × Doc} (hx : x ∈ slqTable) {m : Method} (hm : m ∈ x.1.fn.methods)
    (hms : m.name = "slq") (check : Names M → Except PyExc Unit) {env : Names M} (hke : keys env = names m.params)
    (hc : check env = .ok ()) :
    ∃ args est, slqMethod x.1 check env = .ok (args, est) ∧
      args.map (fun a => (some a.1, a.2)) = x.1.arguments.map (fun a => (env.lookup a.1, a.2)) ∧
      est.lookup "py_matrix_function" = some (.function x.1.cls) ∧
      ∀ n ∈ passed, n ≠ "py_matrix_function" → est.lookup (estimatorName n) = env.lookup n := by
  obtain ⟨hp1, hp2, hp3⟩ := slqTable_passed x hx m hm hms
  obtain ⟨args, ha1, ha2⟩ := constructorArguments_ok env x.1.arguments fun a ha => by
    rw [lookup_isSome_iff]
    show a.1 ∈ keys env
    rw [hke]; exact hp3 a ha
  obtain ⟨vs, hv1, hv2⟩ := localVars_ok (("py_matrix_function", .function x.1.cls) :: env) passed fun n hn => by
    rw [lookup_isSome_iff, List.map_cons]
    show n ∈ "py_matrix_function" :: keys env
    rw [hke]; exact hp1 n hn
  have hlen : vs.length = estimatorParams.length := by
    have := congrArg List.length hv2
    simpa [passed, estimatorParams] using this
  have hnd : (names estimatorParams).Nodup := by decide +kernel
  rcases bindCall_spec estimatorParams hnd vs [] with ⟨est, he, -, -, -, -, hl⟩ | ⟨-, hno⟩
  swap
  · refine absurd ⟨⟨hlen.le, fun i p hp => ⟨fun _ => by simp [keys], fun hi => ?_⟩⟩, by simp [keys], by simp [keys]⟩ hno
    rw [List.getElem?_eq_none (by omega)] at hp
    cases hp
  have hget : ∀ i : ℕ, vs[i]? = (passed[i]?).bind fun n => (("py_matrix_function", Val.function x.1.cls) :: env).lookup n := by
    intro i
    have := congrArg (fun l => l[i]?) hv2
    simp only [List.getElem?_map] at this
    cases h1 : vs[i]? with
    | none =>
      rw [h1] at this
      cases h2 : passed[i]? with
      | none => rfl
      | some n => rw [h2] at this; cases this
    | some v =>
      rw [h1] at this
      cases h2 : passed[i]? with
      | none => rw [h2] at this; cases this
      | some n => rw [h2] at this; exact Option.some.inj this
  have hest : ∀ (i : ℕ) (n : String), passed[i]? = some n →
      est.lookup (estimatorName n) = (("py_matrix_function", Val.function x.1.cls) :: env).lookup n := by
    intro i n hi
    have hpar : estimatorParams[i]? = some (req (estimatorName n)) := by
      have hall : estimatorParams = passed.map fun n => req (estimatorName n) := by
        simp [estimatorParams, passed, estimatorName]
      rw [hall, List.getElem?_map, hi]; rfl
    have h1 := hl i _ hpar
    have h2 := hget i
    rw [hi, Option.bind_some] at h2
    have h3 : ((("py_matrix_function", Val.function x.1.cls) :: env).lookup n).isSome := by
      rw [lookup_isSome_iff, List.map_cons]
      show n ∈ "py_matrix_function" :: keys env
      rw [hke]; exact hp1 n (List.mem_of_getElem? hi)
    obtain ⟨v, hv⟩ := Option.isSome_iff_exists.mp h3
    show est.lookup (req (estimatorName n)).name = _
    rw [h1, hv]
    unfold valueAt
    rw [h2, hv]; rfl
  refine ⟨args, est, ?_, ha2, ?_, fun n hn hne => ?_⟩
  · unfold slqMethod
    rw [hc, ha1, hv1]
    show (bindCall estimatorParams vs [] >>= _) = _
    rw [he]; rfl
  · have := hest 2 "py_matrix_function" rfl
    rw [lookup_cons_eq, if_pos rfl] at this
    simpa [estimatorName] using this
  · obtain ⟨i, hil, hie⟩ := List.mem_iff_getElem.mp hn
    have := hest i n (by rw [List.getElem?_eq_getElem hil, hie])
    rw [lookup_cons_eq, if_neg hne] at this
    exact this

/-- C95: a call with the method `slq`, when it passes the checks of the arguments of the function itself, reaches
`trace_estimator`: every argument and option given, by position or by name, is what the estimator gets under its name
(`p` is the exponent), what is left out is the documented default value (but for the names in `Misdocumented`), and the
object of the matrix function is made from the arguments `coeff`, `interval`, `mu` and `sigma` of the same call. -/
theorem slq_reaches_estimator {x : SlqFunction × Doc} (hx : x ∈ slqTable) {pos : List (Val M)} {kw : Names M}
    (hk : (kw.map Prod.fst).Nodup) {check : Names M → Except PyExc Unit}
    {r : Except PyExc (List (Val M × Option ℕ) × Names M)} (h : callSlq x.1 check pos kw = some r) :
    ∃ env, callPublic x.1.fn pos kw = .ok ("slq", env) ∧
      ((∃ e, check env = .error e ∧ r = .error e) ∨
      ∃ args est, r = .ok (args, est) ∧
        est.lookup "py_matrix_function" = some (.function x.1.cls) ∧
        args.map (fun a => (some a.1, a.2)) = x.1.arguments.map (fun a => (env.lookup a.1, a.2)) ∧
        (∀ i n d v, x.2.arguments[i]? = some (n, d) → n ∈ ["A", "gram", "p"] → given pos kw i n = some v →
          est.lookup (estimatorName n) = some v) ∧
        (∀ n v, n ∈ slq.map Prod.fst → kw.lookup n = some v → est.lookup n = some v) ∧
        (∀ i n d, x.2.arguments[i]? = some (n, some d) → n ∈ ["gram", "p"] → given pos kw i n = none →
          ¬ Misdocumented x.2 "slq" n → est.lookup (estimatorName n) = some (.py d)) ∧
        ∀ n d, (n, d) ∈ slq → kw.lookup n = none → ¬ Misdocumented x.2 "slq" n → est.lookup n = some (.py d)) := by
  have hxt := slqTable_mem x hx
  unfold callSlq at h
  rcases callPublic_spec (table_wired _ hxt) pos kw hk with ⟨m, hm, env, hcall, -, hke, -⟩ | ⟨-, hcall⟩
  swap
  · exfalso
    rcases hcall with hcall | ⟨hcall, -⟩ <;> · rw [show callPublic x.1.fn pos kw = _ from hcall] at h; cases h
  replace hcall : callPublic x.1.fn pos kw = .ok (m.name, env) := hcall
  rw [hcall] at h
  by_cases hms : m.name = "slq"
  swap
  · simp [hms] at h
  refine ⟨env, by rw [hcall, hms], ?_⟩
  simp only [hms, if_true, Option.some.injEq] at h
  cases hc : check env with
  | error e =>
    left
    refine ⟨e, rfl, ?_⟩
    rw [← h]; unfold slqMethod; rw [hc]; rfl
  | ok u =>
    right
    obtain ⟨args, est, h1, h2, h3, h4⟩ := slqMethod_spec hx hm hms check hke hc
    have hcall' : callPublic (x.1.fn, x.2).1 pos kw = .ok ("slq", env) := by rw [← hms]; exact hcall
    have hopts : ∀ n ∈ slq.map Prod.fst, n ∈ passed ∧ n ≠ "py_matrix_function" ∧ estimatorName n = n := by
      decide +kernel
    have hpub : ∀ n ∈ ["A", "gram", "p"], n ∈ passed ∧ n ≠ "py_matrix_function" ∧ n ≠ "method" := by decide +kernel
    have hpub' : ∀ n ∈ ["gram", "p"], n ∈ passed ∧ n ≠ "py_matrix_function" ∧ n ≠ "method" := by decide +kernel
    refine ⟨args, est, by rw [← h, h1], h3, h2, ?_, ?_, ?_, ?_⟩
    · intro i n d v hi hn hv
      obtain ⟨a, b, c⟩ := hpub n hn
      rw [h4 n a b]
      exact arguments_arrive hxt hk hcall' hi c hv
    · intro n v hn hv
      obtain ⟨a, b, c⟩ := hopts n hn
      have := h4 n a b
      rw [c] at this
      rw [this]
      exact options_arrive hxt hk hcall' (slqTable_doc x hx) hn hv
    · intro i n d hi hn hv hmis
      obtain ⟨a, b, c⟩ := hpub' n hn
      rw [h4 n a b]
      exact (omitted_is_documented_partial hxt hk hcall').1 i n d hi c hv hmis
    · intro n d hn hv hmis
      obtain ⟨a, b, c⟩ := hopts n (List.mem_map_of_mem hn)
      have := h4 n a b
      rw [c] at this
      rw [this]
      exact (omitted_is_documented_partial hxt hk hcall').2 _ (slqTable_doc x hx) n d hn hv hmis

/-- The values that `trace_estimator` checks, with the names of the options they come from. -/
def checkedOptions (a : Arguments) : List (String × PyVal) :=
  [("min_num_samples", a.minNumSamples), ("max_num_samples", a.maxNumSamples), ("error_atol", a.errorAtol),
    ("error_rtol", a.errorRtol), ("confidence_level", a.confidenceLevel),
    ("outlier_significance_level", a.outlierSignificanceLevel), ("lanczos_degree", a.lanczosDegree),
    ("lanczos_tol", a.lanczosTol), ("orthogonalize", a.orthogonalize), ("seed", a.seed), ("num_threads", a.numThreads),
    ("num_gpu_devices", a.numGpuDevices), ("gpu", a.gpu), ("verbose", a.verbose), ("plot", a.plot)]

/-- C95: the value that is checked under the name of an option is the one the user gave for this option, or the documented
default value if they gave none (but for the names in `Misdocumented`). -/
theorem slq_checks_options {x : SlqFunction × Doc} (hx : x ∈ slqTable) {pos : List (Val M)} {kw : Names M}
    (hk : (kw.map Prod.fst).Nodup) {check : Names M → Except PyExc Unit} {args : List (Val M × Option ℕ)} {est : Names M}
    (h : callSlq x.1 check pos kw = some (.ok (args, est))) :
    ∀ o ∈ checkedOptions (estimatorArguments est),
      (∀ v, kw.lookup o.1 = some (.py v) → o.2 = v) ∧
        ∀ d, (o.1, d) ∈ slq → kw.lookup o.1 = none → ¬ Misdocumented x.2 "slq" o.1 → o.2 = d := by
  obtain ⟨env, -, ⟨e, -, he⟩ | ⟨args', est', hr, -, -, -, hgiven, -, hdef⟩⟩ := slq_reaches_estimator hx hk h
  · cases he
  · injection hr with hr
    injection hr with h1 h2
    subst h2
    have key : ∀ n ∈ slq.map Prod.fst, ∀ w, w = ((est.lookup n).map Val.toPy).getD .none →
        (∀ v, kw.lookup n = some (.py v) → w = v) ∧
          ∀ d, (n, d) ∈ slq → kw.lookup n = none → ¬ Misdocumented x.2 "slq" n → w = d := by
      intro n hn w hw
      refine ⟨fun v hv => ?_, fun d hd hnone hmis => ?_⟩
      · rw [hw, hgiven n _ hn hv]; rfl
      · rw [hw, hdef n d hd hnone hmis]; rfl
    have hnames : ∀ o ∈ checkedOptions (estimatorArguments est), o.1 ∈ slq.map Prod.fst ∧
        o.2 = ((est.lookup o.1).map Val.toPy).getD .none := by
      intro o ho
      simp only [checkedOptions, List.mem_cons, List.not_mem_nil, or_false] at ho
      rcases ho with rfl | rfl | rfl | rfl | rfl | rfl | rfl | rfl | rfl | rfl | rfl | rfl | rfl | rfl | rfl <;>
        exact ⟨by simp [slq], rfl⟩
    intro o ho
    exact key o.1 (hnames o ho).1 o.2 (hnames o ho).2

/-- What the constructor of the function object is given: `Exponential(coeff)`, `Homographic(coeff[0], …, coeff[3])`,
`Indicator(interval[0], interval[1])` and `Gaussian(mu, sigma)`. -/
theorem slq_constructor_arguments :
    slqTable.map (fun x => (x.2.name, x.1.cls, x.1.arguments)) =
      [("trace", "Identity", []), ("traceinv", "Inverse", []), ("logdet", "Logarithm", []),
        ("trexp", "Exponential", [("coeff", none)]),
        ("trlinfrac", "Homographic", (List.range 4).map fun i => ("coeff", some i)),
        ("eigencount", "Indicator", (List.range 2).map fun i => ("interval", some i)),
        ("density", "Gaussian", [("mu", none), ("sigma", none)])] := by decide +kernel

/-- The hypotheses are met: `trexp(A, coeff=2.0, method='slq', lanczos_degree=30, p=2)`. -/
example (A : M) : ∃ est, callSlq slqTrexp (fun _ => .ok ()) [.mat A]
    [("coeff", .py (.float (.fin 2))), ("method", .py (.str "slq")), ("lanczos_degree", .py (.int 30)), ("p", .py (.int 2))] =
      some (.ok ([(.py (.float (.fin 2)), none)], est)) ∧ est.lookup "exponent" = some (.py (.int 2)) ∧
      est.lookup "lanczos_degree" = some (.py (.int 30)) ∧ est.lookup "lanczos_tol" = some (.py .none) :=
  ⟨_, rfl, rfl, rfl, rfl⟩

/-! ### The documented default values that are not in effect -/

/-- C95 refuted for `error_rtol`: left out it is `1e-2`, not `None`. -/
theorem rtol_omitted {x : Public × Doc} (hx : x ∈ table) {pos : List (Val M)} {kw env : Names M} {m : String}
    (hk : (kw.map Prod.fst).Nodup) (h : callPublic x.1 pos kw = .ok (m, env)) (hm : m = "slq" ∨ m = "hutchinson")
    (hkw : kw.lookup "error_rtol" = none) : env.lookup "error_rtol" = some (.py (.float (.fin (1 / 100)))) := by
  have hfact : ∀ x ∈ table, ∀ m ∈ x.1.methods, m.name = "slq" ∨ m.name = "hutchinson" →
      "error_rtol" ∉ names x.1.params ∧ ∃ q ∈ m.params, q.name = "error_rtol" ∧
        q.default = some (.float (.fin (1 / 100))) := by decide +kernel
  rcases callPublic_spec (table_wired x hx) pos kw hk with ⟨m', hm', env', hc, -, -, -, hopt⟩ | ⟨-, hc⟩
  · rw [hc] at h
    injection h with h
    obtain ⟨rfl, rfl⟩ := Prod.mk.inj h
    obtain ⟨h1, q, hq, hqn, hqd⟩ := hfact x hx m' hm' hm
    have := hopt q hq (hqn ▸ h1)
    rw [hqn, hkw, hqd] at this
    exact this
  · rcases hc with hc | ⟨hc, -⟩ <;> rw [hc] at h <;> cases h

/-- C95 refuted for `error_rtol`, at the C++ code: the tolerance is `1/100` when the option is left out, and `0` when it
is given the documented default value `None`. -/
theorem rtol_native {maxThreads : ℕ} {A : Operand} {parameters : PyVal} {a : Arguments} {p : Prepared}
    (h : prepare maxThreads A parameters a = .ok p) :
    (a.errorRtol = .float (.fin (1 / 100)) → p.native.rtol = .fin (1 / 100)) ∧
      (a.errorRtol = .none → p.native.rtol = .fin 0) := by
  have split : ∀ {α β : Type} {x : Except PyExc α} {f : α → Except PyExc β} {y : β}, (x >>= f) = .ok y →
      ∃ a, x = .ok a ∧ f a = .ok y := by
    intro α β x f y h
    cases x with
    | error e => cases h
    | ok a => exact ⟨a, rfl, h⟩
  unfold prepare at h
  obtain ⟨_, _, h⟩ := split h
  obtain ⟨op, _, h⟩ := split h
  obtain ⟨_, _, h⟩ := split h
  obtain ⟨_, _, h⟩ := split h
  obtain ⟨⟨_, t⟩, hc, h⟩ := split h
  obtain ⟨native, hn, h⟩ := split h
  have hs : checkTolerance a.errorRtol = .ok t := by
    unfold checkArguments at hc
    iterate 6 obtain ⟨_, _, hc⟩ := split hc
    obtain ⟨u, hu, hc⟩ := split hc
    iterate 12 obtain ⟨_, _, hc⟩ := split hc
    injection hc with hc
    rw [← (Prod.mk.inj hc).2]; exact hu
  have ht : toCFloat t = .ok native.rtol := by
    unfold toNative at hn
    iterate 8 obtain ⟨_, _, hn⟩ := split hn
    obtain ⟨z, hz, hn⟩ := split hn
    iterate 4 obtain ⟨_, _, hn⟩ := split hn
    injection hn with hn
    rw [← hn]; exact hz
  injection h with h
  have hp : p.native = native := by rw [← h]
  rw [hp]
  constructor
  · intro ha
    rw [ha] at hs
    have h1 : t = .float (.fin (1 / 100)) := by
      have : checkTolerance (.float (.fin (1 / 100))) = .ok (.float (.fin (1 / 100))) := by decide +kernel
      rw [this] at hs
      injection hs with hs
      exact hs.symm
    rw [h1] at ht
    injection ht with ht
    exact ht.symm
  · intro ha
    rw [ha] at hs
    injection hs with hs
    rw [← hs] at ht
    injection ht with ht
    exact ht.symm

/-- C95 refuted for `parameters`: the documentation says that one is the default; without them an operator that has a
parameter is refused, for all other arguments, whereas `1.0` is accepted. -/
theorem parameters_omitted (maxThreads : ℕ) (dt : DType) (rows cols k : ℕ) (a : Arguments) :
    (∃ e, prepare maxThreads (.operator dt rows cols (k + 1)) .none a = .error e) ∧
      getOperatorParameters .none dt = .ok .none ∧ findNumInquiries 1 (Parameters.size .none) = .error .valueError ∧
      getOperatorParameters (.float (.fin 1)) dt = .ok (.scalar (.float (.fin 1))) ∧
      findNumInquiries 1 (Parameters.size (.scalar (.float (.fin 1)))) = .ok 1 := by
  refine ⟨?_, rfl, rfl, rfl, rfl⟩
  unfold prepare
  cases setThreads maxThreads a.numThreads with
  | error e => exact ⟨e, rfl⟩
  | ok t =>
    show ∃ e, (getOperator (.operator dt rows cols (k + 1)) a.gram >>= _) = _
    cases hop : getOperator (.operator dt rows cols (k + 1)) a.gram with
    | error e => exact ⟨e, rfl⟩
    | ok op =>
      have hnum : op.numParameters = k + 1 := by
        unfold getOperator makeOperator at hop
        cases ht : truth a.gram with
        | error e => simp only [ht] at hop; cases hop
        | ok g =>
          simp only [ht] at hop
          change (if _ then _ else _ : Except PyExc Operator) = _ at hop
          split at hop
          · cases hop
          · split at hop
            · cases hop
            · injection hop with hop
              rw [← hop]
      refine ⟨.valueError, ?_⟩
      show (findNumInquiries op.numParameters 0 >>= _) = _
      rw [hnum]
      unfold findNumInquiries
      rw [if_neg (by omega), if_pos (by omega)]
      rfl

/-- C95 refuted for `orthogonalize` of Hutchinson's method: left out it is `True`, not `0`. -/
theorem hutchinson_orthogonalize_omitted {pos : List (Val M)} {kw env : Names M}
    (hk : (kw.map Prod.fst).Nodup) (h : callPublic traceinvFn pos kw = .ok ("hutchinson", env))
    (hkw : kw.lookup "orthogonalize" = none) : env.lookup "orthogonalize" = some (.py (.bool true)) := by
  have hfact : ∀ m ∈ traceinvFn.methods, m.name = "hutchinson" →
      "orthogonalize" ∉ names traceinvFn.params ∧ ∃ q ∈ m.params, q.name = "orthogonalize" ∧
        q.default = some (.bool true) := by decide +kernel
  have hx : (traceinvFn, traceinv) ∈ table := by simp [table]
  rcases callPublic_spec (table_wired _ hx) pos kw hk with ⟨m', hm', env', hc, -, -, -, hopt⟩ | ⟨-, hc⟩
  · rw [show callPublic traceinvFn pos kw = _ from hc] at h
    injection h with h
    obtain ⟨hmn, rfl⟩ := Prod.mk.inj h
    obtain ⟨h1, q, hq, hqn, hqd⟩ := hfact m' hm' hmn
    have := hopt q hq (hqn ▸ h1)
    rw [hqn, hkw, hqd] at this
    exact this
  · rcases hc with hc | ⟨hc, -⟩ <;> rw [show callPublic traceinvFn pos kw = _ from hc] at h <;> cases h

/-- C95 refuted for `p` of `traceinv` and `coeff` of `trlinfrac`: left out they are the integer `1` and four
coefficients, not `1.0` (which the default method refuses, see `cholesky_float_raises`) and five. -/
theorem arguments_omitted {kw env : Names M} {A : Val M} {m : String} (hk : (kw.map Prod.fst).Nodup) :
    (callPublic traceinvFn [A] kw = .ok (m, env) → kw.lookup "p" = none → env.lookup "p" = some (.py (.int 1))) ∧
      (callPublic trlinfracFn [A] kw = .ok (m, env) → kw.lookup "coeff" = none →
        env.lookup "coeff" = some (.py (floats [1, 0, 1, 1]))) := by
  refine ⟨fun h hkw => ?_, fun h hkw => ?_⟩
  · have hx : (traceinvFn, traceinv) ∈ table := by simp [table]
    rcases callPublic_spec (table_wired _ hx) [A] kw hk with ⟨m', hm', env', hc, -, -, hpub, -⟩ | ⟨-, hc⟩
    · rw [show callPublic traceinvFn [A] kw = _ from hc] at h
      injection h with h
      obtain ⟨-, rfl⟩ := Prod.mk.inj h
      have := hpub 2 (opt "p" (.int 1)) rfl (by decide)
      rw [show (opt "p" (.int 1)).name = "p" from rfl] at this
      rw [this]
      unfold valueAt
      rw [show (opt "p" (.int 1)).name = "p" from rfl, hkw]; rfl
    · rcases hc with hc | ⟨hc, -⟩ <;> rw [show callPublic traceinvFn [A] kw = _ from hc] at h <;> cases h
  · have hx : (trlinfracFn, trlinfrac) ∈ table := by simp [table]
    rcases callPublic_spec (table_wired _ hx) [A] kw hk with ⟨m', hm', env', hc, -, -, hpub, -⟩ | ⟨-, hc⟩
    · rw [show callPublic trlinfracFn [A] kw = _ from hc] at h
      injection h with h
      obtain ⟨-, rfl⟩ := Prod.mk.inj h
      have := hpub 3 (opt "coeff" (fltList [1, 0, 1, 1])) rfl (by decide)
      rw [show (opt "coeff" (fltList [1, 0, 1, 1])).name = "coeff" from rfl] at this
      rw [this]
      unfold valueAt
      rw [show (opt "coeff" (fltList [1, 0, 1, 1])).name = "coeff" from rfl, hkw]; rfl
    · rcases hc with hc | ⟨hc, -⟩ <;> rw [show callPublic trlinfracFn [A] kw = _ from hc] at h <;> cases h

/-! ### `schatten` -/

/-- The arguments of `schatten` in their documented order. -/
def schattenArguments : List (String × Option PyVal) :=
  [("A", none), ("gram", some (.bool false)), ("p", some (.float (.fin 2))), ("return_info", some (.bool false)),
    ("method", some (.str "eigenvalue"))]

/-- The value of argument number `i` of `schatten`: given, or the default one. -/
def schattenValue (pos : List (Val M)) (kw : Names M) (i : ℕ) : Option (Val M) :=
  match schattenArguments[i]? with
  | some (n, d) => (given pos kw i n).or (d.map .py)
  | none => none

/-- The documentation of what `schatten` calls. -/
def calleeDoc : Callee → Doc
  | .logdet => Spec.CallOptions.logdet
  | .trace => Spec.CallOptions.trace
  | .traceinv => Spec.CallOptions.traceinv

@[inherit_doc calleeDoc] def calleeFn : Callee → Public
  | .logdet => logdetFn
  | .trace => traceFn
  | .traceinv => traceinvFn

theorem callee_mem (c : Callee) : (calleeFn c, calleeDoc c) ∈ table := by
  cases c <;> simp [table, calleeFn, calleeDoc]

theorem callee_arguments (c : Callee) : (calleeDoc c).arguments[0]? = some ("A", none) ∧
    (calleeDoc c).arguments[1]? = some ("gram", some (.bool false)) ∧
    (calleeDoc c).arguments[2]? = some ("p", some (.float (.fin 1))) ∧
    (calleeDoc c).arguments[3]? = some ("return_info", some (.bool false)) ∧
    ∃ d, (calleeDoc c).arguments[4]? = some ("method", d) := by
  cases c <;> exact ⟨rfl, rfl, rfl, rfl, _, rfl⟩

theorem schatten_nodup : (names schattenParams).Nodup := by decide +kernel

theorem callee_options (c : Callee) : ∀ o ∈ (calleeDoc c).methods, ∀ n ∈ o.2.map Prod.fst,
    n ∉ names schattenParams := by
  cases c <;> decide +kernel

/-- What the function called by `schatten` hands to its method. -/
theorem schatten_call (c : Callee) (A gram return_info method : Val M) (p : PyVal) (kw : Names M)
    (hk : (kw.map Prod.fst).Nodup) {m : String} {env : Names M}
    (h : callPublic (calleeFn c) [A] ([("gram", gram), ("p", .py p), ("return_info", return_info),
      ("method", method)] ++ extra schattenParams kw) = .ok (m, env)) :
    method = .py (.str m) ∧ env.lookup "A" = some A ∧ env.lookup "gram" = some gram ∧
      env.lookup "p" = some (.py p) ∧ env.lookup "return_info" = some return_info ∧
      ∀ options, (m, options) ∈ (calleeDoc c).methods →
        (∀ n v, n ∈ options.map Prod.fst → kw.lookup n = some v → env.lookup n = some v) ∧
        ∀ n d, (n, d) ∈ options → kw.lookup n = none → ¬ Misdocumented (calleeDoc c) m n →
          env.lookup n = some (.py d) := by
  have hx := callee_mem c
  obtain ⟨a0, a1, a2, a3, d, a4⟩ := callee_arguments c
  have hmem : ∀ n ∈ ["gram", "p", "return_info", "method"], n ∈ names schattenParams := by decide +kernel
  have hk' : (([("gram", gram), ("p", .py p), ("return_info", return_info), ("method", method)] ++
      extra schattenParams kw : Names M).map Prod.fst).Nodup := by
    rw [List.map_append, List.nodup_append]
    refine ⟨by simp, ?_, ?_⟩
    · exact List.Nodup.sublist (List.Sublist.map _ List.filter_sublist) hk
    · intro a h1 b h2 hab
      subst hab
      exact ((mem_keys_extra schattenParams kw a).mp h2).2 (hmem a (by simpa using h1))
  have harr := fun i n (d : Option PyVal) (v : Val M) => arguments_arrive (i := i) (n := n) (d := d) (v := v) hx hk' h
  have hall := ((call_accepted_iff hx [A] _ hk' m).mp ⟨env, h⟩)
  obtain ⟨options, hal⟩ := hall
  have hmethod := hal.method 4 d a4
  refine ⟨?_, harr 0 "A" _ A a0 (by decide) rfl, harr 1 "gram" _ gram a1 (by decide) ?_,
    harr 2 "p" _ (.py p) a2 (by decide) ?_, harr 3 "return_info" _ return_info a3 (by decide) ?_, ?_⟩
  · have hg : given [A] ([("gram", gram), ("p", .py p), ("return_info", return_info), ("method", method)] ++
        extra schattenParams kw) 4 "method" = some method := by
      unfold given; rw [lookup_append_eq]; simp [lookup_cons_eq]
    rw [hg] at hmethod
    exact hmethod
  · unfold given; rw [lookup_append_eq]; simp [lookup_cons_eq]
  · unfold given; rw [lookup_append_eq]; simp [lookup_cons_eq]
  · unfold given; rw [lookup_append_eq]; simp [lookup_cons_eq]
  · intro options ho
    have hlook : ∀ n ∈ options.map Prod.fst, ([("gram", gram), ("p", .py p), ("return_info", return_info),
        ("method", method)] ++ extra schattenParams kw : Names M).lookup n = kw.lookup n := by
      intro n hn
      have hnp := callee_options c _ ho n hn
      rw [lookup_append_eq, (lookup_none_iff n _).mpr, Option.none_or, lookup_extra _ _ _ hnp]
      intro hc
      exact hnp (hmem n (by simpa using hc))
    refine ⟨fun n v hn hv => ?_, fun n d hn hv hmis => ?_⟩
    · exact options_arrive hx hk' h ho hn (by rw [hlook n hn]; exact hv)
    · exact (omitted_is_documented_partial hx hk' h).2 options ho n d hn
        (by rw [hlook n (List.mem_map_of_mem hn)]; exact hv) hmis

/-- C95: `schatten` calls `logdet` with exponent 1 when `p` is zero, `trace` with `p` when it is positive and `traceinv`
with the absolute value of `p` when it is negative, and all its other arguments and all options arrive at the method
under their names; options left out have the documented default value (but for the names in `Misdocumented`). -/
theorem schatten_forwards {pos : List (Val M)} {kw : Names M} (hk : (kw.map Prod.fst).Nodup) {c : Callee} {m : String}
    {env : Names M} (h : callSchatten pos kw = .ok (c, m, env)) :
    ∃ p x, schattenValue pos kw 2 = some (.py p) ∧ p.num = some x ∧
      (c = .logdet ∧ x = .fin 0 ∧ env.lookup "p" = some (.py (.float (.fin 1))) ∨
        c = .trace ∧ lt (.fin 0) x = true ∧ env.lookup "p" = some (.py p) ∨
        c = .traceinv ∧ lt x (.fin 0) = true ∧ ∃ q, env.lookup "p" = some (.py q) ∧ q.num = some (XR.abs x)) ∧
      env.lookup "A" = schattenValue pos kw 0 ∧ env.lookup "gram" = schattenValue pos kw 1 ∧
      env.lookup "return_info" = schattenValue pos kw 3 ∧ schattenValue pos kw 4 = some (.py (.str m)) ∧
      ∀ options, (m, options) ∈ (calleeDoc c).methods →
        (∀ n v, n ∈ options.map Prod.fst → kw.lookup n = some v → env.lookup n = some v) ∧
        ∀ n d, (n, d) ∈ options → kw.lookup n = none → ¬ Misdocumented (calleeDoc c) m n →
          env.lookup n = some (.py d) := by
  unfold callSchatten at h
  rcases bindParams_spec schattenParams schatten_nodup pos kw with ⟨env0, he, ha, -, hv⟩ | ⟨he, -⟩
  swap
  · rw [he] at h; cases h
  rw [he] at h
  have hval : ∀ i n d, schattenParams[i]? = some ⟨n, d⟩ → schattenArguments[i]? = some (n, d) →
      env0.lookup n = schattenValue pos kw i ∧ ∃ v, env0.lookup n = some v := by
    intro i n d h1 h2
    have h3 := hv i _ h1
    have h4 : schattenValue pos kw i = valueAt pos kw i ⟨n, d⟩ := by
      unfold schattenValue; rw [h2]; rfl
    exact ⟨by rw [h4]; exact h3, by
      obtain ⟨v, hv'⟩ := Option.isSome_iff_exists.mp (accepts_value ha h1)
      exact ⟨v, by rw [← hv']; exact h3⟩⟩
  obtain ⟨eA, A, hA⟩ := hval 0 "A" none rfl rfl
  obtain ⟨eg, gram, hg⟩ := hval 1 "gram" _ rfl rfl
  obtain ⟨ep, p, hp⟩ := hval 2 "p" _ rfl rfl
  obtain ⟨er, ri, hr⟩ := hval 3 "return_info" _ rfl rfl
  obtain ⟨em, meth, hm⟩ := hval 4 "method" _ rfl rfl
  rw [← eA, ← eg, ← ep, ← er, ← em, hA, hg, hp, hr, hm]
  replace h : schattenBranch A gram p ri meth (extra schattenParams kw) = .ok (c, m, env) := by
    change (localVar env0 "A" >>= _) = _ at h
    rw [localVar_ok hA] at h
    change (localVar env0 "gram" >>= _) = _ at h
    rw [localVar_ok hg] at h
    change (localVar env0 "p" >>= _) = _ at h
    rw [localVar_ok hp] at h
    change (localVar env0 "return_info" >>= _) = _ at h
    rw [localVar_ok hr] at h
    change (localVar env0 "method" >>= _) = _ at h
    rw [localVar_ok hm] at h
    exact h
  unfold schattenBranch at h
  have split : ∀ {α β : Type} {x : Except PyExc α} {f : α → Except PyExc β} {y : β}, (x >>= f) = .ok y →
      ∃ a, x = .ok a ∧ f a = .ok y := by
    intro α β x f y h
    cases x with
    | error e => cases h
    | ok a => exact ⟨a, rfl, h⟩
  cases p with
  | mat _ => cases h
  | function _ => cases h
  | py p =>
    simp only at h
    split at h
    · cases h
    next hint =>
    have habs : ∀ x : Num, p.num = some x → lt x (.fin 0) = true → (absOf p).num = some (XR.abs x) := by
      intro x hx hneg
      cases p with
      | bool b =>
        injection hx with hx
        rw [← hx] at hneg
        cases b <;> simp [lt, XR.lt] at hneg
        exact absurd hneg (by norm_num)
      | int z => injection hx with hx; rw [← hx]; simp [absOf, PyVal.num, XR.abs]
      | npInt z => injection hx with hx; rw [← hx]; simp [absOf, PyVal.num, XR.abs]
      | float y => injection hx with hx; rw [← hx]; rfl
      | none => cases hx
      | npBool b => simp [PyVal.isIntegerOrFloat] at hint
      | npFloat y => simp [PyVal.isIntegerOrFloat] at hint
      | complex => cases hx
      | str s => cases hx
      | array d n e => cases hx
      | list c => cases hx
      | tuple n => cases hx
      | other s => cases hx
    cases hnum : p.num with
    | none => rw [hnum] at h; cases h
    | some x =>
      refine ⟨p, x, rfl, hnum, ?_⟩
      rw [hnum] at h
      cases x with
      | nan => cases h
      | pinf =>
        obtain ⟨r, hr', h⟩ := split h
        injection h with h
        obtain ⟨rfl, rfl⟩ := Prod.mk.inj h
        obtain ⟨h1, h2, h3, h4, h5, h6⟩ := schatten_call .trace A gram ri meth p kw hk hr'
        exact ⟨Or.inr (Or.inl ⟨rfl, rfl, h4⟩), h2, h3, h5, by rw [h1], h6⟩
      | ninf =>
        obtain ⟨r, hr', h⟩ := split h
        injection h with h
        obtain ⟨rfl, rfl⟩ := Prod.mk.inj h
        obtain ⟨h1, h2, h3, h4, h5, h6⟩ := schatten_call .traceinv A gram ri meth (absOf p) kw hk hr'
        exact ⟨Or.inr (Or.inr ⟨rfl, rfl, _, h4, habs _ hnum rfl⟩), h2, h3, h5, by rw [h1], h6⟩
      | fin x =>
        simp only at h
        split at h
        · next h0 =>
          obtain ⟨r, hr', h⟩ := split h
          injection h with h
          obtain ⟨rfl, rfl⟩ := Prod.mk.inj h
          obtain ⟨h1, h2, h3, h4, h5, h6⟩ := schatten_call .logdet A gram ri meth _ kw hk hr'
          exact ⟨Or.inl ⟨rfl, by rw [h0], h4⟩, h2, h3, h5, by rw [h1], h6⟩
        · next h0 =>
          split at h
          · next h1' =>
            obtain ⟨r, hr', h⟩ := split h
            injection h with h
            obtain ⟨rfl, rfl⟩ := Prod.mk.inj h
            obtain ⟨h1, h2, h3, h4, h5, h6⟩ := schatten_call .trace A gram ri meth p kw hk hr'
            exact ⟨Or.inr (Or.inl ⟨rfl, decide_eq_true h1', h4⟩), h2, h3, h5, by rw [h1], h6⟩
          · next h1' =>
            have hneg : x < 0 := lt_of_le_of_ne (not_lt.mp h1') h0
            obtain ⟨r, hr', h⟩ := split h
            injection h with h
            obtain ⟨rfl, rfl⟩ := Prod.mk.inj h
            obtain ⟨h1, h2, h3, h4, h5, h6⟩ := schatten_call .traceinv A gram ri meth (absOf p) kw hk hr'
            exact ⟨Or.inr (Or.inr ⟨rfl, decide_eq_true hneg, _, h4, habs _ hnum (decide_eq_true hneg)⟩), h2, h3, h5, by rw [h1], h6⟩

/-- The hypotheses are met: `schatten(A, p=-2, method='cholesky', invert_cholesky=False)`. -/
example (A : M) : ∃ env, callSchatten [.mat A] [("p", .py (.int (-2))), ("method", .py (.str "cholesky")),
    ("invert_cholesky", .py (.bool false))] = .ok (.traceinv, "cholesky", env) ∧
    env.lookup "p" = some (.py (.npInt 2)) ∧ env.lookup "invert_cholesky" = some (.py (.bool false)) :=
  ⟨_, rfl, rfl, rfl⟩

/-- An order that is not a number is not refused by the check: no branch applies, and the function ends with
`UnboundLocalError`, whatever the other arguments. -/
theorem schatten_nan {pos : List (Val M)} {kw : Names M} (h : schattenValue pos kw 2 = some (.py (.float .nan))) :
    ∃ e, callSchatten pos kw = .error e ∧ (e = .unboundLocal ∨ e = .typeError) := by
  unfold callSchatten
  rcases bindParams_spec schattenParams schatten_nodup pos kw with ⟨env0, he, ha, -, hv⟩ | ⟨he, -⟩
  swap
  · exact ⟨.typeError, by rw [he]; rfl, Or.inr rfl⟩
  have hs : ∀ (i : ℕ) (q : Param), schattenParams[i]? = some q → ∃ v, env0.lookup q.name = some v := by
    intro i q h1
    obtain ⟨v, hv'⟩ := Option.isSome_iff_exists.mp (accepts_value ha h1)
    exact ⟨v, by rw [← hv']; exact hv i q h1⟩
  obtain ⟨A, hA⟩ := hs 0 (req "A") rfl
  obtain ⟨g, hg⟩ := hs 1 (opt "gram" (.bool false)) rfl
  obtain ⟨r, hr⟩ := hs 3 (opt "return_info" (.bool false)) rfl
  obtain ⟨m, hm⟩ := hs 4 (opt "method" (.str "eigenvalue")) rfl
  change env0.lookup "A" = _ at hA
  change env0.lookup "gram" = _ at hg
  change env0.lookup "return_info" = _ at hr
  change env0.lookup "method" = _ at hm
  have hp : env0.lookup "p" = some (.py (.float .nan)) := by
    rw [← h]
    exact hv 2 (opt "p" (.float (.fin 2))) rfl
  refine ⟨.unboundLocal, ?_, Or.inl rfl⟩
  rw [he]
  show (localVar env0 "A" >>= _) = _
  rw [localVar_ok hA]
  show (localVar env0 "gram" >>= _) = _
  rw [localVar_ok hg]
  show (localVar env0 "p" >>= _) = _
  rw [localVar_ok hp]
  show (localVar env0 "return_info" >>= _) = _
  rw [localVar_ok hr]
  show (localVar env0 "method" >>= _) = _
  rw [localVar_ok hm]
  rfl

end Imate.Props.CallOptions
