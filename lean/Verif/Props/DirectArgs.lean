import Verif.Lemmas.DirectArgs

/-!
# C88: the arguments of the exact, eigenvalue, Cholesky and Hutchinson methods

Which calls pass the checks, for arguments of any Python type, and how that set differs from the documented one.
-/

namespace Imate.Props.DirectArgs
open Imate.Args Imate.DirectArgs

theorem isMatrix_hasRows {A : MatArg} {r c : ℕ} (h : IsMatrix A r c) : HasRows A r c := by
  rcases h with rfl | rfl | rfl
  · exact .inl ⟨[], rfl⟩
  · exact .inr (.inl rfl)
  · exact .inr (.inr rfl)

theorem isNumber_isscalar {v : PyVal} (h : IsNumber v) : v.isscalar = true := by
  rcases h with ⟨_, rfl⟩ | ⟨_, rfl⟩ <;> rfl

theorem gram_iff {gram : PyVal} {r c : ℕ} {u : Unit} :
    checkGram gram (decide (r = c)) = .ok u ↔ GramFits gram r c := by
  simp [checkGram_ok, GramFits]

/-! ## Exact method -/

/-- The calls of the exact method that pass. -/
theorem exact_accepts_exactly (A : MatArg) (gram p info : PyVal) :
    checkExact A gram p info = .ok () ↔
      (∃ r c, HasRows A r c ∧ GramFits gram r c) ∧ p.isscalar = true ∧ IsBool info := by
  simp only [checkExact, bind_ok, checkSparse_ok, exponent_ok, checkReturnInfo_ok]
  constructor
  · rintro ⟨_, _, sq, hsq, _, hg, _, hp, hi⟩
    obtain ⟨r, c, hA, rfl⟩ := square_ok.1 hsq
    exact ⟨⟨r, c, hA, gram_iff.1 hg⟩, hp, hi⟩
  · rintro ⟨⟨r, c, hA, hg⟩, hp, hi⟩
    exact ⟨(), hA.ne_other, _, hA.square, (), gram_iff.2 hg, (), hp, hi⟩

/-- Documented calls pass. -/
theorem exact_documented {A : MatArg} {gram p info : PyVal} {r c : ℕ} (hA : IsMatrix A r c) (hg : GramFits gram r c)
    (hp : IsNumber p) (hi : IsBool info) : checkExact A gram p info = .ok () :=
  (exact_accepts_exactly ..).2 ⟨⟨r, c, isMatrix_hasRows hA, hg⟩, isNumber_isscalar hp, hi⟩

example : checkExact (.ndarray [5, 3]) (.bool true) (.int 2) (.bool false) = .ok () :=
  exact_documented (.inl rfl) ⟨true, rfl, by simp⟩ (.inl ⟨2, rfl⟩) ⟨false, rfl⟩

/-! ## Eigenvalue methods -/

/-- The calls of an eigenvalue method that pass: the same ones for `logdet` (`ints`) and the others. -/
theorem eigenvalue_accepts_exactly (ints : Bool) (a : EigArgs) :
    checkEigenvalue ints a = .ok () ↔ AcceptedEig a := by
  simp only [checkEigenvalue, bind_ok, checkSparse_ok, exponent_ok, checkReturnInfo_ok, checkAssume_ok,
    checkFraction_ok]
  constructor
  · rintro ⟨_, _, _, he, sq, hsq, _, hg, _, hp, _, hi, _, ⟨s, hs, ha⟩, hf⟩
    obtain ⟨r, c, hA, rfl⟩ := square_ok.1 hsq
    refine ⟨⟨r, c, hA, gram_iff.1 hg, (checkEigenvalues_ok hA).1 he⟩, hp, hi, ?_, hf⟩
    simp only [List.mem_cons, List.not_mem_nil, or_false] at hs
    rcases hs with rfl | rfl
    · exact .inl ha
    · exact .inr ha
  · rintro ⟨⟨r, c, hA, hg, he⟩, hp, hi, ha, hf⟩
    refine ⟨(), hA.ne_other, (), (checkEigenvalues_ok hA).2 he, _, hA.square, (), gram_iff.2 hg, (), hp, (), hi, (), ?_,
      hf⟩
    rcases ha with ha | ha
    · exact ⟨_, by simp, ha⟩
    · exact ⟨_, by simp, ha⟩

/-- Documented calls pass. -/
theorem eigenvalue_documented (ints : Bool) {a : EigArgs} (h : DocumentedEig a) : checkEigenvalue ints a = .ok () := by
  obtain ⟨⟨r, c, hA, hg, he⟩, hp, hi, ha, hf⟩ := h
  refine (eigenvalue_accepts_exactly ints a).2 ⟨⟨r, c, isMatrix_hasRows hA, hg, ?_⟩, isNumber_isscalar hp, hi, ha,
    .inr hf⟩
  rcases he with he | ⟨dt, l, he, hl⟩
  · exact .inl he
  · exact .inr ⟨dt, 1, l, he, hl⟩

/-- A call with all arguments documented. -/
def sampleEig : EigArgs where
  A := .spmatrix 2 2
  eigenvalues := .array .float64 1 [.fin 1, .fin 2]
  gram := .bool false
  p := .int 2
  returnInfo := .bool true
  assumeMatrix := .str "sym"
  fraction := .float (.fin (9 / 10))

theorem sampleEig_documented : DocumentedEig sampleEig where
  matrix := ⟨2, 2, .inr (.inl rfl), ⟨false, rfl, by simp⟩, .inr ⟨_, _, rfl, rfl⟩⟩
  p := .inl ⟨2, rfl⟩
  returnInfo := ⟨true, rfl⟩
  assumeMatrix := .inr rfl
  fraction := ⟨9 / 10, rfl, by norm_num, by norm_num⟩

example (ints : Bool) : checkEigenvalue ints sampleEig = .ok () := eigenvalue_documented ints sampleEig_documented

/-- Calls outside the documentation pass: in each, everything else is as documented. -/
theorem eigenvalue_accepts_undocumented (ints : Bool) {a : EigArgs} (h : DocumentedEig a) :
    (∀ s, checkEigenvalue ints {a with p := .str s} = .ok ()) ∧
    checkEigenvalue ints {a with p := .complex} = .ok () ∧
    checkEigenvalue ints {a with p := .float .nan} = .ok () ∧
    checkEigenvalue ints {a with fraction := .float .nan} = .ok () ∧
    (∀ r c d, GramFits a.gram r c → checkEigenvalue ints {a with A := .ndarray [r, c, d], eigenvalues := .none} = .ok ()) := by
  have h' := (eigenvalue_accepts_exactly ints a).1 (eigenvalue_documented ints h)
  refine ⟨fun s => ?_, ?_, ?_, ?_, fun r c d hg => ?_⟩ <;> rw [eigenvalue_accepts_exactly]
  · exact {h' with p := rfl}
  · exact {h' with p := rfl}
  · exact {h' with p := rfl}
  · exact {h' with fraction := .inl rfl}
  · exact {h' with matrix := ⟨r, c, .inl ⟨[d], rfl⟩, hg, .inl rfl⟩}

example : GramFits sampleEig.gram 3 3 := ⟨false, rfl, fun _ => rfl⟩

/-- A list of eigenvalues, which the documentation allows ("array_like"), is refused. -/
theorem eigenvalue_list_refused (ints : Bool) (a : EigArgs) (l : Except PyExc (ℕ × List Num)) :
    checkEigenvalue ints {a with eigenvalues := .list l} ≠ .ok () := by
  rw [Ne, eigenvalue_accepts_exactly]
  rintro ⟨⟨r, c, _, _, h | ⟨_, _, _, h, _⟩⟩, _, _, _, _⟩ <;> cases h

/-- With `gram` and a matrix with more rows than columns, the `cols` eigenvalues of the Gramian are refused and only an array
of `rows` numbers passes. -/
theorem eigenvalue_gram_wants_rows (ints : Bool) {a : EigArgs} (h : DocumentedEig a) (r c : ℕ) (dt : DType)
    (l : List Num) :
    checkEigenvalue ints {a with A := .ndarray [r, c], gram := .bool true, eigenvalues := .array dt 1 l} = .ok () ↔
      l.length = r := by
  rw [eigenvalue_accepts_exactly]
  have h' := (eigenvalue_accepts_exactly ints a).1 (eigenvalue_documented ints h)
  constructor
  · rintro ⟨⟨r', c', hA, _, h | ⟨_, _, _, h, hl⟩⟩, _, _, _, _⟩
    · cases h
    · have hA' : HasRows (.ndarray [r, c]) r c := .inl ⟨[], rfl⟩
      cases h
      rw [hl, (hA.unique hA').1]
  · intro hl
    exact {h' with matrix := ⟨r, c, .inl ⟨[], rfl⟩, ⟨true, rfl, by simp⟩, .inr ⟨_, _, _, rfl, hl⟩⟩}

/-- An integer is never a valid fraction, though the check of `logdet` names integers among the accepted types. -/
theorem integer_fraction_refused (ints : Bool) (a : EigArgs) {v : PyVal} {z : ℤ} (h : IsInt v z) :
    checkEigenvalue ints {a with fraction := v} ≠ .ok () := by
  rw [Ne, eigenvalue_accepts_exactly]
  rintro ⟨_, _, _, _, hf⟩
  rcases h with rfl | rfl | ⟨rfl, _⟩ | ⟨rfl, _⟩ <;> rcases hf with hf | ⟨_, hf, _⟩ <;> cases hf

/-! ## Cholesky methods -/

/-- The calls of the Cholesky method of `logdet` that pass, and the returned flag. -/
theorem logdet_cholesky_accepts_exactly (suitesparse : Bool) (A : MatArg) (gram p info cholmod : PyVal) (sq : Bool) :
    checkLogdetCholesky suitesparse A gram p info cholmod = .ok sq ↔
      (∃ r c, HasRows A r c ∧ GramFits gram r c ∧ sq = decide (r = c)) ∧ p.isscalar = true ∧ IsBool info ∧
        CholmodFits suitesparse cholmod := by
  simp only [checkLogdetCholesky, bind_ok, checkSparse_ok, exponent_ok, checkReturnInfo_ok, checkCholmod_ok,
    Except.ok.injEq]
  constructor
  · rintro ⟨_, _, sq', hsq, _, hg, _, hp, _, hi, _, hc, rfl⟩
    obtain ⟨r, c, hA, rfl⟩ := square_ok.1 hsq
    exact ⟨⟨r, c, hA, gram_iff.1 hg, rfl⟩, hp, hi, hc⟩
  · rintro ⟨⟨r, c, hA, hg, rfl⟩, hp, hi, hc⟩
    exact ⟨(), hA.ne_other, _, hA.square, (), gram_iff.2 hg, (), hp, (), hi, (), hc, rfl⟩

example : checkLogdetCholesky false (.sparray 3 3) (.bool false) (.float (.fin 2)) (.bool false) .none = .ok true :=
  (logdet_cholesky_accepts_exactly ..).2
    ⟨⟨3, 3, .inr (.inr rfl), ⟨false, rfl, by simp⟩, rfl⟩, rfl, ⟨false, rfl⟩, .inl rfl⟩

/-- The calls of the Cholesky method of `traceinv` that pass, and the returned flag. -/
theorem traceinv_cholesky_accepts_exactly (suitesparse : Bool) (A : MatArg) (B : Option MatArg)
    (gram p info inv cholmod : PyVal) (sq : Bool) :
    checkTraceinvCholesky suitesparse A B gram p info inv cholmod = .ok sq ↔
      (∃ r c, HasRows A r c ∧ (∀ r c, A ≠ .sparray r c) ∧ (∀ B', B = some B' → SecondFits A r c B') ∧
        GramFits gram r c ∧ sq = decide (r = c)) ∧
      (∃ z, IsInt p z) ∧ IsBool info ∧ IsBool inv ∧ CholmodFits suitesparse cholmod := by
  have hint : p.isscalar = true ∧ (!p.isInteger) = false ↔ ∃ z, IsInt p z := by
    constructor
    · rintro ⟨_, h⟩
      exact ⟨_, isInteger_isInt (by simpa using h)⟩
    · rintro ⟨z, h⟩
      refine ⟨?_, by simpa using (isInt_isInteger h).1⟩
      rcases h with rfl | rfl | ⟨rfl, _⟩ | ⟨rfl, _⟩ <;> rfl
  have hbool (v : PyVal) : (!v.isBool) = false ↔ IsBool v := by cases v <;> simp [PyVal.isBool, IsBool]
  rw [← hint]
  unfold checkTraceinvCholesky
  cases B with
  | none =>
    simp only [bind_ok, checkSpmatrix_ok, exponent_ok, checkReturnInfo_ok, checkCholmod_ok, Except.ok.injEq,
      raise_ok, hbool]
    constructor
    · rintro ⟨_, ⟨_, hA'⟩, sq', hsq, _, _, _, hg, _, hp, _, hp', _, hi, _, hv, _, hc, rfl⟩
      obtain ⟨r, c, hA, rfl⟩ := square_ok.1 hsq
      exact ⟨⟨r, c, hA, hA', by simp, gram_iff.1 hg, rfl⟩, ⟨hp, hp'⟩, hi, hv, hc⟩
    · rintro ⟨⟨r, c, hA, hA', _, hg, rfl⟩, ⟨hp, hp'⟩, hi, hv, hc⟩
      exact ⟨(), ⟨hA.ne_other, hA'⟩, _, hA.square, (), trivial, (), gram_iff.2 hg, (), hp, (), hp', (), hi, (), hv, (),
        hc, rfl⟩
  | some B =>
    simp only [bind_ok, checkSpmatrix_ok, exponent_ok, checkReturnInfo_ok, checkCholmod_ok, Except.ok.injEq,
      raise_ok, hbool]
    constructor
    · rintro ⟨_, ⟨_, hA'⟩, sq', hsq, _, hB, _, hg, _, hp, _, hp', _, hi, _, hv, _, hc, rfl⟩
      obtain ⟨r, c, hA, rfl⟩ := square_ok.1 hsq
      refine ⟨⟨r, c, hA, hA', ?_, gram_iff.1 hg, rfl⟩, ⟨hp, hp'⟩, hi, hv, hc⟩
      rintro _ ⟨⟩
      exact (checkSecond_ok hA hA').1 hB
    · rintro ⟨⟨r, c, hA, hA', hB, hg, rfl⟩, ⟨hp, hp'⟩, hi, hv, hc⟩
      exact ⟨(), ⟨hA.ne_other, hA'⟩, _, hA.square, (), (checkSecond_ok hA hA').2 (hB _ rfl), (), gram_iff.2 hg, (), hp,
        (), hp', (), hi, (), hv, (), hc, rfl⟩

example : checkTraceinvCholesky false (.spmatrix 3 3) (some (.spmatrix 3 3)) (.bool false) (.int 2) (.bool false)
    (.bool true) (.bool false) = .ok true :=
  (traceinv_cholesky_accepts_exactly ..).2
    ⟨⟨3, 3, .inr (.inl rfl), by simp, by rintro _ ⟨⟩; simp [SecondFits, MatArg.shape],
      ⟨false, rfl, by simp⟩, rfl⟩, ⟨2, .inl rfl⟩, ⟨false, rfl⟩, ⟨true, rfl⟩, .inr (.inl rfl)⟩

/-- `traceinv` with the Cholesky method refuses an exponent that is a float, such as `1.0`; `logdet` with the Cholesky
method and the exact and eigenvalue methods take it. -/
theorem float_exponent_refused_by_traceinv_only (suitesparse : Bool) (x : Num) :
    (∀ A B gram info inv cholmod sq,
      checkTraceinvCholesky suitesparse A B gram (.float x) info inv cholmod ≠ .ok sq) ∧
    (∀ A gram info cholmod sq, checkLogdetCholesky suitesparse A gram (.int 1) info cholmod = .ok sq →
      checkLogdetCholesky suitesparse A gram (.float x) info cholmod = .ok sq) ∧
    (∀ A gram info, checkExact A gram (.int 1) info = .ok () → checkExact A gram (.float x) info = .ok ()) ∧
    ∀ ints (a : EigArgs), checkEigenvalue ints {a with p := .int 1} = .ok () →
      checkEigenvalue ints {a with p := .float x} = .ok () := by
  refine ⟨fun A B gram info inv cholmod sq h => ?_, fun A gram info cholmod sq h => ?_, fun A gram info h => ?_,
    fun ints a h => ?_⟩
  · obtain ⟨_, ⟨z, hz⟩, _⟩ := (traceinv_cholesky_accepts_exactly ..).1 h
    rcases hz with h | h | ⟨h, _⟩ | ⟨h, _⟩ <;> cases h
  · rw [logdet_cholesky_accepts_exactly] at h ⊢
    exact ⟨h.1, rfl, h.2.2⟩
  · rw [exact_accepts_exactly] at h ⊢
    exact ⟨h.1, rfl, h.2.2⟩
  · rw [eigenvalue_accepts_exactly] at h ⊢
    exact {h with p := rfl}

/-- The sparse arrays of SciPy pass in the exact, eigenvalue and `logdet` Cholesky methods, and are refused by the Cholesky
and Hutchinson methods of `traceinv`. -/
theorem sparse_arrays (suitesparse : Bool) (n : ℕ) :
    checkExact (.sparray n n) (.bool false) (.int 1) (.bool false) = .ok () ∧
    checkLogdetCholesky suitesparse (.sparray n n) (.bool false) (.int 1) (.bool false) .none = .ok true ∧
    (∀ B gram p info inv cholmod,
      checkTraceinvCholesky suitesparse (.sparray n n) B gram p info inv cholmod = .error .typeError) ∧
    ∀ a : HutchArgs, a.A = .sparray n n → checkHutchinson a = .error .typeError := by
  refine ⟨exact_documented (.inr (.inr rfl)) ⟨false, rfl, fun _ => rfl⟩ (.inl ⟨1, rfl⟩) ⟨false, rfl⟩, ?_,
    fun _ _ _ _ _ _ => rfl, fun a ha => ?_⟩
  · exact (logdet_cholesky_accepts_exactly ..).2
      ⟨⟨n, n, .inr (.inr rfl), ⟨false, rfl, fun _ => rfl⟩, by simp⟩, rfl, ⟨false, rfl⟩, .inl rfl⟩
  · unfold checkHutchinson
    rw [ha]
    rfl

/-! ## Hutchinson method -/

theorem checkMatrices_ok {A : MatArg} {B C : Option MatArg} {sq : Bool} :
    checkMatrices A B C = .ok sq ↔ ∃ r c, HasRows A r c ∧ (∀ r c, A ≠ .sparray r c) ∧
      (∀ B', B = some B' → SecondFits A r c B') ∧ (∀ C', C = some C' → B ≠ none ∧ SecondFits A r c C') ∧
      sq = decide (r = c) := by
  unfold checkMatrices
  cases B with
  | none =>
    cases C with
    | none =>
      simp only [bind_ok, checkSpmatrix_ok, Except.ok.injEq]
      constructor
      · rintro ⟨_, ⟨_, hA'⟩, sq', hsq, _, _, _, _, rfl⟩
        obtain ⟨r, c, hA, rfl⟩ := square_ok.1 hsq
        exact ⟨r, c, hA, hA', by simp, by simp, rfl⟩
      · rintro ⟨r, c, hA, hA', _, _, rfl⟩
        exact ⟨(), ⟨hA.ne_other, hA'⟩, _, hA.square, (), trivial, (), trivial, rfl⟩
    | some C =>
      simp [bind_ok, raise_ok]
  | some B =>
    cases C with
    | none =>
      simp only [bind_ok, checkSpmatrix_ok, Except.ok.injEq]
      constructor
      · rintro ⟨_, ⟨_, hA'⟩, sq', hsq, _, hB, _, _, rfl⟩
        obtain ⟨r, c, hA, rfl⟩ := square_ok.1 hsq
        refine ⟨r, c, hA, hA', ?_, by simp, rfl⟩
        rintro _ ⟨⟩
        exact (checkSecond_ok hA hA').1 hB
      · rintro ⟨r, c, hA, hA', hB, _, rfl⟩
        exact ⟨(), ⟨hA.ne_other, hA'⟩, _, hA.square, (), (checkSecond_ok hA hA').2 (hB _ rfl), (), trivial, rfl⟩
    | some C =>
      simp only [bind_ok, checkSpmatrix_ok, Except.ok.injEq, raise_ok]
      constructor
      · rintro ⟨_, ⟨_, hA'⟩, sq', hsq, _, hB, _, _, _, hC, rfl⟩
        obtain ⟨r, c, hA, rfl⟩ := square_ok.1 hsq
        refine ⟨r, c, hA, hA', ?_, ?_, rfl⟩
        · rintro _ ⟨⟩
          exact (checkSecond_ok hA hA').1 hB
        · rintro _ ⟨⟩
          exact ⟨by simp, (checkSecond_ok hA hA').1 hC⟩
      · rintro ⟨r, c, hA, hA', hB, hC, rfl⟩
        exact ⟨(), ⟨hA.ne_other, hA'⟩, _, hA.square, (), (checkSecond_ok hA hA').2 (hB _ rfl), (),
          rfl, (), (checkSecond_ok hA hA').2 (hC _ rfl).2, rfl⟩

theorem isInt_intValue {v : PyVal} {z : ℤ} (h : IsInt v z) : v.intValue = z := (isInt_isInteger h).2

theorem checkStatistics_ok {a : HutchArgs} {w w' : PyVal} :
    checkStatistics a = .ok (w, w') ↔
      (∃ m M : ℤ, IsInt a.minNumSamples m ∧ IsInt a.maxNumSamples M ∧ 1 ≤ m ∧ m ≤ M) ∧
      (TolPasses a.errorAtol ∧ (a.errorAtol = .none ∧ w = .float (.fin 0) ∨ a.errorAtol ≠ .none ∧ w = a.errorAtol)) ∧
      (TolPasses a.errorRtol ∧ (a.errorRtol = .none ∧ w' = .float (.fin 0) ∨ a.errorRtol ≠ .none ∧ w' = a.errorRtol)) ∧
      ∃ x y, IsPlainReal a.confidenceLevel x ∧ IsPlainReal a.outlierSignificanceLevel y ∧ LevelsPass x y := by
  simp only [checkStatistics, bind_ok, checkInteger_ok', checkTol_ok, outlierLevel_ok, raise_ok,
    Except.ok.injEq, Prod.mk.injEq, decide_eq_false_iff_not]
  constructor
  · rintro ⟨_, ⟨m, hm, hm1⟩, _, ⟨M, hM, _⟩, _, hle, v, hv, v', hv', x, ⟨hx, hx'⟩, y, ⟨hy, hy'⟩, _, hxy, rfl, rfl⟩
    rw [isInt_intValue hm, isInt_intValue hM] at hle
    exact ⟨⟨m, M, hm, hM, hm1, not_lt.1 hle⟩, hv, hv', x, y, hx, hy, hx', hy', (levels_pass hx' hy').1 hxy⟩
  · rintro ⟨⟨m, M, hm, hM, hm1, hle⟩, hv, hv', x, y, hx, hy, hx', hy', hxy⟩
    refine ⟨(), ⟨m, hm, hm1⟩, (), ⟨M, hM, hm1.trans hle⟩, (), ?_, w, hv, w', hv', x, ⟨hx, hx'⟩, y, ⟨hy, hy'⟩, (),
      (levels_pass hx' hy').2 hxy, rfl, rfl⟩
    rw [isInt_intValue hm, isInt_intValue hM]
    exact not_lt.2 hle

/-- The calls of the Hutchinson method that pass; the tolerances that are used are the given ones, or zero for `None`; and
the flag says whether the matrix is square. -/
theorem hutchinson_accepts_exactly (a : HutchArgs) (atol rtol : PyVal) (sq : Bool) :
    checkHutchinson a = .ok (atol, rtol, sq) ↔
      AcceptedHutch a ∧
      (a.errorAtol = .none ∧ atol = .float (.fin 0) ∨ a.errorAtol ≠ .none ∧ atol = a.errorAtol) ∧
      (a.errorRtol = .none ∧ rtol = .float (.fin 0) ∨ a.errorRtol ≠ .none ∧ rtol = a.errorRtol) ∧
      ∃ r c, HasRows a.A r c ∧ sq = decide (r = c) := by
  simp only [checkHutchinson, bind_ok, checkBool_ok', exponent_ok, checkReturnInfo_ok, checkAssume_ok,
    lanczosTol_ok, seed_ok, checkInteger_ok', Except.ok.injEq, Prod.mk.injEq]
  constructor
  · rintro ⟨sq', hm, _, hg, _, hp, _, hi, _, ha, ⟨w, w'⟩, hs, _, ht, _, ho, _, hse, _, hn, _, hv, _, hpl, rfl, rfl,
      rfl⟩
    obtain ⟨r, c, hA, hA', hB, hC, rfl⟩ := checkMatrices_ok.1 hm
    obtain ⟨hmM, hat, hrt, hl⟩ := checkStatistics_ok.1 hs
    exact ⟨⟨⟨r, c, hA, hA', hB, hC⟩, hg, hp, hi, ha, hmM, hat.1, hrt.1, hl, ht, ho, hse, hn, hv, hpl⟩, hat.2, hrt.2, r,
      c, hA, rfl⟩
  · rintro ⟨⟨⟨r, c, hA, hA', hB, hC⟩, hg, hp, hi, ha, hmM, hat, hrt, hl, ht, ho, hse, hn, hv, hpl⟩, hat', hrt', r', c',
      h', rfl⟩
    obtain ⟨rfl, rfl⟩ := h'.unique hA
    exact ⟨_, checkMatrices_ok.2 ⟨r', c', hA, hA', hB, hC, rfl⟩, (), hg, (), hp, (), hi, (), ha, (atol, rtol),
      checkStatistics_ok.2 ⟨hmM, ⟨hat, hat'⟩, ⟨hrt, hrt'⟩, hl⟩, (), ht, (), ho, (), hse, (), hn, (), hv, (), hpl, rfl,
      rfl, rfl⟩

/-- A call with the documented default values, but for `orthogonalize`. -/
def sampleHutch : HutchArgs where
  A := .spmatrix 4 4
  B := some (.spmatrix 4 4)
  C := none
  gram := .bool false
  p := .int 1
  returnInfo := .bool false
  assumeMatrix := .str "gen"
  minNumSamples := .int 10
  maxNumSamples := .int 50
  errorAtol := .none
  errorRtol := .float (.fin (1 / 100))
  confidenceLevel := .float (.fin (95 / 100))
  outlierSignificanceLevel := .float (.fin (1 / 1000))
  solverTol := .float (.fin (1 / 1000000))
  orthogonalize := .bool true
  seed := .none
  numThreads := .int 0
  verbose := .bool false
  plot := .bool false

theorem sampleHutch_accepted : AcceptedHutch sampleHutch where
  matrices := ⟨4, 4, .inr (.inl rfl), by simp [sampleHutch],
    by rintro _ ⟨⟩; simp [SecondFits, sampleHutch, MatArg.shape], by simp [sampleHutch]⟩
  gram := ⟨_, rfl⟩
  p := rfl
  returnInfo := ⟨_, rfl⟩
  assumeMatrix := ⟨"gen", by simp, rfl⟩
  samples := ⟨10, 50, .inl rfl, .inl rfl, by norm_num, by norm_num⟩
  atol := .inl rfl
  rtol := .inr ⟨_, .inr rfl, .inr (by norm_num [NonNegative])⟩
  levels := ⟨_, _, .inr rfl, .inr rfl, .inr (by norm_num [InUnit]), .inr (by norm_num [InUnit]), by
    rintro _ _ ⟨⟩ ⟨⟩; norm_num⟩
  solverTol := .inr ⟨_, .inr rfl, .inr (by norm_num [NonNegative])⟩
  orthogonalize := ⟨_, rfl⟩
  seed := .inl rfl
  numThreads := ⟨0, .inl rfl, le_refl _⟩
  verbose := ⟨_, rfl⟩
  plot := ⟨_, rfl⟩

example : checkHutchinson sampleHutch = .ok (.float (.fin 0), .float (.fin (1 / 100)), true) :=
  (hutchinson_accepts_exactly ..).2
    ⟨sampleHutch_accepted, .inl ⟨rfl, rfl⟩, .inr ⟨by simp [sampleHutch], rfl⟩, 4, 4, .inr (.inl rfl), rfl⟩

/-- An integer for `orthogonalize` is refused, also the documented default `0`. -/
theorem hutchinson_integer_orthogonalize_refused (a : HutchArgs) (z : ℤ) (x) :
    checkHutchinson {a with orthogonalize := .int z} ≠ .ok x := by
  rintro h
  obtain ⟨w, w', sq⟩ := x
  obtain ⟨⟨_, h⟩, _⟩ := And.intro ((hutchinson_accepts_exactly ..).1 h).1.orthogonalize trivial
  cases h

/-- A matrix that is not square passes without `gram`. -/
theorem hutchinson_accepts_nonsquare {a : HutchArgs} (h : AcceptedHutch a) (r c : ℕ) :
    ∃ x y, checkHutchinson {a with A := .ndarray [r, c], B := none, C := none, gram := .bool false} =
      .ok (x, y, decide (r = c)) := by
  have key : ∀ v : PyVal, ∃ w, v = .none ∧ w = .float (.fin 0) ∨ v ≠ .none ∧ w = v := by
    intro v
    by_cases hv : v = .none
    · exact ⟨_, .inl ⟨hv, rfl⟩⟩
    · exact ⟨_, .inr ⟨hv, rfl⟩⟩
  obtain ⟨w, hw⟩ := key a.errorAtol
  obtain ⟨w', hw'⟩ := key a.errorRtol
  refine ⟨w, w', (hutchinson_accepts_exactly ..).2 ⟨?_, hw, hw', r, c, .inl ⟨[], rfl⟩, rfl⟩⟩
  exact {h with
    matrices := ⟨r, c, .inl ⟨[], rfl⟩, by simp, by simp, by simp⟩
    gram := ⟨false, rfl⟩}

/-- `nan` passes as a tolerance and as a level, a negative number as the seed, and a string as the exponent. -/
theorem hutchinson_accepts_undocumented {a : HutchArgs} (h : AcceptedHutch a) (z : ℤ) (s : String) :
    AcceptedHutch {a with errorAtol := .float .nan, errorRtol := .float .nan, confidenceLevel := .float .nan,
                          solverTol := .float .nan, seed := .int z, p := .str s} := by
  obtain ⟨x, y, hx, hy, _, hy', _⟩ := h.levels
  exact {h with
    atol := .inr ⟨_, .inr rfl, .inl rfl⟩
    rtol := .inr ⟨_, .inr rfl, .inl rfl⟩
    solverTol := .inr ⟨_, .inr rfl, .inl rfl⟩
    levels := ⟨.nan, y, .inr rfl, hy, .inl rfl, hy', by simp⟩
    seed := .inr ⟨z, .inl rfl⟩
    p := rfl}

example : AcceptedHutch {sampleHutch with errorAtol := .float .nan, errorRtol := .float .nan, confidenceLevel := .float .nan,
                                          solverTol := .float .nan, seed := .int (-1), p := .str "a"} :=
  hutchinson_accepts_undocumented sampleHutch_accepted (-1) "a"

/-! ## Exceptions -/

/-- A `TypeError` or a `ValueError`. -/
def Rejected (e : PyExc) : Prop := e = .typeError ∨ e = .valueError

theorem raise_rejected {c : Bool} {e e' : PyExc} (he : Rejected e) (h : raiseIf c e = .error e') : Rejected e' := by
  rw [raise_error] at h
  exact h.2 ▸ he

theorem checkSparse_rejected {A : MatArg} {e : PyExc} (h : checkSparse A = .error e) : Rejected e :=
  raise_rejected (.inl rfl) h

theorem checkSpmatrix_rejected {A : MatArg} {e : PyExc} (h : checkSpmatrix A = .error e) : Rejected e :=
  raise_rejected (.inl rfl) h

theorem square_raises {A : MatArg} {e : PyExc} (hA : A ≠ .other) (h : square A = .error e) :
    e = .indexError ∧ ∃ s, A = .ndarray s ∧ s.length < 2 := by
  cases A with
  | ndarray s =>
    match s with
    | [] => cases h; exact ⟨rfl, _, rfl, by simp⟩
    | [a] => cases h; exact ⟨rfl, _, rfl, by simp⟩
    | a :: b :: rest => cases h
  | other => exact absurd rfl hA
  | spmatrix r c => cases h
  | sparray r c => cases h

theorem checkGram_rejected {gram : PyVal} {sq : Bool} {e : PyExc} (h : checkGram gram sq = .error e) : Rejected e := by
  unfold checkGram at h
  cases gram with
  | bool g => exact raise_rejected (.inr rfl) h
  | other s => cases s <;> cases h <;> exact .inl rfl
  | _ => cases h; exact .inl rfl

theorem checkBool_rejected {v : PyVal} {e : PyExc} (h : checkBool v = .error e) : Rejected e := by
  cases v with
  | bool g => cases h
  | other s => cases s <;> cases h <;> exact .inl rfl
  | _ => cases h; exact .inl rfl

theorem exponent_rejected {v : PyVal} {e : PyExc} (h : checkExponent v = .error e) : Rejected e := by
  cases v with
  | other s => cases s <;> cases h; exact .inl rfl
  | _ => cases h <;> exact .inl rfl

theorem assume_rejected {e' : PyExc} (he : Rejected e') {l : List String} {v : PyVal} {e : PyExc}
    (h : checkAssume e' l v = .error e) : Rejected e := by
  cases v with
  | none => cases h; exact he
  | str s => exact raise_rejected (.inr rfl) h
  | _ => cases h; exact .inl rfl

theorem fraction_rejected {ints : Bool} {v : PyVal} {e : PyExc} (h : checkFraction ints v = .error e) : Rejected e := by
  cases v with
  | float x => exact raise_rejected (.inr rfl) h
  | int x => cases ints with
    | true => exact raise_rejected (.inr rfl) h
    | false => cases h; exact .inl rfl
  | bool x => cases ints with
    | true => exact raise_rejected (.inr rfl) h
    | false => cases h; exact .inl rfl
  | other s => cases s <;> cases ints <;> cases h <;> exact .inl rfl
  | _ => cases ints <;> cases h <;> exact .inl rfl

theorem cholmod_raises {s : Bool} {v : PyVal} {e : PyExc} (h : checkCholmod s v = .error e) :
    Rejected e ∨ e = .runtimeError ∧ v = .bool true ∧ s = false := by
  cases v with
  | none => cases h
  | bool b =>
    cases b <;> cases s <;> cases h
    exact .inr ⟨rfl, rfl, rfl⟩
  | _ => cases h; exact .inl (.inl rfl)

/-- A failing check of the exact method raises a `TypeError` or a `ValueError`, except that an array with fewer than two
dimensions raises an `IndexError`. -/
theorem exact_raises {A : MatArg} {gram p info : PyVal} {e : PyExc} (h : checkExact A gram p info = .error e) :
    Rejected e ∨ e = .indexError ∧ ∃ s, A = .ndarray s ∧ s.length < 2 := by
  rcases bind_error.1 h with h | ⟨_, hA, h⟩
  · exact .inl (checkSparse_rejected h)
  rcases bind_error.1 h with h | ⟨_, _, h⟩
  · exact .inr (square_raises (checkSparse_ok.1 hA) h)
  rcases bind_error.1 h with h | ⟨_, _, h⟩
  · exact .inl (checkGram_rejected h)
  rcases bind_error.1 h with h | ⟨_, _, h⟩
  · exact .inl (exponent_rejected h)
  · exact .inl (raise_rejected (.inl rfl) h)

example : checkExact (.ndarray [3]) (.bool true) (.int 1) (.bool false) = .error .indexError := rfl

/-- The same for the eigenvalue methods. -/
theorem eigenvalue_raises {ints : Bool} {a : EigArgs} {e : PyExc} (h : checkEigenvalue ints a = .error e) :
    Rejected e ∨ e = .indexError ∧ ∃ s, a.A = .ndarray s ∧ s.length < 2 := by
  rcases bind_error.1 h with h | ⟨_, hA, h⟩
  · exact .inl (checkSparse_rejected h)
  have hA := checkSparse_ok.1 hA
  rcases bind_error.1 h with h | ⟨_, _, h⟩
  · unfold checkEigenvalues at h
    split at h
    · cases h
    · rcases bind_error.1 h with h | ⟨_, _, h⟩
      · refine .inr (square_raises hA ?_)
        unfold square
        rw [h]
        rfl
      · exact .inl (raise_rejected (.inr rfl) h)
    · cases h
      exact .inl (.inl rfl)
  rcases bind_error.1 h with h | ⟨_, _, h⟩
  · exact .inr (square_raises hA h)
  rcases bind_error.1 h with h | ⟨_, _, h⟩
  · exact .inl (checkGram_rejected h)
  rcases bind_error.1 h with h | ⟨_, _, h⟩
  · exact .inl (exponent_rejected h)
  rcases bind_error.1 h with h | ⟨_, _, h⟩
  · exact .inl (raise_rejected (.inl rfl) h)
  rcases bind_error.1 h with h | ⟨_, _, h⟩
  · exact .inl (assume_rejected (.inl rfl) h)
  · exact .inl (fraction_rejected h)

example : checkEigenvalue true {sampleEig with fraction := .int 1} = .error .valueError := rfl

/-- For the Cholesky method of `logdet` there is also the `RuntimeError` of `cholmod=True` without scikit-sparse. -/
theorem logdet_cholesky_raises {s : Bool} {A : MatArg} {gram p info cholmod : PyVal} {e : PyExc}
    (h : checkLogdetCholesky s A gram p info cholmod = .error e) :
    Rejected e ∨ (e = .indexError ∧ ∃ s, A = .ndarray s ∧ s.length < 2) ∨
      e = .runtimeError ∧ cholmod = .bool true ∧ s = false := by
  rcases bind_error.1 h with h | ⟨_, hA, h⟩
  · exact .inl (checkSparse_rejected h)
  rcases bind_error.1 h with h | ⟨_, _, h⟩
  · exact .inr (.inl (square_raises (checkSparse_ok.1 hA) h))
  rcases bind_error.1 h with h | ⟨_, _, h⟩
  · exact .inl (checkGram_rejected h)
  rcases bind_error.1 h with h | ⟨_, _, h⟩
  · exact .inl (exponent_rejected h)
  rcases bind_error.1 h with h | ⟨_, _, h⟩
  · exact .inl (raise_rejected (.inl rfl) h)
  rcases bind_error.1 h with h | ⟨_, _, h⟩
  · exact (cholmod_raises h).imp_right .inr
  · cases h

example : checkLogdetCholesky false (.ndarray [3, 3]) (.bool false) (.int 1) (.bool false) (.bool true) =
    .error .runtimeError := rfl

end Imate.Props.DirectArgs
