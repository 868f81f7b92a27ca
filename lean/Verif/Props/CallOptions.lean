import Verif.Lemmas.CallWired
import Verif.Props.Args

/-!
# C95: the arguments of a call arrive at the method they name

The documentation of every function: its arguments, its methods, the options of every method and their default values
(`Verif.Spec.CallOptions`).
-/

namespace Imate.Props.CallOptions

open Imate.Args Imate.CallOptions Imate.Spec.CallOptions

deriving instance DecidableEq for Except
deriving instance DecidableEq for PyVal

variable {M : Type}

/-- The functions and their documentation. -/
def table : List (Public × Doc) :=
  [(traceFn, Spec.CallOptions.trace), (traceinvFn, traceinv), (logdetFn, logdet), (trexpFn, trexp),
    (trlinfracFn, trlinfrac), (eigencountFn, eigencount), (densityFn, density)]

/-- The finite facts about the signatures: all methods take all arguments by name. -/
theorem table_wired : ∀ x ∈ table, Wired x.1 := by decide +kernel

theorem table_names : ∀ x ∈ table, names x.1.params = x.2.arguments.map Prod.fst := by decide +kernel

theorem table_methods : ∀ x ∈ table, x.1.methods.map Method.name = x.2.methods.map Prod.fst := by decide +kernel

theorem table_options : ∀ x ∈ table, ∀ m ∈ x.1.methods, ∀ o ∈ x.2.methods, m.name = o.1 →
    (∀ n ∈ names m.params, n ∈ names x.1.params ∨ n ∈ o.2.map Prod.fst) ∧
      ∀ n ∈ o.2.map Prod.fst, n ∈ names m.params ∧ n ∉ names x.1.params := by decide +kernel

theorem table_argument_defaults : ∀ x ∈ table, ∀ m ∈ x.1.methods, ∀ y ∈ x.1.params.zip x.2.arguments,
    ¬ Misdocumented x.2 m.name y.1.name → y.1.default = y.2.2 := by decide +kernel

theorem table_option_defaults : ∀ x ∈ table, ∀ m ∈ x.1.methods, ∀ o ∈ x.2.methods, m.name = o.1 →
    ∀ q ∈ m.params, ∀ y ∈ o.2, q.name = y.1 → ¬ Misdocumented x.2 m.name q.name → q.default = some y.2 := by
  decide +kernel

theorem table_method_default : ∀ x ∈ table, ∀ y ∈ x.1.params.zip x.2.arguments, y.1.name = "method" →
    y.1.default = y.2.2 := by decide +kernel

theorem table_unknown : ∀ x ∈ table, x.1.unknown = .runtimeError ∨ x.1.unknown = .valueError := by decide +kernel

/-- The value is the name of the method. -/
def isName (m : String) (v : Val M) : Prop := v = .py (.str m)

theorem param_of_argument {x : Public × Doc} (hx : x ∈ table) {i : ℕ} {a : String × Option PyVal}
    (h : x.2.arguments[i]? = some a) : ∃ p, x.1.params[i]? = some p ∧ p.name = a.1 ∧ (p, a) ∈ x.1.params.zip x.2.arguments := by
  have hn := table_names x hx
  have hi : (names x.1.params)[i]? = some a.1 := by rw [hn, List.getElem?_map, h]; rfl
  unfold names at hi
  rw [List.getElem?_map] at hi
  obtain ⟨p, hp, he⟩ := Option.map_eq_some_iff.mp hi
  refine ⟨p, hp, he, List.mem_of_getElem? (i := i) ?_⟩
  rw [List.getElem?_zip_eq_some]
  exact ⟨hp, h⟩

theorem argument_of_param {x : Public × Doc} (hx : x ∈ table) {i : ℕ} {p : Param}
    (h : x.1.params[i]? = some p) : ∃ d, x.2.arguments[i]? = some (p.name, d) := by
  have hn := table_names x hx
  have hi : (x.2.arguments.map Prod.fst)[i]? = some p.name := by rw [← hn]; simp [names, h]
  rw [List.getElem?_map] at hi
  obtain ⟨a, ha, he⟩ := Option.map_eq_some_iff.mp hi
  exact ⟨a.2, by rw [ha, ← he]⟩

theorem method_of_doc {x : Public × Doc} (hx : x ∈ table) {o : String × List (String × PyVal)}
    (h : o ∈ x.2.methods) : ∃ m ∈ x.1.methods, m.name = o.1 := by
  have hm : o.1 ∈ x.1.methods.map Method.name := by
    rw [table_methods x hx]; exact List.mem_map_of_mem h
  simpa [eq_comm] using hm

theorem doc_of_method {x : Public × Doc} (hx : x ∈ table) {m : Method} (h : m ∈ x.1.methods) :
    ∃ o ∈ x.2.methods, m.name = o.1 := by
  have hm : m.name ∈ x.2.methods.map Prod.fst := by
    rw [← table_methods x hx]; exact List.mem_map_of_mem h
  obtain ⟨o, ho, he⟩ := List.mem_map.mp hm
  exact ⟨o, ho, he.symm⟩

theorem method_condition {x : Public × Doc} (hx : x ∈ table) (pos : List (Val M)) (kw : Names M) (m : String) :
    MethodIs isName x.2 pos kw m ↔
    ∀ i p, x.1.params[i]? = some p → p.name = "method" → valueAt pos kw i p = some (.py (.str m)) := by
  constructor
  · intro h i p hi hp
    obtain ⟨d, hd⟩ := argument_of_param hx hi
    rw [hp] at hd
    have h1 := h i d hd
    unfold valueAt
    unfold given at h1
    rw [hp]
    cases hg : (pos[i]?).or (kw.lookup "method") with
    | some v => rw [hg] at h1; rw [show v = _ from h1]; rfl
    | none =>
      rw [hg] at h1
      obtain ⟨p', hp', hpn, hz⟩ := param_of_argument hx hd
      rw [hi] at hp'
      obtain rfl := Option.some.inj hp'
      rw [table_method_default x hx _ hz hp, show d = _ from h1]; rfl
  · intro h i d hd
    obtain ⟨p, hp, hpn, hz⟩ := param_of_argument hx hd
    have h1 := h i p hp hpn
    unfold valueAt at h1
    rw [hpn] at h1
    unfold given
    cases hg : (pos[i]?).or (kw.lookup "method") with
    | some v => rw [hg] at h1; exact Option.some.inj h1
    | none =>
      rw [hg, table_method_default x hx _ hz hpn] at h1
      cases hd' : d with
      | none => rw [hd'] at h1; cases h1
      | some e =>
        rw [hd'] at h1
        have : (Val.py e : Val M) = .py (.str m) := Option.some.inj h1
        injection this with this
        rw [this]

/-- A call fits a method exactly when the documentation allows it. -/
theorem fits_iff {x : Public × Doc} (hx : x ∈ table) {m : Method} (hm : m ∈ x.1.methods)
    {o : String × List (String × PyVal)} (ho : o ∈ x.2.methods) (hmo : m.name = o.1) (pos : List (Val M))
    (kw : Names M) : Fits x.1 m pos kw ↔ Allowed isName x.2 pos kw m.name o.2 := by
  obtain ⟨hn, hA, hdef, -⟩ := table_wired x hx
  obtain ⟨pA, hpA, hpAn⟩ := head_of hA
  have hlen : x.1.params.length = x.2.arguments.length := by
    have := congrArg List.length (table_names x hx)
    simpa [names] using this
  have hopt := table_options x hx m hm o ho hmo
  constructor
  · rintro ⟨ha, hmeth, hk⟩
    refine ⟨hlen ▸ ha.1, ?_, ?_, (method_condition hx pos kw m.name).mpr hmeth, by rw [hmo]; exact ho, ?_⟩
    · intro i n d hd hi
      obtain ⟨p, hp, hpn, -⟩ := param_of_argument hx hd
      have := (ha.2 i p hp).1 hi
      rw [hpn] at this
      exact this
    · have h1 := accepts_value ha hpA
      unfold valueAt at h1
      have h2 : pA.default = none := by
        have := hdef pA (List.mem_of_getElem? hpA)
        rw [hpAn] at this
        simpa using this
      rw [h2, hpAn] at h1
      simpa [given] using h1
    · intro n hnk
      rcases hk n hnk with h | h
      · exact Or.inl (by rw [← table_names x hx]; exact h)
      · rcases hopt.1 n h with h | h
        · exact Or.inl (by rw [← table_names x hx]; exact h)
        · exact Or.inr h
  · rintro ⟨hpos, honce, hmat, hmeth, -, hk⟩
    refine ⟨⟨hlen ▸ hpos, fun i p hp => ⟨fun hi => ?_, fun hi => ?_⟩⟩,
      (method_condition hx pos kw m.name).mp hmeth, fun n hnk => ?_⟩
    · obtain ⟨d, hd⟩ := argument_of_param hx hp
      exact honce i p.name d hd hi
    · by_cases hpa : p.name = "A"
      · left
        obtain ⟨rfl, rfl⟩ := index_unique hn hp hpA (hpa.trans hpAn.symm)
        unfold given at hmat
        rw [List.getElem?_eq_none hi, Option.none_or, ← hpa] at hmat
        exact (lookup_isSome_iff _ _).mp hmat
      · right
        rw [hdef p (List.mem_of_getElem? hp), bne_iff_ne]
        exact hpa
    · rcases hk n hnk with h | h
      · exact Or.inl (by rw [table_names x hx]; exact h)
      · exact Or.inr (hopt.2 n h).1

/-- C95: a call runs method `m` exactly when the documentation allows it: at most the documented number of positional
arguments, no argument given twice, `A` given, `m` the documented method given (or the default one), and every name used
an argument of the function or an option of that method. -/
theorem call_accepted_iff {x : Public × Doc} (hx : x ∈ table) (pos : List (Val M)) (kw : Names M)
    (hk : (kw.map Prod.fst).Nodup) (m : String) :
    (∃ env, callPublic x.1 pos kw = .ok (m, env)) ↔ ∃ options, Allowed isName x.2 pos kw m options := by
  rcases callPublic_spec (table_wired x hx) pos kw hk with ⟨m', hm', env, hc, hf, -⟩ | ⟨hf, hc⟩
  · obtain ⟨o, ho, hmo⟩ := doc_of_method hx hm'
    have hall := (fits_iff hx hm' ho hmo pos kw).mp hf
    constructor
    · rintro ⟨env', he⟩
      rw [hc] at he
      injection he with he
      rw [← (Prod.mk.inj he).1]
      exact ⟨o.2, hall⟩
    · rintro ⟨options, h⟩
      refine ⟨env, ?_⟩
      obtain ⟨i, p, hi, hp⟩ := exists_param (table_wired x hx).2.2.2.1
      have h1 := (method_condition hx pos kw m).mp h.method i p hi hp
      rw [hf.2.1 i p hi hp] at h1
      have : m'.name = m := by simpa using h1
      rw [hc, this]
  · constructor
    · rintro ⟨env, he⟩
      rcases hc with h | ⟨h, -⟩ <;> rw [h] at he <;> cases he
    · rintro ⟨options, h⟩
      obtain ⟨m', hm', hmo⟩ := method_of_doc hx h.documented
      exact absurd ((fits_iff hx hm' h.documented hmo pos kw).mpr (hmo ▸ h)) (hf m' hm')

/-- C95: a call that is not accepted raises: a `TypeError`, or, when the method is not one of the documented ones,
`RuntimeError` or `ValueError`. -/
theorem call_refused {x : Public × Doc} (hx : x ∈ table) (pos : List (Val M)) (kw : Names M)
    (hk : (kw.map Prod.fst).Nodup) {e : PyExc} (he : callPublic x.1 pos kw = .error e) :
    e = .typeError ∨ (e = .runtimeError ∨ e = .valueError) ∧ ∀ o ∈ x.2.methods, ¬ MethodIs isName x.2 pos kw o.1 := by
  rcases callPublic_spec (table_wired x hx) pos kw hk with ⟨m', hm', env, hc, -⟩ | ⟨-, hc⟩
  · rw [hc] at he; cases he
  · rcases hc with h | ⟨h, hno⟩
    · rw [h] at he; injection he with he; exact Or.inl he.symm
    · rw [h] at he
      injection he with he
      refine Or.inr ⟨he ▸ table_unknown x hx, fun o ho hc => ?_⟩
      obtain ⟨m, hm, hmo⟩ := method_of_doc hx ho
      obtain ⟨i, p, hi, hp⟩ := exists_param (table_wired x hx).2.2.2.1
      exact hno m hm i p hi hp (hmo ▸ (method_condition hx pos kw o.1).mp hc i p hi hp)

/-- C95: every argument that is given, by position or by name, is what the method gets under its name. -/
theorem arguments_arrive {x : Public × Doc} (hx : x ∈ table) {pos : List (Val M)} {kw env : Names M} {m : String}
    (hk : (kw.map Prod.fst).Nodup) (h : callPublic x.1 pos kw = .ok (m, env)) {i : ℕ} {n : String}
    {d : Option PyVal} (hi : x.2.arguments[i]? = some (n, d)) (hn : n ≠ "method") {v : Val M}
    (hv : given pos kw i n = some v) : env.lookup n = some v := by
  rcases callPublic_spec (table_wired x hx) pos kw hk with ⟨m', hm', env', hc, -, -, hpub, -⟩ | ⟨-, hc⟩
  · rw [hc] at h
    injection h with h
    obtain ⟨-, rfl⟩ := Prod.mk.inj h
    obtain ⟨p, hp, hpn, -⟩ := param_of_argument hx hi
    dsimp only at hpn
    rw [← hpn, hpub i p hp (hpn ▸ hn)]
    unfold given at hv
    unfold valueAt
    rw [hpn, hv]; rfl
  · rcases hc with hc | ⟨hc, -⟩ <;> rw [hc] at h <;> cases h

/-- C95: every option that is given is what the method gets under its name. -/
theorem options_arrive {x : Public × Doc} (hx : x ∈ table) {pos : List (Val M)} {kw env : Names M} {m : String}
    (hk : (kw.map Prod.fst).Nodup) (h : callPublic x.1 pos kw = .ok (m, env)) {options : List (String × PyVal)}
    (ho : (m, options) ∈ x.2.methods) {n : String} (hn : n ∈ options.map Prod.fst) {v : Val M}
    (hv : kw.lookup n = some v) : env.lookup n = some v := by
  rcases callPublic_spec (table_wired x hx) pos kw hk with ⟨m', hm', env', hc, -, -, -, hopt⟩ | ⟨-, hc⟩
  · rw [hc] at h
    injection h with h
    obtain ⟨rfl, rfl⟩ := Prod.mk.inj h
    obtain ⟨h1, h2⟩ := (table_options x hx m' hm' _ ho rfl).2 n hn
    obtain ⟨p, hp, rfl⟩ := List.mem_map.mp h1
    rw [hopt p hp h2, hv]; rfl
  · rcases hc with hc | ⟨hc, -⟩ <;> rw [hc] at h <;> cases h

/-- C95, partial: leaving an argument or option out is giving the documented default value, but for the five names
in `Misdocumented`. -/
theorem omitted_is_documented_partial {x : Public × Doc} (hx : x ∈ table) {pos : List (Val M)} {kw env : Names M}
    {m : String} (hk : (kw.map Prod.fst).Nodup) (h : callPublic x.1 pos kw = .ok (m, env)) :
    (∀ i n d, x.2.arguments[i]? = some (n, some d) → n ≠ "method" → given pos kw i n = none →
      ¬ Misdocumented x.2 m n → env.lookup n = some (.py d)) ∧
    ∀ options, (m, options) ∈ x.2.methods → ∀ n d, (n, d) ∈ options → kw.lookup n = none →
      ¬ Misdocumented x.2 m n → env.lookup n = some (.py d) := by
  rcases callPublic_spec (table_wired x hx) pos kw hk with ⟨m', hm', env', hc, -, -, hpub, hopt⟩ | ⟨-, hc⟩
  · rw [hc] at h
    injection h with h
    obtain ⟨rfl, rfl⟩ := Prod.mk.inj h
    refine ⟨fun i n d hi hn hg hmis => ?_, fun options ho n d hnd hg hmis => ?_⟩
    · obtain ⟨p, hp, hpn, hz⟩ := param_of_argument hx hi
      dsimp only at hpn
      have hd := table_argument_defaults x hx m' hm' _ hz (by rw [hpn]; exact hmis)
      rw [← hpn, hpub i p hp (hpn ▸ hn)]
      unfold given at hg
      unfold valueAt
      rw [hpn, hg, hd]; rfl
    · obtain ⟨h1, h2⟩ := (table_options x hx m' hm' _ ho rfl).2 n (List.mem_map_of_mem hnd)
      obtain ⟨p, hp, rfl⟩ := List.mem_map.mp h1
      rw [hopt p hp h2, hg, table_option_defaults x hx m' hm' _ ho rfl p hp _ hnd rfl hmis]; rfl
  · rcases hc with hc | ⟨hc, -⟩ <;> rw [hc] at h <;> cases h

/-- The hypotheses are met: `traceinv(A, True, method='hutchinson', seed=3)`. -/
example (A : M) : ∃ env, callPublic traceinvFn [.mat A, .py (.bool true)]
    [("method", .py (.str "hutchinson")), ("seed", .py (.int 3))] = .ok ("hutchinson", env) ∧
    env.lookup "A" = some (.mat A) ∧ env.lookup "gram" = some (.py (.bool true)) ∧
    env.lookup "seed" = some (.py (.int 3)) ∧ env.lookup "max_num_samples" = some (.py (.int 50)) :=
  ⟨_, rfl, rfl, rfl, rfl, rfl⟩

/-- … and `trace(A, method='exact', seed=3)` is refused: `seed` is no option of `exact`. -/
example (A : M) : callPublic traceFn [.mat A] [("method", .py (.str "exact")), ("seed", .py (.int 3))] =
    .error .typeError := rfl

/-- … and `trace(A, method='cholesky')`. -/
example (A : M) : callPublic traceFn [.mat A] [("method", .py (.str "cholesky"))] = .error .runtimeError := rfl

end Imate.Props.CallOptions
