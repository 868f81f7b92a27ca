import Verif.Model.Args

/-!
# What the documentation says about the arguments of the functions

Written from the documentation (docstrings) alone: the arguments of each function in their order, the options of each
method, and their default values.
-/

namespace Imate.Spec.CallOptions

open Imate.Args

/-- What the caller wrote for argument number `i`, called `n`: by position or by name. -/
def given {V : Type} (pos : List V) (kw : List (String × V)) (i : ℕ) (n : String) : Option V :=
  (pos[i]?).or (kw.lookup n)

/-- The documentation of a function: the arguments in order (only the first, `A`, has no default value), and the options
of every method, in any order. -/
structure Doc where
  name : String
  arguments : List (String × Option PyVal)
  methods : List (String × List (String × PyVal))

/-- Floats and lists of floats. -/
def flt (x : ℚ) : PyVal := .float (.fin x)
@[inherit_doc flt] def floats (l : List ℚ) : PyVal := .list (.ok (1, l.map XR.fin))

/-- `A`, `gram` and `p` -/
def first : List (String × Option PyVal) := [("A", none), ("gram", some (.bool false)), ("p", some (flt 1))]

/-- `return_info` and `method` -/
def last (m : String) : List (String × Option PyVal) := [("return_info", some (.bool false)), ("method", some (.str m))]

/-- The documented options of the method `eigenvalue`. -/
def eigenvalue : List (String × PyVal) :=
  [("eigenvalues", .none), ("assume_matrix", .str "gen"), ("non_zero_eig_fraction", flt (9 / 10))]

/-- The documented options of the method `slq` (`parameters` has "default=one"). -/
def slq : List (String × PyVal) :=
  [("parameters", flt 1), ("min_num_samples", .int 10), ("max_num_samples", .int 50), ("error_atol", .none),
    ("error_rtol", .none), ("confidence_level", flt (95 / 100)), ("outlier_significance_level", flt (1 / 1000)),
    ("lanczos_degree", .int 20), ("lanczos_tol", .none), ("orthogonalize", .int 0), ("seed", .none),
    ("num_threads", .int 0), ("num_gpu_devices", .int 0), ("gpu", .bool false), ("verbose", .bool false),
    ("plot", .bool false)]

/-- The documented options of the method `hutchinson` of `traceinv`. -/
def hutchinson : List (String × PyVal) :=
  [("B", .none), ("C", .none), ("assume_matrix", .str "gen"), ("min_num_samples", .int 10),
    ("max_num_samples", .int 50), ("error_atol", .none), ("error_rtol", .none), ("confidence_level", flt (95 / 100)),
    ("outlier_significance_level", flt (1 / 1000)), ("solver_tol", flt (1 / 1000000)), ("orthogonalize", .int 0),
    ("seed", .none), ("num_threads", .int 0), ("verbose", .bool false), ("plot", .bool false)]

/-- The documentation of the functions. -/
def trace : Doc :=
  ⟨"trace", first ++ last "exact", [("exact", []), ("eigenvalue", eigenvalue), ("slq", slq)]⟩
@[inherit_doc trace] def traceinv : Doc :=
  ⟨"traceinv", first ++ last "cholesky", [("eigenvalue", eigenvalue),
    ("cholesky", [("B", .none), ("invert_cholesky", .bool true), ("cholmod", .none)]),
    ("hutchinson", hutchinson), ("slq", slq)]⟩
@[inherit_doc trace] def logdet : Doc :=
  ⟨"logdet", first ++ last "cholesky", [("eigenvalue", eigenvalue), ("cholesky", [("cholmod", .none)]), ("slq", slq)]⟩
@[inherit_doc trace] def trexp : Doc :=
  ⟨"trexp", first ++ [("coeff", some (flt 1))] ++ last "eigenvalue", [("eigenvalue", eigenvalue), ("slq", slq)]⟩
@[inherit_doc trace] def trlinfrac : Doc :=
  ⟨"trlinfrac", first ++ [("coeff", some (floats [1, 0, 0, 1, 1]))] ++ last "eigenvalue", [("eigenvalue", eigenvalue), ("slq", slq)]⟩
@[inherit_doc trace] def eigencount : Doc :=
  ⟨"eigencount", first ++ [("interval", some (floats [0, 1]))] ++ last "eigenvalue", [("eigenvalue", eigenvalue), ("slq", slq)]⟩
@[inherit_doc trace] def density : Doc :=
  ⟨"density", first ++ [("mu", some (flt 1)), ("sigma", some (flt 1))] ++ last "eigenvalue",
    [("eigenvalue", eigenvalue), ("slq", slq)]⟩

/-- Where the documented default value is not the one in effect: the functions, methods and names concerned. -/
def Misdocumented (d : Doc) (m n : String) : Prop :=
  d.name = "traceinv" ∧ n = "p" ∨ d.name = "trlinfrac" ∧ n = "coeff" ∨
    m = "slq" ∧ (n = "error_rtol" ∨ n = "parameters") ∨ m = "hutchinson" ∧ (n = "error_rtol" ∨ n = "orthogonalize")

instance (d : Doc) (m n : String) : Decidable (Misdocumented d m n) := by
  unfold Misdocumented
  infer_instance

/-- The method of the call is `m`: it is given, or it is the default one and no method is given. -/
def MethodIs {V : Type} (str : String → V → Prop) (d : Doc) (pos : List V) (kw : List (String × V)) (m : String) : Prop :=
  ∀ i x, d.arguments[i]? = some ("method", x) →
    match given pos kw i "method" with
    | some v => str m v
    | none => x = some (.str m)

/-- The call is one that the documentation allows, with method `m`: at most as many positional arguments as there are
arguments, none of them also given by name, `A` given, the method (given or the default one) a documented one, and every
name used an argument of the function or an option of that method. -/
structure Allowed {V : Type} (str : String → V → Prop) (d : Doc) (pos : List V) (kw : List (String × V)) (m : String)
    (options : List (String × PyVal)) : Prop where
  positional : pos.length ≤ d.arguments.length
  once : ∀ i n x, d.arguments[i]? = some (n, x) → i < pos.length → n ∉ kw.map Prod.fst
  matrix : (given pos kw 0 "A").isSome
  method : MethodIs str d pos kw m
  documented : (m, options) ∈ d.methods
  known : ∀ n ∈ kw.map Prod.fst, n ∈ d.arguments.map Prod.fst ∨ n ∈ options.map Prod.fst

end Imate.Spec.CallOptions
