import Verif.Model.Args
import Verif.Model.Random

/-!
# The way of the argument `seed` to the random number generators

`imate/_trace_estimator/trace_estimator.pyx`, `imate/traceinv/_hutchinson_method.pyx`,
`imate/_linear_algebra/random_vectors.pyx` and `imate/_random_generator/py_random_array_generator.pyx`.
-/

namespace Imate.SeedPath

open Imate.Args

/-- `seed` from the SLQ methods to `RandomNumberGenerator(num_threads, seed)`
(`imate/_trace_estimator/trace_estimator.pyx:136-145`, `imate/_c_trace_estimator/py_c_trace_estimator.pyx:181,298,415`
declare it `int64_t`, `imate/_c_trace_estimator/c_trace_estimator.cpp:235`). -/
def slqSeed (v : PyVal) : Except PyExc (BitVec 64) := do
  checkSeed v
  let s ← toCInt 64 (defaultSeed v)
  .ok (BitVec.ofInt 64 s)

/-- `seed` from the Hutchinson method to `RandomNumberGenerator(num_threads, seed)`
(`imate/traceinv/_hutchinson_method.pyx:638-639,785-787,883-885`; `generate_random_column_vectors`,
`orthogonalize_vectors` and `py_generate_random_array` declare it `IndexType`, which is `int`:
`imate/_linear_algebra/random_vectors.pyx:31`, `imate/_random_generator/py_random_array_generator.pyx:28,44`,
`imate/_definitions/types.pxd:110`; the constructor takes `int64_t`). -/
def hutchSeed (v : PyVal) : Except PyExc (BitVec 64) := do
  checkSeed v
  let s ← toCInt 32 (defaultSeed v)
  .ok (BitVec.ofInt 64 (BitVec.ofInt 32 s).toInt)

end Imate.SeedPath
