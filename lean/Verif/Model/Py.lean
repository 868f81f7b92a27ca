import Verif.Model.Mem

/-!
# Python exceptions

The Python layer of `imate` reports errors by raising; the native layer underneath can also kill the
process.
-/

namespace Imate

/-- What ends a Python call without a value. -/
inductive PyExc where
  | typeError
  | valueError
  | runtimeError
  | attributeError
  | importError
  | indexError
  | zeroDivision
  | overflowError
  /-- a local variable is read before it is assigned -/
  | unboundLocal
  | linAlgError
  /-- a fault of the native code: `native .abort` ends the whole process -/
  | native (f : Fault)
  deriving DecidableEq, Repr

/-- A call of native code from Python. -/
def ofNative {α : Type _} : Except Fault α → Except PyExc α
  | .ok x => .ok x
  | .error f => .error (.native f)

end Imate
