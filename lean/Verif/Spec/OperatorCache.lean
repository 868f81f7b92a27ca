import Verif.Model.OperatorCache

/-! Specification vocabulary for C06. -/

namespace Imate.Spec

open Imate.Cache

/-- The number of devices a request for `k` devices means on a machine with `N` devices. -/
def meantDevices (N k : Nat) : Nat := if k = 0 then N else k

/-- A CPU request on a machine with `N` devices. -/
def IsCpu (r : Request) : Prop := r.gpu = false

/-- A GPU request on a machine with `N` devices. -/
def IsGpuOf (N : Nat) (r : Request) : Prop := r.gpu = true ∧ r.env.available = N

end Imate.Spec
