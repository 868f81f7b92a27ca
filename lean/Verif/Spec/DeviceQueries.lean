import Verif.Model.DeviceQueries

/-! # Specification: what the commands print -/

namespace Imate.Spec

open Imate.LocateCuda Imate.DeviceQueries

/-- A printed line that assigns a value to a key, as `key : value`; the key has no colon. -/
structure Entry (key value line : Text) : Prop where
  eq : line = key ++ ':' :: ' ' :: value
  key : ':' ∉ key

/-- The text mentions the words, in upper or lower case. -/
def Mentions (p line : Text) : Prop := p.map Char.toLower <:+: line.map Char.toLower

/-- Lines without a line end. -/
def PlainLines (ls : List Text) : Prop := ∀ l ∈ ls, '\n' ∉ l

/-- No white space at the ends. -/
def Trimmed (t : Text) : Prop := strip t = t

/-- A line of `nvidia-smi --list-gpus` that is for a device (`GPU 0: …`), not for a partition of one (`  MIG …`). -/
def IsDevice (l : Text) : Bool := "GPU ".toList.isPrefixOf l

end Imate.Spec
