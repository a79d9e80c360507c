import Verif.Model.Py

/-!
# Model of persistent maps

A `pyrsistent` map (and a Python dictionary) is an association list.  No theorem uses the order of the
entries.
-/

namespace Ply

/-- A persistent map as an association list. -/
abbrev PMap (κ α : Type) := List (κ × α)

namespace PMap

variable {κ α : Type} [DecidableEq κ]

/-- `m[key]`. -/
def get : PMap κ α → κ → Except PyErr α
  | [], _ => .error .keyError
  | (k, v) :: m, key => if k = key then .ok v else get m key

/-- `m.get(key)`. -/
def get? : PMap κ α → κ → Option α
  | [], _ => none
  | (k, v) :: m, key => if k = key then some v else get? m key

/-- `m.set(key, value)`. -/
def set : PMap κ α → κ → α → PMap κ α
  | [], key, v => [(key, v)]
  | (k, w) :: m, key, v => if k = key then (k, v) :: m else (k, w) :: set m key v

/-- `del m[key]` for a key that is present. -/
def del : PMap κ α → κ → PMap κ α
  | [], _ => []
  | (k, w) :: m, key => if k = key then m else (k, w) :: del m key

end PMap

end Ply
