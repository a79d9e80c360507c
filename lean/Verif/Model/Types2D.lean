import Verif.Model.PlyTypes
import Mathlib.Data.Rat.Floor
import Mathlib.Algebra.Order.Field.Rat

/-!
# Model of /repo/plycutter/geometry/types2d.py
-/

namespace Ply

/-- `Point` and `Vector` (/repo/plycutter/geometry/types2d.py:23-24): pairs of exact rationals.
Tuples and length-2 numpy object arrays are not distinguished. -/
abbrev Pt := ℚ × ℚ

/-- `Segment` (/repo/plycutter/geometry/types2d.py:25). -/
abbrev Seg := Pt × Pt

/-- Python's `%` on rationals with a positive modulus: `a - m * floor(a / m)`. -/
def pyMod (a m : ℚ) : ℚ := a - m * (⌊a / m⌋ : ℤ)

/-- Python's `l[-1]`. -/
def pyLast (l : List α) : Except PyErr α :=
  match l.getLast? with
  | some a => .ok a
  | none => .error .indexError

end Ply
