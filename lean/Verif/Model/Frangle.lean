import Verif.Model.Types2D

/-!
# Model of /repo/plycutter/geometry/impl2d/frangle2d.py
-/

namespace Ply

/-- `vector_frangle` (/repo/plycutter/geometry/impl2d/frangle2d.py:45-76). -/
def vectorFrangle (vec : Pt) : Except PyErr ℚ :=
  if vec.1 ≠ 0 ∨ vec.2 ≠ 0 then
    let order := if |vec.1| > |vec.2| then |vec.2 / vec.1| else 2 - |vec.1 / vec.2|
    if vec.1 ≥ 0 then
      if vec.2 ≤ 0 then .ok order else .ok (8 - order)
    else
      if vec.2 ≤ 0 then .ok (4 - order) else .ok (4 + order)
  else .error .assertion

/-- `frangle_unit_square_vector` (/repo/plycutter/geometry/impl2d/frangle2d.py:79-99). -/
def frangleUnitSquareVector (frangle₀ : ℚ) : Pt :=
  let frangle := pyMod frangle₀ 8
  let frhalf := pyMod frangle 4
  let frquad := |2 - frhalf|
  let v : Pt := if frquad < 1 then (frquad, -1) else (1, -(2 - frquad))
  let v : Pt := if frhalf > 2 then (-v.1, v.2) else v
  if frangle ≥ 4 then (-v.1, -v.2) else v

end Ply
