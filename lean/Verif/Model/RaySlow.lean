import Verif.Model.Arrangement2D

/-!
# The ray query without the search tree

`ray_halfedge_query_general_ray_slow` of geometry/impl2d/arrangement2d.py, the plain version of the query which the code
names beside the call of the fast one (arrangement2d.py:748).
-/

namespace Ply.Arr

/-- The loop over `self.half_edges.values()` (arrangement2d.py:685-687). -/
def raySlowLoop (ray : Seg) (frangle : ℚ) (keepAll : Bool) : List Seg → Except PyErr (List (ℚ × Seg))
  | [] => .ok []
  | he :: rest => do
    let a ← rayTest he ray frangle keepAll 1
    let r ← raySlowLoop ray frangle keepAll rest
    return a ++ r

/-- `ray_halfedge_query_general_ray_slow` (arrangement2d.py:662-689). -/
def raySlow (hes : List Seg) (pt d : Pt) (keepAll : Bool) : Except PyErr (List (ℚ × Seg)) := do
  let frangle ← vectorFrangle d
  let ray : Seg := (pt, (pt.1 + d.1, pt.2 + d.2))
  let inters ← raySlowLoop ray frangle keepAll hes
  return inters.insertionSort interLe

end Ply.Arr
