import Verif.Model.Types2D

/-!
# Model of /repo/plycutter/geometry/impl2d/primitive2d.py
-/

namespace Ply

/-- `segment_segment_general_intersection`
(/repo/plycutter/geometry/impl2d/primitive2d.py:22-52). -/
def segSegGeneralIntersection (l0 l1 : Seg) : Except PyErr (Pt × ℚ × ℚ) :=
  let denom := (l0.2.1 - l0.1.1) * (l1.2.2 - l1.1.2) - (l0.2.2 - l0.1.2) * (l1.2.1 - l1.1.1)
  if denom ≠ 0 then
    let t_num := (l0.1.1 - l1.1.1) * (l1.1.2 - l1.2.2) - (l0.1.2 - l1.1.2) * (l1.1.1 - l1.2.1)
    let u_num := -((l0.1.1 - l0.2.1) * (l0.1.2 - l1.1.2) - (l0.1.2 - l0.2.2) * (l0.1.1 - l1.1.1))
    let t0 := t_num / denom
    let t1 := u_num / denom
    let inter : Pt := (l0.1.1 + t_num * (l0.2.1 - l0.1.1) / denom,
                       l0.1.2 + t_num * (l0.2.2 - l0.1.2) / denom)
    if inter.1 = l1.1.1 + u_num * (l1.2.1 - l1.1.1) / denom then
      if inter.2 = l1.1.2 + u_num * (l1.2.2 - l1.1.2) / denom then
        .ok (inter, t0, t1)
      else .error .assertion
    else .error .assertion
  else .error .assertion

/-- The part of `line_segment_point_fraction` after the axis flip
(/repo/plycutter/geometry/impl2d/primitive2d.py:72-75). -/
def fractionByX (s : Seg) (p : Pt) : Option ℚ :=
  let f := (p.1 - s.1.1) / (s.2.1 - s.1.1)
  if p.2 = s.1.2 + f * (s.2.2 - s.1.2) then some f else none

/-- `line_segment_point_fraction` (/repo/plycutter/geometry/impl2d/primitive2d.py:55-75).
The recursion depth is bounded by `fuel`; `none` at depth zero would be a non-terminating
recursion, see theorem `c16_flip_once`. -/
def lineSegPointFractionFuel : Nat → Seg → Pt → Option (Option ℚ)
  | 0, _, _ => none
  | fuel + 1, s, p =>
    if s.1 = s.2 then some (if s.1 = p then some 0 else none)
    else if s.1.1 = s.2.1 then
      lineSegPointFractionFuel fuel ((s.1.2, s.1.1), (s.2.2, s.2.1)) (p.2, p.1)
    else some (fractionByX s p)

/-- The loop of `simple_polygon_area` (/repo/plycutter/geometry/impl2d/primitive2d.py:86-90). -/
def areaLoop : Pt → ℚ → List Pt → ℚ
  | _, area, [] => area
  | prev, area, vert :: rest =>
    let avg_x := (vert.1 + prev.1) / 2
    let dy := -(vert.2 - prev.2)
    areaLoop vert (area + avg_x * dy) rest

/-- `simple_polygon_area` (/repo/plycutter/geometry/impl2d/primitive2d.py:78-92);
`poly[-1]` raises IndexError on an empty list. -/
def simplePolygonArea (poly : List Pt) : Except PyErr ℚ := do
  let prev ← pyLast poly
  return areaLoop prev 0 poly

/-- `_subsign` (/repo/plycutter/geometry/impl2d/primitive2d.py:95-103). -/
def subsign (a b : ℚ) : Int := if a > b then 1 else if a = b then 0 else -1

/-- `simple_polygon_area([prev, vert, point])` as called in the loop below; a list of three
vertices never raises. -/
def triArea (a b c : Pt) : ℚ := areaLoop c 0 [a, b, c]

/-- The loop of `locate_point_polygon_winding_number`
(/repo/plycutter/geometry/impl2d/primitive2d.py:119-158).  `continue` and the `finally` block are
the recursive calls, which always pass `vert` as the new `prev` (`sprev` is recomputed from it). -/
def windingLoop (point : Pt) : Pt → Int → List Pt → Int
  | _, winding, [] => if winding ≠ 0 then 1 else -1
  | prev, winding, vert :: rest =>
    let sprev := subsign prev.2 point.2
    let svert := subsign vert.2 point.2
    if sprev * svert = 1 then windingLoop point vert winding rest
    else if vert = point then 0
    else if prev.2 = vert.2 then
      if (prev.1 < point.1 ∧ point.1 < vert.1) ∨ (prev.1 > point.1 ∧ point.1 > vert.1) then 0
      else windingLoop point vert winding rest
    else if max vert.2 prev.2 = point.2 then windingLoop point vert winding rest
    else
      let area := triArea prev vert point
      if area = 0 then 0
      else if area > 0 then windingLoop point vert (winding + 1) rest
      else windingLoop point vert (winding - 1) rest

/-- `locate_point_polygon_winding_number`
(/repo/plycutter/geometry/impl2d/primitive2d.py:106-158). -/
def locateWinding (poly : List Pt) (point : Pt) : Except PyErr Int := do
  let prev ← pyLast poly
  return windingLoop point prev 0 poly

/-- `edges_iter` (/repo/plycutter/geometry/impl2d/primitive2d.py:161-165). -/
def edgesIter (poly : List Pt) : List Seg :=
  (List.range poly.length).filterMap fun i =>
    match poly[i]?, poly[(i + 1) % poly.length]? with
    | some a, some b => some (a, b)
    | _, _ => none

end Ply
