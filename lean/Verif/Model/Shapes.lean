import Verif.Model.Geom2D

/-!
# Model of the geoms made in /repo/plycutter/create_sheetplex.py

`Geom2D.from_shapely` and the part of `create_sheets` that makes the geoms of a sheet.  Slicing the mesh,
rotating the triangles and `unary_union` are done by `trimesh`, `numpy` and `shapely`; their results are
inputs here, with exact coordinates.
-/

namespace Ply

/-- A `shapely` polygon: the coordinates of its exterior and of its interiors.  The last coordinate of
a ring repeats the first. -/
structure ShPoly where
  exterior : List Pt
  interiors : List (List Pt)
  deriving DecidableEq

/-- A `shapely` geometry, by `geom_type`. -/
inductive Shape where
  | polygon (p : ShPoly)
  | multiPolygon (ps : List ShPoly)
  | collection (ps : List ShPoly)
  | other

/-- `sh_points` (geom2d_simple_holes.py:260-263). -/
def shPoints (pts : List Pt) : Except PyErr (List Pt) :=
  match pts with
  | [] => .error .indexError
  | a :: rest => if a = (a :: rest).getLast (by simp) then .ok (a :: rest).dropLast else .error .assertion

/-- `shapely.algorithms.cga.signed_area`, exactly: positive if counterclockwise; the coordinates are those of
a closed ring. -/
def ringArea : List Pt → ℚ
  | a :: b :: rest => (a.1 * b.2 - b.1 * a.2) / 2 + ringArea (b :: rest)
  | _ => 0

/-- `shapely.geometry.polygon.orient(sh, -1)`: the exterior clockwise, the interiors counterclockwise. -/
def ShPoly.orientNeg (p : ShPoly) : ShPoly where
  exterior := if ringArea p.exterior / (-1) ≥ 0 then p.exterior else p.exterior.reverse
  interiors := p.interiors.map fun h => if ringArea h / (-1) ≤ 0 then h else h.reverse

namespace Geom2D

/-- `Geom2D_Py_Simple_Holes.from_shapely_polygon` (geom2d_simple_holes.py:256-269). -/
def fromShapelyPolygon (sh : ShPoly) : Except PyErr Geom2D := do
  let sh := sh.orientNeg
  let outer ← shPoints sh.exterior
  let holes ← sh.interiors.mapM fun h => do
    let p ← shPoints h
    return p.reverse
  let s ← SPWH.mk' outer holes
  let a ← area [s]
  if a ≥ 0 then .ok [s] else .error .assertion

/-- The loop `spwhs.extend(geom.spwhs)` (geom2d_simple_holes.py:238-242, 248-252). -/
def joinSingles : List Geom2D → Except PyErr Geom2D
  | [] => .ok []
  | g :: rest =>
    if List.length g = 1 then do
      let r ← joinSingles rest
      .ok (List.append g r)
    else .error .assertion

/-- `Geom2D_Py_Simple_Holes.from_shapely` (geom2d_simple_holes.py:233-253); of a collection all
elements are polygons. -/
def fromShapely : Shape → Except PyErr Geom2D
  | .polygon p => fromShapelyPolygon p
  | .multiPolygon ps => do
    let gs ← ps.mapM fromShapelyPolygon
    joinSingles gs
  | .collection ps => do
    let gs ← ps.mapM fromShapelyPolygon
    joinSingles gs
  | .other => .error .exception

/-- `fsupport = fsupport | Geom2D.polygon(verts, reorient=True)` for all triangles
(create_sheetplex.py:157-164). -/
def faceLoop (arr : ArrOp) : Geom2D → List (Pt × Pt × Pt) → Except PyErr Geom2D
  | acc, [] => .ok acc
  | acc, t :: rest => do
    let g ← polygon [t.1, t.2.1, t.2.2] true
    let r ← or arr acc g
    faceLoop arr r rest

/-- `functools.reduce`. -/
def reduce (f : Geom2D → Geom2D → Except PyErr Geom2D) : List Geom2D → Except PyErr Geom2D
  | [] => .error .typeError
  | g :: rest => rest.foldlM f g

end Geom2D

/-- What the geoms of a sheet are made from: the slices just outside the sheet and the slices within it (`None`
if empty), and the triangles of the facets on its two sides in the coordinates of the sheet. -/
structure SheetSource where
  outside : List (Option Shape)
  slices : List (Option Shape)
  same : List (Pt × Pt × Pt)
  opposed : List (Pt × Pt × Pt)

/-- The geoms of a `Sheet` (create_sheetplex.py:173-184). -/
structure SheetParts where
  face0 : Geom2D
  face1 : Geom2D
  outside : List Geom2D
  bothFaces : Geom2D
  slicesMax : Geom2D
  slicesMin : Geom2D
  deriving DecidableEq

/-- One of `outside_slices` (create_sheetplex.py:110-114). -/
def outsideSlice : Option Shape → Except PyErr Geom2D
  | some s => Geom2D.fromShapely s
  | none => .ok Geom2D.empty

/-- `assert sl is not None` for all slices within the sheet (create_sheetplex.py:118-121). -/
def presentSlices : List (Option Shape) → Except PyErr (List Shape)
  | [] => .ok []
  | none :: _ => .error .assertion
  | some s :: rest => do
    let r ← presentSlices rest
    .ok (s :: r)

/-- The geoms made for one sheet of `create_sheets` (create_sheetplex.py:110-129, 150-184), in this order. -/
def sheetParts (arr : Geom2D.ArrOp) (d : SheetSource) : Except PyErr SheetParts := do
  let outside ← d.outside.mapM outsideSlice
  let present ← presentSlices d.slices
  let slices ← present.mapM Geom2D.fromShapely
  let f0 ← Geom2D.faceLoop arr Geom2D.empty d.same
  let f1 ← Geom2D.faceLoop arr Geom2D.empty d.opposed
  let smax ← Geom2D.reduce (Geom2D.or arr) slices
  let smin ← Geom2D.reduce (Geom2D.and arr) slices
  let both ← Geom2D.and arr f0 f1
  return ⟨f0, f1, outside, both, smax, smin⟩

end Ply
