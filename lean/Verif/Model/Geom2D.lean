import Verif.Model.Primitive2D
import Verif.Model.Frangle
import Verif.Model.Geom1D

/-!
# Model of /repo/plycutter/geometry/impl2d/geom2d_simple_holes.py

Vertices are exact rational points.  numpy arrays and tuples of coordinates are both `Pt`.
The arrangement operation (`_arrangement_op`) is a parameter here; it is modelled in
`Verif.Model.Arrangement2D`.
-/

namespace Ply

/-- `Simple_Polygon_With_Holes` (geom2d_simple_holes.py:76-88), the two fields. -/
structure SPWH where
  outer : List Pt
  holes : List (List Pt)
  deriving DecidableEq

/-- `Geom2D_Py_Simple_Holes` (geom2d_simple_holes.py:143-146): a list of polygons with holes. -/
abbrev Geom2D := List SPWH

/-- `check_no_dups` (geom2d_simple_holes.py:71-73). -/
def checkNoDups (verts : List Pt) : Except PyErr Unit :=
  if (edgesIter verts).all (fun e => decide (e.1 ≠ e.2)) then .ok () else .error .assertion

/-- `assert simple_polygon_area(poly) > 0` (geom2d_simple_holes.py:82-83, 86). -/
def assertAreaPos (poly : List Pt) : Except PyErr Unit := do
  let a ← simplePolygonArea poly
  if a > 0 then .ok () else .error .assertion

/-- The loop over the holes in the constructor (geom2d_simple_holes.py:85-87). -/
def checkHoles : List (List Pt) → Except PyErr Unit
  | [] => .ok ()
  | h :: rest => do
    assertAreaPos h
    checkNoDups h
    checkHoles rest

/-- `Simple_Polygon_With_Holes.__init__` (geom2d_simple_holes.py:80-88). -/
def SPWH.mk' (outer : List Pt) (holes : List (List Pt)) : Except PyErr SPWH := do
  checkNoDups outer
  assertAreaPos outer
  checkHoles holes
  return ⟨outer, holes⟩

/-- `fpoly` inside `transformed_with` (geom2d_simple_holes.py:97-101). -/
def fpoly (f : List Pt → List Pt) (p : List Pt) : Except PyErr (List Pt) := do
  let a ← simplePolygonArea (f p)
  return if a < 0 then (f p).reverse else f p

/-- `Simple_Polygon_With_Holes.transformed_with` (geom2d_simple_holes.py:96-104). -/
def SPWH.transformedWith (s : SPWH) (f : List Pt → List Pt) : Except PyErr SPWH := do
  let o ← fpoly f s.outer
  let hs ← s.holes.mapM (fpoly f)
  SPWH.mk' o hs

/-- `Simple_Polygon_With_Holes.segments` (geom2d_simple_holes.py:106-109). -/
def SPWH.segments (s : SPWH) : List Seg :=
  edgesIter s.outer ++ s.holes.flatMap edgesIter

/-- The loop of `Simple_Polygon_With_Holes.area` (geom2d_simple_holes.py:113-115). -/
def holesArea : ℚ → List (List Pt) → Except PyErr ℚ
  | a, [] => .ok a
  | a, h :: rest => do
    let b ← simplePolygonArea h
    holesArea (a - b) rest

/-- `Simple_Polygon_With_Holes.area` (geom2d_simple_holes.py:111-115). -/
def SPWH.area (s : SPWH) : Except PyErr ℚ := do
  let a ← simplePolygonArea s.outer
  holesArea a s.holes

/-- The loop over the holes in `locate` (geom2d_simple_holes.py:125-132). -/
def locateHoles (point : Pt) : List (List Pt) → Except PyErr Int
  | [] => .ok 1
  | hole :: rest => do
    let h ← locateWinding hole point
    if h = 0 then .ok 0
    else if h > 0 then .ok (-1)
    else locateHoles point rest

/-- `Simple_Polygon_With_Holes.locate` (geom2d_simple_holes.py:117-132). -/
def SPWH.locate (s : SPWH) (point : Pt) : Except PyErr Int := do
  let w ← locateWinding s.outer point
  if w = -1 then .ok w
  else if w = 0 then .ok w
  else locateHoles point s.holes

namespace Geom2D

/-- `Geom2D_Py_Simple_Holes.empty` (geom2d_simple_holes.py:197-200). -/
def empty : Geom2D := []

/-- `Geom2D_Py_Simple_Holes.is_empty` (geom2d_simple_holes.py:209-210). -/
def isEmpty (g : Geom2D) : Bool := decide (List.length g = 0)

/-- The running sum of `Geom2D_Py_Simple_Holes.area`. -/
def areaLoop : ℚ → List SPWH → Except PyErr ℚ
  | acc, [] => .ok acc
  | acc, s :: rest => do
    let a ← s.area
    areaLoop (acc + a) rest

/-- `Geom2D_Py_Simple_Holes.area` (geom2d_simple_holes.py:212-213). -/
def area (g : Geom2D) : Except PyErr ℚ := areaLoop 0 g

/-- `Geom2D_Py_Simple_Holes.polygon` (geom2d_simple_holes.py:215-231) for coordinates that pass the
check of lines 218-221 (exact rationals or integral numbers), which `fr_points` turns into
rationals of the same value. -/
def polygon (points : List Pt) (reorient : Bool) : Except PyErr Geom2D := do
  let pts ← (if reorient then do
      let a ← simplePolygonArea points
      pure (if a < 0 then points.reverse else points)
    else pure points)
  let s ← SPWH.mk' pts []
  let a ← area [s]
  if a ≥ 0 then .ok [s] else .error .assertion

/-- `Geom2DBase.rectangle` (/repo/plycutter/geometry/geom2dbase.py:60-66). -/
def rectangle (x0 y0 x1 y1 : ℚ) : Except PyErr Geom2D :=
  polygon [(x0, y0), (x0, y1), (x1, y1), (x1, y0)] true

/-- `Geom2D_Py_Simple_Holes.all_segments` (geom2d_simple_holes.py:322-324). -/
def allSegments (g : Geom2D) : List Seg := List.flatMap SPWH.segments g

/-- `max` of a non-empty list given by its head. -/
def maxLoop : Int → List Int → Int
  | m, [] => m
  | m, x :: rest => maxLoop (if x > m then x else m) rest

/-- `Geom2D_Py_Simple_Holes.locate` (geom2d_simple_holes.py:326-330). -/
def locate (g : Geom2D) (pt : Pt) : Except PyErr Int := do
  if List.length g = 0 then .ok (-1)
  else
    let ls ← List.mapM (fun s => SPWH.locate s pt) g
    match ls with
    | [] => .error .valueError
    | l :: rest => .ok (maxLoop l rest)

/-- `Geom2D_Py_Simple_Holes.polygons` (geom2d_simple_holes.py:332-333). -/
def polygons (g : Geom2D) : List Geom2D := List.map (fun s => [s]) g

/-- `Geom2D_Py_Simple_Holes.exterior` (geom2d_simple_holes.py:335-337). -/
def exterior : Geom2D → Except PyErr (List Pt)
  | [s] => .ok s.outer
  | _ => .error .assertion

/-- `Geom2D_Py_Simple_Holes.holes` (geom2d_simple_holes.py:339-341). -/
def holes : Geom2D → Except PyErr (List (List Pt))
  | [s] => .ok s.holes
  | _ => .error .assertion

/-- `Geom2D_Py_Simple_Holes.transformed_with` (geom2d_simple_holes.py:350-352). -/
def transformedWith (g : Geom2D) (f : List Pt → List Pt) : Except PyErr Geom2D :=
  List.mapM (fun s => SPWH.transformedWith s f) g

/-- `min` of a non-empty list given by its head. -/
def minQ : ℚ → List ℚ → ℚ
  | m, [] => m
  | m, x :: rest => minQ (if x < m then x else m) rest

/-- `max` of a non-empty list given by its head. -/
def maxQ : ℚ → List ℚ → ℚ
  | m, [] => m
  | m, x :: rest => maxQ (if x > m then x else m) rest

/-- The values `np.dot(outer, vec) + offs` (geom2d_simple_holes.py:346). -/
def dots (outer : List Pt) (vec : Pt) (offs : ℚ) : List ℚ :=
  outer.map fun p => p.1 * vec.1 + p.2 * vec.2 + offs

/-- The loop of `project_to_1d` (geom2d_simple_holes.py:345-347). -/
def projectLoop (vec : Pt) (offs : ℚ) : Geom1D → List SPWH → Except PyErr Geom1D
  | res, [] => .ok res
  | res, s :: rest =>
    match dots s.outer vec offs with
    | [] => .error .valueError
    | d :: ds => do
      let iv ← Geom1D.construct [(.mpq (minQ d ds), .mpq (maxQ d ds))]
      let r ← Geom1D.or res iv
      projectLoop vec offs r rest

/-- `Geom2D_Py_Simple_Holes.project_to_1d` (geom2d_simple_holes.py:343-348). -/
def projectTo1d (g : Geom2D) (vec : Pt) (offs : ℚ) : Except PyErr Geom1D := do
  let e ← Geom1D.empty
  projectLoop vec offs e g

/-- `UNION_N` (geom2d_simple_holes.py:140). -/
def unionN : Nat := 64

/-- `_arrangement_op` as a parameter: geoms and the Boolean function of "is inside" flags. -/
abbrev ArrOp := List Geom2D → (List Bool → Bool) → Except PyErr Geom2D

/-- `assert len(slc) == 1; slc[0]` (geom2d_simple_holes.py:439-440). -/
def onlyElem : List Geom2D → Except PyErr Geom2D
  | [a] => .ok a
  | _ => .error .assertion

mutual
/-- `Geom2D_Py_Simple_Holes.union` (geom2d_simple_holes.py:202-207).  The first argument bounds the
nesting depth of calls and loop passes. -/
def union (arr : ArrOp) : Nat → List Geom2D → Except PyErr Geom2D
  | 0, _ => .error (.other 0)
  | fuel + 1, geoms =>
    if List.length geoms > unionN then unionTree arr fuel geoms
    else arr geoms (fun args => args.any id)

/-- One pass of the loop of `union_tree` (geom2d_simple_holes.py:428-440). -/
def unionPass (arr : ArrOp) : Nat → List Geom2D → Except PyErr (List Geom2D)
  | 0, _ => .error (.other 0)
  | _ + 1, [] => .ok []
  | fuel + 1, g :: gs => do
    let slc := List.take unionN (g :: gs)
    let x ← (if List.length slc > 1 then union arr fuel slc
      else onlyElem slc)
    let rest ← unionPass arr fuel (List.drop unionN (g :: gs))
    return x :: rest

/-- `union_tree` (geom2d_simple_holes.py:424-446). -/
def unionTree (arr : ArrOp) : Nat → List Geom2D → Except PyErr Geom2D
  | 0, _ => .error (.other 0)
  | fuel + 1, geoms =>
    if List.length geoms > 1 then do
      let nxt ← unionPass arr fuel geoms
      unionTree arr fuel nxt
    else match geoms with
      | [] => .ok empty
      | g :: _ => .ok g
end

/-- `__or__` (geom2d_simple_holes.py:271-283); the debug logging is left out. -/
def or (arr : ArrOp) (a b : Geom2D) : Except PyErr Geom2D :=
  if isEmpty a then .ok b
  else if isEmpty b then .ok a
  else arr [a, b] (fun v => match v with | [x, y] => x || y | _ => false)

/-- `__and__` (geom2d_simple_holes.py:285-289). -/
def and (arr : ArrOp) (a b : Geom2D) : Except PyErr Geom2D :=
  arr [a, b] (fun v => match v with | [x, y] => x && y | _ => false)

/-- `__sub__` (geom2d_simple_holes.py:291-305). -/
def sub (arr : ArrOp) (a b : Geom2D) : Except PyErr Geom2D :=
  if isEmpty b then .ok a
  else arr [a, b] (fun v => match v with | [x, y] => if x && !y then true else false | _ => false)

end Geom2D

/-- `buffer_of_size` (geom2d_simple_holes.py:45-60) for an exact radius `sz`.  `sq x` stands for
`Fraction(FractionFromFloat(math.sqrt(float(x)), -10))`, the floating point approximation of the
square root. -/
def bufferOfSize (sq : ℚ → ℚ) (sz : ℚ) (n : Nat) : Except PyErr (List Pt) :=
  (List.range n).mapM fun (i : Nat) =>
    let v := frangleUnitSquareVector ((i : ℚ) * 8 / n)
    let vlen2 := v.1 ^ 2 + v.2 ^ 2
    if sz = 0 then .error .zeroDivision
    else
      let vlen := sq vlen2 / sz
      if vlen = 0 then .error .zeroDivision
      else .ok (v.1 / vlen, v.2 / vlen)

/-- `area(a, b, c)` inside `simplify_degeneracies` (geom2d_simple_holes.py:564-566). -/
def area3 (a b c : Pt) : ℚ := triArea a b c

/-- `verts[k % n]` with Python's non-negative remainder. -/
def cycGet (verts : List Pt) (k : Int) : Pt :=
  verts.getD (k % (verts.length : Int)).toNat (0, 0)

/-- The inner loop of `simplify_degeneracies` (geom2d_simple_holes.py:574-592); returns the
vertices, `nz` and `changed`. -/
def simplifyPass : Nat → List Pt → Nat → Bool → Bool → Except PyErr (List Pt × Bool × Bool)
  | 0, _, _, _, _ => .error (.other 0)
  | fuel + 1, verts, i, nz, changed =>
    if i < verts.length then
      let vpp := cycGet verts ((i : Int) - 2)
      let vp := cycGet verts ((i : Int) - 1)
      let v := cycGet verts i
      let vn := cycGet verts ((i : Int) + 1)
      let nz' := if area3 vp v vn ≠ 0 then true else nz
      if area3 vpp vp v ≠ 0 ∧ area3 vp v vn = 0 then
        simplifyPass fuel (verts.eraseIdx i) i nz' true
      else simplifyPass fuel verts (i + 1) nz' changed
    else .ok (verts, nz, changed)

/-- The outer loop of `simplify_degeneracies` (geom2d_simple_holes.py:568-600). -/
def simplifyLoop : Nat → List Pt → Except PyErr (List Pt)
  | 0, _ => .error (.other 0)
  | fuel + 1, verts => do
    let (verts', nz, changed) ← simplifyPass (verts.length + 1) verts 0 false false
    if nz = false ∧ verts'.length > 0 then simplifyLoop fuel verts'.tail
    else if changed then simplifyLoop fuel verts'
    else .ok verts'

/-- `simplify_degeneracies` (geom2d_simple_holes.py:560-600). -/
def simplifyDegeneracies (verts : List Pt) : Except PyErr (List Pt) :=
  simplifyLoop (verts.length + 1) verts

end Ply
