import Verif.Model.Geom2D
import Mathlib.Algebra.Group.Prod

/-!
# Model of `buffer` and the Minkowski operations

/repo/plycutter/geometry/impl2d/geom2d_simple_holes.py.  Debug logging and the module globals kept for
debugging are left out.
-/

namespace Ply

/-- `edge_start_by_frangle` (geom2d_simple_holes.py:472): the entries of the dictionary. -/
abbrev FrMap := List (ℚ × Nat)

/-- The loop filling `edge_start_by_frangle` (geom2d_simple_holes.py:473-483). -/
def edgeStarts : List (Seg × Nat) → FrMap → Except PyErr FrMap
  | [], m => .ok m
  | (e, i) :: rest, m => do
    let frangle ← vectorFrangle (e.2 - e.1)
    if 0 ≤ frangle then
      if m.any (fun x => decide (x.1 = frangle)) then edgeStarts rest m
      else edgeStarts rest (m ++ [(frangle, i), (frangle + 8, i), (frangle - 8, i)])
    else .error .assertion

/-- The last entry with a key between -8 and `frangle`, the first element of
`irange(-8, frangle, inclusive=(True, True), reverse=True)` (geom2d_simple_holes.py:488-489). -/
def floorEntry (frangle : ℚ) : FrMap → Option (ℚ × Nat)
  | [] => none
  | x :: rest =>
    match floorEntry frangle rest with
    | none => if -8 ≤ x.1 ∧ x.1 ≤ frangle then some x else none
    | some b => if -8 ≤ x.1 ∧ x.1 ≤ frangle ∧ b.1 < x.1 then some x else some b

/-- `find_vertex_on` (geom2d_simple_holes.py:487-490). -/
def findVertexOn (m : FrMap) (n : Nat) (frangle : ℚ) : Except PyErr Nat :=
  match floorEntry frangle m with
  | none => .error .indexError
  | some x => .ok ((x.2 + 1) % n)

/-- `_triple_vertices_iter` (geom2d_simple_holes.py:453-456). -/
def tripleVerticesIter (cell : List Pt) : List (Pt × Pt × Pt) :=
  (List.range cell.length).map fun i =>
    (cell.getD ((i + cell.length - 1) % cell.length) (0, 0), cell.getD i (0, 0),
      cell.getD ((i + 1) % cell.length) (0, 0))

/-- `np.arange(a, 1 + (b if b >= a else b + n))`, taken modulo `n`
(geom2d_simple_holes.py:504-505, 510-511, 516). -/
def idxRange (n a b : Nat) : List Nat :=
  (List.range' a (1 + (if b ≥ a then b else b + n) - a)).map (· % n)

/-- `idxs` and `others` of one corner (geom2d_simple_holes.py:501-523). -/
def cornerLists (n : Nat) (sign : Int) (right : Bool) (iprev inext : Nat) (shifted vn v : Pt) :
    List Nat × List Pt :=
  let others := [shifted, vn, v]
  let (idxs, others) :=
    if right then (if sign < 0 then [inext % n] else idxRange n iprev inext, others)
    else (if sign > 0 then [inext % n] else idxRange n inext iprev, others.reverse)
  if sign < 0 then (idxs.reverse, others.reverse) else (idxs, others)

/-- The positions `adds` (geom2d_simple_holes.py:533-536). -/
def addsOf (sign : Int) (verts : List Pt) (v : Pt) : List Nat :=
  (List.range (verts.length - 1)).filter fun i =>
    decide ((sign : ℚ) * triArea (verts.getD i (0, 0)) (verts.getD (i + 1) (0, 0)) v < 0)

/-- `for i in reversed(sorted(adds)): verts[i:i] = [v]` (geom2d_simple_holes.py:537-540). -/
def insertAll (v : Pt) (adds : List Nat) (verts : List Pt) : List Pt :=
  adds.reverse.foldl (fun vs i => vs.take i ++ v :: vs.drop i) verts

/-- One pass of the loop over the corners, up to and including `simplify_degeneracies`
(geom2d_simple_holes.py:493-547).  `if len(idxs) == 0: continue` is never taken, as `idxs` has at least
one element. -/
def cornerPiece (m : FrMap) (cpoly : List Pt) (sign : Int) (c : Pt × Pt × Pt) : Except PyErr (List Pt) := do
  let (vp, v, vn) := c
  let pfr ← vectorFrangle (v - vp)
  let nfr ← vectorFrangle (vn - v)
  let iprev ← findVertexOn m cpoly.length pfr
  let inext ← findVertexOn m cpoly.length nfr
  let at_ (p : Pt) (i : Nat) : Pt := p + scaleQ sign (cpoly.getD i (0, 0))
  let right := decide (pyMod (nfr - pfr) 8 < 4)
  let (idxs, others) := cornerLists cpoly.length sign right iprev inext (at_ vn inext) vn v
  let verts := idxs.map (at_ v)
  let verts := insertAll v (addsOf sign verts v) verts
  simplifyDegeneracies (verts ++ others)
where
  /-- `sign * NP(p)` -/
  scaleQ (sign : Int) (p : Pt) : Pt := ((sign : ℚ) * p.1, (sign : ℚ) * p.2)

/-- The loop over the corners (geom2d_simple_holes.py:493-557). -/
def ribbonLoop (m : FrMap) (cpoly : List Pt) (sign : Int) : List (Pt × Pt × Pt) → Except PyErr (List (List Pt))
  | [] => .ok []
  | c :: rest => do
    let verts ← cornerPiece m cpoly sign c
    let parts ← ribbonLoop m cpoly sign rest
    return if verts.length > 2 then verts :: parts else parts

/-- `minkowski_ribbon_simple_convex` (geom2d_simple_holes.py:458-557). -/
def minkowskiRibbon (spoly cpoly : List Pt) (sign : Int) : Except PyErr (List (List Pt)) := do
  if cpoly.length > 2 then
    if sign = -1 ∨ sign = 1 then
      let m ← edgeStarts (edgesIter cpoly).zipIdx []
      ribbonLoop m cpoly sign (tripleVerticesIter spoly)
    else .error .assertion
  else .error .assertion

/-- The offset and the shifted polygon of `_minkowski_convex_op` (geom2d_simple_holes.py:355-363). -/
def minkowskiShift (cpoly : List Pt) (sign : Int) : Except PyErr (Pt × List Pt) := do
  if sign ≠ 0 then
    let loc ← locateWinding cpoly (0, 0)
    if loc ≠ 1 then
      match cpoly with
      | c0 :: c1 :: c2 :: _ =>
        let s := c0 + c1 + c2
        let offset : Pt := ((sign : ℚ) * s.1 / 3, (sign : ℚ) * s.2 / 3)
        let cpoly' := cpoly.map fun c => (c.1 - (sign : ℚ) * offset.1, c.2 - (sign : ℚ) * offset.2)
        let loc' ← locateWinding cpoly' (0, 0)
        if loc' = 1 then return (offset, cpoly') else .error .assertion
      | _ => .error .indexError
    else return ((0, 0), cpoly)
  else .error .assertion

/-- `Geom2D_Py_Simple_Holes([Simple_Polygon_With_Holes(reorient(e) + offset)])`
(geom2d_simple_holes.py:380-386). -/
def extGeom (offset : Pt) (e : List Pt) : Except PyErr Geom2D := do
  let a ← simplePolygonArea e
  let e' := if a < 0 then e.reverse else e
  let s ← SPWH.mk' (e'.map (· + offset)) []
  return [s]

/-- One pass of the loop over the polygons in `_minkowski_convex_op` (geom2d_simple_holes.py:371-390):
the moved outline and the pieces along it. -/
def minkowskiPoly (offset : Pt) (cpoly : List Pt) (sign : Int) (s : SPWH) : Except PyErr (Geom2D × List Geom2D) := do
  let t ← s.transformedWith fun l => l.map (· + offset)
  let o ← SPWH.mk' t.outer []
  let exts ← minkowskiRibbon s.outer cpoly sign
  let ext ← exts.mapM (extGeom offset)
  return ([o], ext)

/-- The loop over the polygons (geom2d_simple_holes.py:371-390): `pos` and `neg`. -/
def minkowskiPolys (offset : Pt) (cpoly : List Pt) (sign : Int) : Geom2D → Except PyErr (List Geom2D × List Geom2D)
  | [] => .ok ([], [])
  | s :: rest => do
    let (o, ext) ← minkowskiPoly offset cpoly sign s
    let (pos, neg) ← minkowskiPolys offset cpoly sign rest
    return if sign > 0 then (o :: ext ++ pos, neg) else (o :: pos, ext ++ neg)

/-- `union_tree` with enough fuel. -/
def unionTreeAll (arr : Geom2D.ArrOp) (geoms : List Geom2D) : Except PyErr Geom2D :=
  Geom2D.unionTree arr (geoms.length + 4) geoms

/-- `_minkowski_convex_op` (geom2d_simple_holes.py:354-404).  The code after the `return` in line 404 is
never reached.  The first argument bounds the nesting of calls; a hole has no holes, so the nesting is at
most two. -/
def minkowskiConvexOp (arr : Geom2D.ArrOp) : Nat → Geom2D → List Pt → Int → Except PyErr Geom2D
  | 0, _, _, _ => .error (.other 0)
  | fuel + 1, g, cpoly₀, sign => do
    let (offset, cpoly) ← minkowskiShift cpoly₀ sign
    let (pos, neg) ← minkowskiPolys offset cpoly sign g
    let hs ← (g.flatMap SPWH.holes).mapM fun hole => do
      let s ← SPWH.mk' hole []
      minkowskiConvexOp arr fuel [s] cpoly (-sign)
    let gpos ← unionTreeAll arr pos
    let gneg ← unionTreeAll arr (neg ++ hs)
    Geom2D.sub arr gpos gneg

/-- `buffer` (geom2d_simple_holes.py:307-320) for an exact amount. -/
def Geom2D.bufferBy (arr : Geom2D.ArrOp) (sq : ℚ → ℚ) (g : Geom2D) (amount : ℚ) : Except PyErr Geom2D :=
  if amount = 0 then .ok g
  else do
    let buf ← bufferOfSize sq |amount| 8
    minkowskiConvexOp arr 2 g buf (if amount > 0 then 1 else -1)

end Ply
