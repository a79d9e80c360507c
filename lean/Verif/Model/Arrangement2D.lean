import Verif.Model.Geom2D
import Verif.Model.AABB
import Verif.Model.Scan2D
import Verif.Model.SegmentTree
import Verif.Model.CellMerger
import Mathlib.Data.List.Sort

/-!
# Model of /repo/plycutter/geometry/impl2d/arrangement2d.py

and of `_arrangement`, `_arrangement_op` in
/repo/plycutter/geometry/impl2d/geom2d_simple_holes.py.

The iteration orders of Python sets are parameters (`Choices`).  Dictionaries are lists of pairs in the
order of insertion.  `sids`, the original segments along an edge, are written and never read, and are
left out.  Not modelled because nothing calls it: `__init__find_cell_hierarchy`,
`__init__find_cell_points_new`, `__init__qtree`, `ray_halfedge_query_general_ray_slow`,
`cell_topology`, and the code after the `return` in `poly_cells`.
-/

namespace Ply.Arr

/-- The iteration orders of the sets. -/
structure Choices where
  /-- `list(segments)` (arrangement2d.py:195) -/
  segs : List Seg → List Seg
  /-- `for v in vertices` (arrangement2d.py:249) -/
  verts : List Pt → List Pt
  /-- `unprocessed_half_edges.pop()` (arrangement2d.py:326) -/
  pop : List Seg → Seg
  /-- `list(cells)` (arrangement2d.py:533) for the given cell -/
  conts : List Pt → List (List Pt) → List (List Pt)
  /-- `for cell in cells` (arrangement2d.py:788) -/
  cells : List (List Pt) → List (List Pt)
  /-- the sets inside the `i`-th `add_cell` (arrangement2d.py:789) -/
  merger : ℕ → CellMerger.Orders Pt
  /-- `for cell in self.cells` (cell_merger.py:164) -/
  merged : List (List Pt × List (List Pt)) → List (List Pt × List (List Pt))
  /-- `for negverts in pos_negatives[positive]` (arrangement2d.py:903) -/
  holes : List Pt → List (List Pt) → List (List Pt)

/-- The orders really iterate over the sets. -/
structure Choices.Valid (ch : Choices) : Prop where
  segs : ∀ l, (ch.segs l).Perm l
  verts : ∀ l, (ch.verts l).Perm l
  pop : ∀ l, l ≠ [] → ch.pop l ∈ l
  conts : ∀ c l, (ch.conts c l).Perm l
  cells : ∀ l, (ch.cells l).Perm l
  merger : ∀ i, (ch.merger i).Valid
  merged : ∀ l, (ch.merged l).Perm l
  holes : ∀ p l, (ch.holes p l).Perm l

/-- `a < b` on tuples of two numbers. -/
def ptLt (a b : Pt) : Prop := a.1 < b.1 ∨ a.1 = b.1 ∧ a.2 < b.2

instance (a b : Pt) : Decidable (ptLt a b) := by unfold ptLt; infer_instance

/-- `a <= b` on tuples `(t, ((x, y), (z, w)))`. -/
def interLe (a b : ℚ × Seg) : Prop :=
  a.1 < b.1 ∨ a.1 = b.1 ∧ (ptLt a.2.1 b.2.1 ∨ a.2.1 = b.2.1 ∧ (ptLt a.2.2 b.2.2 ∨ a.2.2 = b.2.2))

instance (a b : ℚ × Seg) : Decidable (interLe a b) := by unfold interLe; infer_instance

/-- `tuple(sorted(seg))` (arrangement2d.py:183, 256). -/
def segSorted (s : Seg) : Seg := if ptLt s.2 s.1 then (s.2, s.1) else s

/-- `assert c` -/
def ensure (c : Prop) [Decidable c] : Except PyErr Unit := if c then .ok () else .error .assertion

/-! ### Vertices -/

/-- `_Vertex.half_edges_by_order` (arrangement2d.py:55): keys and half-edges by increasing key. -/
abbrev Fan := List (ℚ × Seg)

/-- `_HalfEdge.frangle` (arrangement2d.py:117-118). -/
def heFrangle (he : Seg) : Except PyErr ℚ := vectorFrangle (he.2.1 - he.1.1, he.2.2 - he.1.2)

/-- `_Vertex._key` (arrangement2d.py:47-50). -/
def vkey (c : Pt) (he : Seg) : Except PyErr ℚ :=
  if he.1 = c then heFrangle he else .error .assertion

/-- `SortedList.add` -/
def fanInsert (x : ℚ × Seg) : Fan → Fan
  | [] => [x]
  | y :: rest => if x.1 < y.1 then x :: y :: rest else y :: fanInsert x rest

/-- `_Vertex.add_half_edge` (arrangement2d.py:57-62). -/
def addHalfEdge (c : Pt) (fan : Fan) (he : Seg) : Except PyErr Fan := do
  let k ← vkey c he
  if fan.any (fun x => decide (x.1 = k)) then .error .assertion else return fanInsert (k, he) fan

/-- `_Vertex.get_next_cw` (arrangement2d.py:64-79). -/
def getNextCw (c : Pt) (fan : Fan) (he : Seg) : Except PyErr Seg := do
  let k ← vkey c he
  match fan.find? (fun x => decide (k < x.1)) with
  | some x => return x.2
  | none =>
    match fan.head? with
    | some x => return x.2
    | none => .error .assertion

/-- `_Vertex.get_next_ccw` (arrangement2d.py:81-104). -/
def getNextCcw (c : Pt) (fan : Fan) (he : Seg) : Except PyErr Seg := do
  let k ← vkey c he
  let nxt ← (match fan.reverse.find? (fun x => decide (x.1 < k)) with
    | some x => (return x.2 : Except PyErr Seg)
    | none =>
      match fan.getLast? with
      | some x => return x.2
      | none => .error .assertion)
  let prev ← getNextCw c fan nxt
  if prev = he then return nxt else .error .assertion

/-! ### Vertices and edges of the arrangement -/

/-- `d[k]` -/
def dget {κ α : Type} [DecidableEq κ] (k : κ) : List (κ × α) → Except PyErr α
  | [] => .error .keyError
  | (k', v) :: rest => if k' = k then .ok v else dget k rest

/-- `d[k] = v` -/
def dset {κ α : Type} [DecidableEq κ] (k : κ) (v : α) : List (κ × α) → List (κ × α)
  | [] => [(k, v)]
  | (k', v') :: rest => if k' = k then (k', v) :: rest else (k', v') :: dset k v rest

/-- `s.add(x)` for a set. -/
def sadd {α : Type} [DecidableEq α] (x : α) (l : List α) : List α := if x ∈ l then l else l ++ [x]

/-- `d[k].add(x)` for a `defaultdict(set)`. -/
def daddSet {κ α : Type} [DecidableEq κ] [DecidableEq α] (k : κ) (x : α) :
    List (κ × List α) → List (κ × List α)
  | [] => [(k, [x])]
  | (k', l) :: rest => if k' = k then (k', sadd x l) :: rest else (k', l) :: daddSet k x rest

/-- `d[k]` for a `defaultdict(set)`. -/
def dgetSet {κ α : Type} [DecidableEq κ] (k : κ) : List (κ × List α) → List α
  | [] => []
  | (k', l) :: rest => if k' = k then l else dgetSet k rest

/-- `vertices` and `segment_vertices` (arrangement2d.py:203-204). -/
structure Points where
  vertices : List Pt
  segVerts : List (Seg × List Pt)

/-- The loop of `add_vertex` (arrangement2d.py:215-219). -/
def addVertexSegs (v : Pt) : List Seg → List (Seg × List Pt) → Except PyErr (List (Seg × List Pt))
  | [], sv => .ok sv
  | s :: rest, sv =>
    match lineSegPointFractionFuel 2 s v with
    | some (some lsf) =>
      if 0 ≤ lsf ∧ lsf ≤ 1 then addVertexSegs v rest (daddSet s v sv) else .error .assertion
    | some none => .error .assertion
    | none => .error (.other 0)

/-- `add_vertex` (arrangement2d.py:208-220). -/
def addVertex (st : Points) (v : Pt) (segs : List Seg) : Except PyErr Points := do
  let sv ← addVertexSegs v segs st.segVerts
  return ⟨sadd v st.vertices, sv⟩

/-- The end points (arrangement2d.py:222-227). -/
def addEnds : List Seg → Points → Except PyErr Points
  | [], st => .ok st
  | s :: rest, st => do
    ensure (s.1 ≠ s.2)
    let st ← addVertex st s.1 [s]
    let st ← addVertex st s.2 [s]
    addEnds rest st

/-- The intersections (arrangement2d.py:229-231). -/
def addInters : List (Pt × List Seg) → Points → Except PyErr Points
  | [], st => .ok st
  | r :: rest, st => do
    let st ← addVertex st r.1 r.2
    addInters rest st

/-- `self.half_edges` (its keys) and `self.vertices`. -/
structure Net where
  halfEdges : List Seg
  vertices : List (Pt × Fan)

/-- `_add_to_edge` (arrangement2d.py:160-167). -/
def addToEdge (net : Net) (v0 v1 : Pt) : Except PyErr Net :=
  if (v0, v1) ∈ net.halfEdges then .ok net
  else do
    let _ ← heFrangle (v0, v1)
    let _ ← heFrangle (v1, v0)
    let hes := sadd (v1, v0) (net.halfEdges ++ [(v0, v1)])
    let f0 ← dget v0 net.vertices
    let f0 ← addHalfEdge v0 f0 (v0, v1)
    let vs := dset v0 f0 net.vertices
    let f1 ← dget v1 vs
    let f1 ← addHalfEdge v1 f1 (v1, v0)
    return ⟨hes, dset v1 f1 vs⟩

/-- The loop over consecutive vertices of a segment (arrangement2d.py:287-291). -/
def addChain : List Pt → Net → Except PyErr Net
  | v0 :: v1 :: rest, net => do
    let net ← addToEdge net v0 v1
    addChain (v1 :: rest) net
  | _, net => .ok net

/-- The sort key (arrangement2d.py:283). -/
def dist2 (v0 v : Pt) : ℚ := (v.1 - v0.1) ^ 2 + (v.2 - v0.2) ^ 2

/-- `sorted(seg_vertices, key=...)` (arrangement2d.py:281-283). -/
def sortFrom (v0 : Pt) (l : List Pt) : List Pt := l.insertionSort fun a b => dist2 v0 a ≤ dist2 v0 b

/-- The loop over all segments (arrangement2d.py:255-291). -/
def addSegments (sv : List (Seg × List Pt)) : List Seg → Net → Except PyErr Net
  | [], net => .ok net
  | s :: rest, net => do
    let vs := sortFrom s.1 (dgetSet (segSorted s) sv)
    ensure (vs.length ≥ 2)
    let net ← addChain vs net
    addSegments sv rest net

/-- The loop of the invariants check for one vertex (arrangement2d.py:298-307); the first argument is
the number of iterations left. -/
def checkFan (c : Pt) (fan : Fan) (he0 : Seg) : ℕ → Seg → Seg → Except PyErr Unit
  | 0, cw, ccw => do
    ensure (cw = he0)
    ensure (ccw = he0)
  | n + 1, cw, ccw => do
    let cw ← getNextCw c fan cw
    let ccw ← getNextCcw c fan ccw
    if n ≥ 1 then do
      ensure (cw ≠ he0)
      ensure (ccw ≠ he0)
      checkFan c fan he0 n cw ccw
    else checkFan c fan he0 n cw ccw

/-- The invariants check (arrangement2d.py:294-307). -/
def checkFans : List (Pt × Fan) → Except PyErr Unit
  | [] => .ok ()
  | (c, fan) :: rest =>
    match fan with
    | [] => .error .indexError
    | x :: _ => do
      checkFan c fan x.2 fan.length x.2 x.2
      checkFans rest

/-! ### The general vector and the ray query -/

/-- `frangles` (arrangement2d.py:581-586). -/
def generalFrangles : List Seg → Except PyErr (List ℚ)
  | [] => .ok []
  | he :: rest => do
    let f ← heFrangle he
    let fs ← generalFrangles rest
    return pyMod (f + 0 * 2) 8 :: pyMod (f + 1 * 2) 8 :: pyMod (f + 2 * 2) 8 :: pyMod (f + 3 * 2) 8 :: fs

/-- `_find_general_vector` (arrangement2d.py:574-602). -/
def findGeneralVector (hes : List Seg) : Except PyErr Pt := do
  let fs ← generalFrangles hes
  let sorted := fs.insertionSort (· ≤ ·)
  match sorted with
  | [] => return (0, 1)
  | first :: _ =>
    match sorted.find? (fun x => decide (first < x)) with
    | none => .error .assertion
    | some second => do
      ensure (first ≠ second)
      return frangleUnitSquareVector ((first + second) / 2)

/-- `np.dot` of two vectors. -/
def dotP (u v : Pt) : ℚ := u.1 * v.1 + u.2 * v.2

/-- `general_vector_normal` (arrangement2d.py:310). -/
def normalOf (v : Pt) : Pt := (v.2 * -1, v.1 * 1)

/-- The segments of `__init__gstree` (arrangement2d.py:559-569). -/
def gsegs (normal : Pt) : List Seg → Except PyErr (List (STSeg Seg))
  | [] => .ok []
  | he :: rest =>
    if ptLt he.1 he.2 then do
      let p0 := dotP normal he.1
      let p1 := dotP normal he.2
      let r ← gsegs normal rest
      return (if p1 < p0 then (p1, p0, he) else (p0, p1, he)) :: r
    else do
      ensure (ptLt he.2 he.1)
      gsegs normal rest

/-- What the ray query reads. -/
structure Rays where
  halfEdges : List Seg
  gv : Pt
  tree : STree Seg

/-- `sum(abs(self.aabb.upper - self.aabb.lower))` (arrangement2d.py:610); not a number only if the box
is empty, in which case there are no cells and no query is made. -/
def extent (b : AABB) : Except PyErr ℚ :=
  match b.lower, b.upper with
  | (some x0, some y0), (some x1, some y1) => .ok (|x1 - x0| + |y1 - y0|)
  | _, _ => .error (.other 1)

/-- The decision of `_ray_halfedge_test` for `keep_all=False` at an end of the half-edge
(arrangement2d.py:705-717). -/
def keepEnd (he : Seg) (frangle the : ℚ) : Except PyErr Bool := do
  let f ← heFrangle he
  let df := pyMod (f - frangle) 8
  if df ≠ 0 ∧ df ≠ 4 then
    return if the = 0 then decide (df < 4) else if the = 1 then !decide (df < 4) else false
  else .error .assertion

/-- `_ray_halfedge_test` (arrangement2d.py:691-720); the list of what is appended to `inters`. -/
def rayTest (he : Seg) (ray : Seg) (frangle : ℚ) (keepAll : Bool) (const : ℚ) :
    Except PyErr (List (ℚ × Seg)) := do
  let (_, the, tray) ← segSegGeneralIntersection he ray
  let keep ← (if keepAll then (return decide (0 ≤ the ∧ the ≤ 1) : Except PyErr Bool)
    else if 0 < the ∧ the < 1 then return true
    else keepEnd he frangle the)
  return if keep then [(tray * const, he)] else []

/-- The loop over the segments found (arrangement2d.py:621-628). -/
def rayLoop (hes : List Seg) (ray : Seg) (frangle : ℚ) (keepAll : Bool) (const : ℚ) :
    List (STSeg Seg) → Except PyErr (List (ℚ × Seg))
  | [] => .ok []
  | s :: rest =>
    if s.2.2 ∈ hes then do
      let a ← rayTest s.2.2 ray frangle keepAll const
      if (s.2.2.2, s.2.2.1) ∈ hes then do
        let b ← rayTest (s.2.2.2, s.2.2.1) ray frangle keepAll const
        let r ← rayLoop hes ray frangle keepAll const rest
        return a ++ b ++ r
      else .error .keyError
    else .error .keyError

/-- `ray_halfedge_query_the_general_ray` (arrangement2d.py:604-630). -/
def rayQuery (R : Rays) (aabb : AABB) (pt d : Pt) (keepAll : Bool) : Except PyErr (List (ℚ × Seg)) := do
  let frangle ← vectorFrangle d
  let e ← extent aabb
  let const := 10 * (e / max |d.1| |d.2|)
  let ray : Seg := (pt, (pt.1 + const * d.1, pt.2 + const * d.2))
  ensure (aabb.contains ray.2 = false)
  let found ← segmentTreeStab R.tree (dotP (normalOf R.gv) pt)
  let inters ← rayLoop R.halfEdges ray frangle keepAll const found
  return inters.insertionSort interLe

/-- `ray_halfedge_query_general_ray` (arrangement2d.py:632-639). -/
def rayQueryGeneral (R : Rays) (aabb : AABB) (pt d : Pt) (keepAll : Bool) :
    Except PyErr (List (ℚ × Seg)) :=
  if d = R.gv ∨ (-d.1, -d.2) = R.gv then rayQuery R aabb pt d keepAll else .error .exception

/-! ### Cells -/

/-- The inner loop of `__init__find_cells` (arrangement2d.py:332-351): the vertices and the half-edges
left.  `vs` are the vertices before `cur`, of which `prev` is the last. -/
def walk (verts : List (Pt × Fan)) (h0 : Seg) : ℕ → Pt → Pt → List Pt → List Seg →
    Except PyErr (List Pt × List Seg)
  | 0, _, _, _, _ => .error (.other 0)
  | fuel + 1, prev, cur, vs, todo => do
    let fan ← dget cur verts
    let nxt ← getNextCcw cur fan (cur, prev)
    if nxt = h0 then do
      ensure (cur = h0.1)
      return (vs, todo)
    else do
      ensure (nxt ∈ todo)
      ensure (nxt.1 = cur)
      ensure (nxt.2 ≠ cur)
      ensure (nxt.2 ≠ prev)
      walk verts h0 fuel cur nxt.2 (vs ++ [cur]) (todo.erase nxt)

/-- The loop setting `he.cell` (arrangement2d.py:366-370). -/
def setCell (hes : List Seg) (cell : List Pt) : List Seg → List (Seg × List Pt) →
    Except PyErr (List (Seg × List Pt))
  | [], hc => .ok hc
  | e :: rest, hc =>
    if e ∈ hes then do
      ensure (hc.all fun x => decide (x.1 ≠ e))
      setCell hes cell rest (hc ++ [(e, cell)])
    else .error .keyError

/-- The cells with `negative`, and the attribute `cell` of half-edges. -/
structure Cells where
  cells : List (List Pt × Bool)
  heCell : List (Seg × List Pt)

/-- The outer loop of `__init__find_cells` (arrangement2d.py:320-370). -/
def findCells (ch : Choices) (net : Net) : ℕ → List Seg → Cells → Except PyErr Cells
  | n, todo, st =>
    if todo = [] then .ok st
    else match n with
      | 0 => .error (.other 0)
      | n + 1 => do
        let h0 := ch.pop todo
        let (cell, todo') ← walk net.vertices h0 (net.halfEdges.length + 1) h0.1 h0.2 [h0.1]
          (todo.erase h0)
        let area ← simplePolygonArea cell
        ensure (area ≠ 0)
        let hc ← setCell net.halfEdges cell (edgesIter cell) st.heCell
        findCells ch net n todo' ⟨st.cells ++ [(cell, decide (area < 0))], hc⟩

/-- `_find_point_in_cell` (arrangement2d.py:728-765). -/
def findPoint (R : Rays) (aabb : AABB) (cell : List Pt) : Except PyErr Pt :=
  match cell with
  | c0 :: c1 :: _ => do
    let pt : Pt := ((c0.1 + c1.1) / 2, (c0.2 + c1.2) / 2)
    let normal : Pt := ((c1.2 - c0.2) * 1, (c1.1 - c0.1) * -1)
    let d := dotP R.gv normal
    ensure (d ≠ 0)
    let v : Pt := if d < 0 then (-R.gv.1, -R.gv.2) else R.gv
    let inters ← rayQueryGeneral R aabb pt v true
    match inters.find? (fun x => decide (0 < x.1)) with
    | none => return (pt.1 + v.1, pt.2 + v.2)
    | some x => return (pt.1 + x.1 / 2 * v.1, pt.2 + x.1 / 2 * v.2)
  | _ => .error .indexError

/-- A `_Cell` after `__init__find_cell_points`. -/
structure Cell1 where
  vertices : List Pt
  negative : Bool
  point : Pt

/-- `__init__find_cell_points` (arrangement2d.py:491-504). -/
def findPoints (R : Rays) (aabb : AABB) : List (List Pt × Bool) → Except PyErr (List Cell1)
  | [] => .ok []
  | c :: rest => do
    let pt ← findPoint R aabb c.1
    let loc ← locateWinding c.1 pt
    if c.2 then ensure (loc < 0) else ensure (loc > 0)
    let r ← findPoints R aabb rest
    return ⟨c.1, c.2, pt⟩ :: r

/-- `cells ^= {c}` -/
def symDiff1 (c : List Pt) (cells : List (List Pt)) : List (List Pt) :=
  if c ∈ cells then cells.erase c else cells ++ [c]

/-- The loop over the intersections (arrangement2d.py:516-521). -/
def around (hc : List (Seg × List Pt)) : List (ℚ × Seg) → List (List Pt) → Except PyErr (List (List Pt))
  | [], cells => .ok cells
  | x :: rest, cells =>
    if x.1 < 0 then around hc rest cells
    else do
      ensure (x.1 ≠ 0)
      let c ← dget x.2 hc
      around hc rest (symDiff1 c cells)

/-- `self.cells[c].negative` -/
def isNegative (cells : List Cell1) (c : List Pt) : Except PyErr Bool :=
  dget c (cells.map fun x => (x.vertices, x.negative))

/-- `len([c for c in cells if not self.cells[c].negative])` (arrangement2d.py:535-537). -/
def countPos (all : List Cell1) : List (List Pt) → Except PyErr ℕ
  | [] => .ok 0
  | c :: rest => do
    let n ← isNegative all c
    let k ← countPos all rest
    return if n then k else k + 1

/-- The first loop of `__init__find_negative_cells_outside` (arrangement2d.py:509-539): for every cell
its containers and its degree. -/
def findContainers (ch : Choices) (R : Rays) (aabb : AABB) (hc : List (Seg × List Pt)) (all : List Cell1) :
    List Cell1 → Except PyErr (List (List Pt × List (List Pt) × ℕ))
  | [] => .ok []
  | c :: rest => do
    let inters ← rayQuery R aabb c.point R.gv false
    let cells ← around hc inters []
    let cells ← (if c.negative then do
        ensure (c.vertices ∉ cells)
        return cells
      else do
        ensure (c.vertices ∈ cells)
        return cells.erase c.vertices : Except PyErr (List (List Pt)))
    let k ← countPos all cells
    let r ← findContainers ch R aabb hc all rest
    return (c.vertices, ch.conts c.vertices cells, 2 * k + if c.negative then 0 else 1) :: r

/-- `[degrees[c] for c in cont]` (arrangement2d.py:546). -/
def degreesOf (info : List (List Pt × List (List Pt) × ℕ)) : List (List Pt) → Except PyErr (List ℕ)
  | [] => .ok []
  | c :: rest => do
    let d ← dget c (info.map fun x => (x.1, x.2.2))
    let r ← degreesOf info rest
    return d :: r

/-- `cont[np.argmax(deg)]`: the first one with the largest degree. -/
def argmaxFrom (best : List Pt × ℕ) : List (List Pt × ℕ) → List Pt × ℕ
  | [] => best
  | x :: rest => argmaxFrom (if best.2 < x.2 then x else best) rest

/-- The second loop of `__init__find_negative_cells_outside` (arrangement2d.py:541-552): the containers. -/
def chooseContainers (all : List Cell1) (info : List (List Pt × List (List Pt) × ℕ)) :
    List (List Pt × List (List Pt) × ℕ) → Except PyErr (List (List Pt × Option (List Pt)))
  | [] => .ok []
  | x :: rest =>
    match x.2.1 with
    | [] => do
      let r ← chooseContainers all info rest
      return (x.1, none) :: r
    | c :: cs => do
      let degs ← degreesOf info (c :: cs)
      match (c :: cs).zip degs with
      | [] => .error .valueError
      | y :: ys => do
        let best := argmaxFrom y ys
        ensure ((best.2 : ℤ) = (x.2.2 : ℤ) - 1)
        let n0 ← isNegative all best.1
        let n1 ← isNegative all x.1
        ensure (n0 ≠ n1)
        let r ← chooseContainers all info rest
        return (x.1, some best.1) :: r

/-- A `SegmentArrangement`: what is read after construction. -/
structure Arrangement where
  net : Net
  cells : List Cell1
  containers : List (List Pt × Option (List Pt))

/-- The vertices and half-edges: first half of `SegmentArrangement.__init__`
(arrangement2d.py:175-291), with the bounding box.  The class checks of lines 184-191 hold for exact
input. -/
def buildNet (ch : Choices) (segments : List Seg) : Except PyErr (Net × AABB) := do
  let segs := ch.segs (segments.map segSorted).dedup
  let st ← addEnds segs ⟨[], []⟩
  let inters ← allSegmentIntersections (2 * segs.length + segs.length * segs.length) segs
  let st ← addInters inters st
  let verts := ch.verts st.vertices
  let aabb := verts.foldl AABB.includePoint (AABB.make none none)
  let net ← addSegments st.segVerts segments ⟨[], verts.map fun v => (v, [])⟩
  return (net, aabb)

/-- The general vector and the search tree (arrangement2d.py:309-313). -/
def buildRays (net : Net) : Except PyErr Rays := do
  let gv ← findGeneralVector net.halfEdges
  let gs ← gsegs (normalOf gv) net.halfEdges
  let tree ← segmentTree gs
  return ⟨net.halfEdges, gv, tree⟩

/-- `SegmentArrangement.__init__` (arrangement2d.py:169-315, 317-381). -/
def build (ch : Choices) (segments : List Seg) : Except PyErr Arrangement := do
  let (net, aabb) ← buildNet ch segments
  checkFans net.vertices
  let R ← buildRays net
  let st ← findCells ch net net.halfEdges.length net.halfEdges ⟨[], []⟩
  let cells ← findPoints R aabb st.cells
  let aabb' := cells.foldl (fun b c => b.includePoint c.point) aabb
  let info ← findContainers ch R aabb' st.heCell cells cells
  let conts ← chooseContainers cells info info
  return ⟨net, cells, conts⟩

/-! ### Polygons from cells -/

/-- The split into `positives` and `negatives` (arrangement2d.py:796-804). -/
def splitSign : List (List Pt × List (List Pt)) →
    Except PyErr (List (List Pt × List (List Pt)) × List (List Pt × List (List Pt)))
  | [] => .ok ([], [])
  | c :: rest => do
    let a ← simplePolygonArea c.1
    ensure (a ≠ 0)
    let (p, n) ← splitSign rest
    return if a > 0 then (c :: p, n) else (p, c :: n)

/-- The inner loop filling `pos_original_cell` (arrangement2d.py:811-813). -/
def posOriginals1 (pos : List Pt) : List (List Pt) → List (List Pt × List Pt) →
    Except PyErr (List (List Pt × List Pt))
  | [], m => .ok m
  | o :: rest, m => do
    ensure (m.all fun x => decide (x.1 ≠ o))
    posOriginals1 pos rest (m ++ [(o, pos)])

/-- `pos_original_cell` (arrangement2d.py:809-813). -/
def posOriginals : List (List Pt × List (List Pt)) → List (List Pt × List Pt) →
    Except PyErr (List (List Pt × List Pt))
  | [], m => .ok m
  | c :: rest, m => do
    let m ← posOriginals1 c.1 c.2 m
    posOriginals rest m

/-- `pos_original_cell.get(c, None)` -/
def getPos (m : List (List Pt × List Pt)) (c : List Pt) : Option (List Pt) :=
  (m.find? fun x => decide (x.1 = c)).map Prod.snd

/-- The loop outwards (arrangement2d.py:864-875). -/
def outwards (conts : List (List Pt × Option (List Pt))) (m : List (List Pt × List Pt)) :
    ℕ → List Pt → Except PyErr (Option (List Pt))
  | 0, _ => .error (.other 0)
  | fuel + 1, cur => do
    match ← dget cur conts with
    | none => return none
    | some c =>
      match getPos m c with
      | some o => return some o
      | none => outwards conts m fuel c

/-- The loop over the originals of a negative cell (arrangement2d.py:857-885). -/
def findOuter (conts : List (List Pt × Option (List Pt))) (m : List (List Pt × List Pt)) :
    List (List Pt) → Option (List Pt) → Except PyErr (Option (List Pt))
  | [], outer => .ok outer
  | o :: rest, outer => do
    let opos ← (match getPos m o with
      | some p => return some p
      | none => outwards conts m (conts.length + 1) o : Except PyErr (Option (List Pt)))
    match opos, outer with
    | some p, some q => do
      ensure (q = p)
      findOuter conts m rest outer
    | some p, none => findOuter conts m rest (some p)
    | none, _ => findOuter conts m rest outer

/-- `pos_negatives` as pairs (arrangement2d.py:853-890). -/
def posNegatives (conts : List (List Pt × Option (List Pt))) (m : List (List Pt × List Pt)) :
    List (List Pt × List (List Pt)) → Except PyErr (List (List Pt × List Pt))
  | [] => .ok []
  | c :: rest => do
    match ← findOuter conts m c.2 none with
    | none => .error .assertion
    | some o => do
      let r ← posNegatives conts m rest
      return (o, c.1) :: r

/-- The results (arrangement2d.py:897-904). -/
def makePolys (ch : Choices) (pn : List (List Pt × List Pt)) : List (List Pt) → Except PyErr Geom2D
  | [] => .ok []
  | p :: rest => do
    let negs := ((pn.filter fun x => decide (x.1 = p)).map Prod.snd).dedup
    let s ← SPWH.mk' p ((ch.holes p negs).map List.reverse)
    let r ← makePolys ch pn rest
    return s :: r

/-- `poly_cells` (arrangement2d.py:776-904). -/
def polyCells (ch : Choices) (A : Arrangement) (cells : List (List Pt)) : Except PyErr Geom2D := do
  let cs := ch.cells cells
  let n := (cs.map List.length).sum
  let m ← CellMerger.addCells CellMerger.Merger.empty
    (cs.zipIdx.map fun c => (ch.merger c.2, (n + 1) * (n + 1), c.1))
  let co ← CellMerger.getCellsOriginals m
  let (pos, neg) ← splitSign (ch.merged co)
  let pm ← posOriginals pos []
  let pn ← posNegatives A.containers pm neg
  makePolys ch pn (pos.map Prod.fst)

/-! ### `_arrangement_op` -/

/-- The flags `loc > 0` with the assertion on `locs`
(/repo/plycutter/geometry/impl2d/geom2d_simple_holes.py:172-176, 185-190). -/
def flags (pt : Pt) : List Geom2D → Except PyErr (List Bool)
  | [] => .ok []
  | g :: rest => do
    let loc ← Geom2D.locate g pt
    ensure (loc = -1 ∨ loc = 1)
    let r ← flags pt rest
    return decide (loc > 0) :: r

/-- The first loop over the cells (geom2d_simple_holes.py:171-177). -/
def selectCells (geoms : List Geom2D) (op : List Bool → Bool) : List Cell1 → Except PyErr (List (List Pt))
  | [] => .ok []
  | c :: rest => do
    let fs ← flags c.point geoms
    let r ← selectCells geoms op rest
    return if op fs then c.vertices :: r else r

/-- The check of the result (geom2d_simple_holes.py:182-193). -/
def checkResult (geoms : List Geom2D) (op : List Bool → Bool) (result : Geom2D) :
    List Cell1 → Except PyErr Unit
  | [] => .ok ()
  | c :: rest => do
    let fs ← flags c.point geoms
    let loc ← Geom2D.locate result c.point
    if op fs then ensure (loc > 0) else ensure (loc < 0)
    checkResult geoms op result rest

/-- `_arrangement_op` (geom2d_simple_holes.py:153-195).  In Python the assertion on `locs` comes
after all of `locs` is computed, here after each; which exception is raised may differ. -/
def arrangementOp (ch : Choices) : Geom2D.ArrOp := fun geoms op => do
  let A ← build ch (geoms.flatMap Geom2D.allSegments)
  let cells ← selectCells geoms op A.cells
  let polys ← polyCells ch A cells
  checkResult geoms op polys A.cells
  return polys

end Ply.Arr
