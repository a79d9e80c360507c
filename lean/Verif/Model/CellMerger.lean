import Mathlib.Data.List.Dedup
import Verif.Model.Types2D
import Mathlib.Data.List.Basic

/-!
# Model of /repo/plycutter/geometry/impl2d/cell_merger.py

Vertices are of any type with decidable equality.  The iteration orders of Python sets are parameters:
`pick` for the first element of a set of vertices, `order` for the set of cells.  A `Cell` is compared
by identity in Python; here by value, which makes no difference for removal from the set.
-/

namespace Ply.CellMerger

variable {V : Type} [DecidableEq V]

/-- `canonicalize_cell` (/repo/plycutter/geometry/impl2d/cell_merger.py:29-34); `lt` is the order of
the vertices. -/
def canonicalizeCell (lt : V → V → Bool) (cell : List V) : List V :=
  let mini := (List.range cell.length).foldl (fun mini i =>
    match cell[i]?, cell[mini]? with
    | some a, some b => if lt a b then i else mini
    | _, _ => mini) 0
  cell.drop mini ++ cell.take mini

/-- `Cell` objects: the vertices and the original cells merged into it
(/repo/plycutter/geometry/impl2d/cell_merger.py:45-48). -/
structure Cell (V : Type) where
  vertices : List V
  origs : List (List V)
  deriving DecidableEq

/-- Edges `(cell[i], cell[(i + 1) % n])` in order. -/
def cellEdges (cell : List V) : List (V × V) :=
  match cell with
  | [] => []
  | a :: rest => (a :: rest).zip (rest ++ [a])

/-- Keys of a dictionary filled in this order. -/
def dictKeys {α : Type} [DecidableEq α] (l : List α) : List α :=
  l.foldl (fun acc e => if e ∈ acc then acc else acc ++ [e]) []

/-- The keys of `half_edges` (/repo/plycutter/geometry/impl2d/cell_merger.py:50-54); the counts are
never read. -/
def Cell.halfEdges (c : Cell V) : List (V × V) := dictKeys (cellEdges c.vertices)

/-- The loop removing opposite half-edges (/repo/plycutter/geometry/impl2d/cell_merger.py:63-68). -/
def cancelLoop : List (V × V) → List (V × V) → List (V × V) → Bool →
    Except PyErr (List (V × V) × List (V × V) × Bool)
  | [], self, other, changed => .ok (self, other, changed)
  | e :: rest, self, other, changed =>
    if e ∈ other then .error .assertion
    else if (e.2, e.1) ∈ other then cancelLoop rest (self.erase e) (other.erase (e.2, e.1)) true
    else cancelLoop rest self other changed

/-- The dictionary `nxt` from vertices to sets of vertices, in insertion order. -/
abbrev Nxt (V : Type) := List (V × List V)

/-- `nxt[v0].add(v1)` (/repo/plycutter/geometry/impl2d/cell_merger.py:76). -/
def addNxt (v0 v1 : V) : Nxt V → Nxt V
  | [] => [(v0, [v1])]
  | (k, vs) :: rest =>
    if k = v0 then (k, if v1 ∈ vs then vs else vs ++ [v1]) :: rest
    else (k, vs) :: addNxt v0 v1 rest

/-- `nxt.pop(v)`: `none` is `KeyError`. -/
def popKey (v : V) : Nxt V → Option (List V × Nxt V)
  | [] => none
  | (k, vs) :: rest =>
    if k = v then some (vs, rest)
    else match popKey v rest with
      | some (vs', rest') => some (vs', (k, vs) :: rest')
      | none => none

/-- `if len(vs) > 1: nxt[k] = vs - {v}`, for a key that was just popped
(/repo/plycutter/geometry/impl2d/cell_merger.py:86-87, 93-94). -/
def putBack (k : V) (vs : List V) (v : V) (nxt : Nxt V) : Nxt V :=
  if vs.length > 1 then nxt ++ [(k, vs.filter fun x => decide (x ≠ v))] else nxt

/-- The inner loop `while v != k0` (/repo/plycutter/geometry/impl2d/cell_merger.py:88-95).
`pick n vs` is the first element of the set `vs` in the iteration order of the `n`-th access. -/
def follow (pick : ℕ → List V → V) (k0 : V) : ℕ → V → List V → Nxt V →
    Except PyErr (List V × Nxt V × ℕ)
  | n, v, lst, nxt =>
    if v = k0 then .ok (lst, nxt, n)
    else match n with
      | 0 => .error (.other 0)
      | n + 1 => match popKey v nxt with
        | none => .error .keyError
        | some (vs, nxt') =>
          let vnext := pick n vs
          follow pick k0 n vnext (lst ++ [v]) (putBack v vs vnext nxt')

/-- The outer loop `while len(nxt)` (/repo/plycutter/geometry/impl2d/cell_merger.py:81-97);
`nxt.popitem()` removes the last item. -/
def traverse (pick : ℕ → List V → V) : ℕ → ℕ → Nxt V → Except PyErr (List (List V))
  | _, _, [] => .ok []
  | 0, _, _ :: _ => .error (.other 0)
  | fuel + 1, n, a :: rest =>
    let nxt := a :: rest
    let item := nxt.getLast (by simp [nxt])
    match n with
    | 0 => .error (.other 0)
    | n + 1 => do
      let v := pick n item.2
      let (lst, nxt', n') ← follow pick item.1 n v [item.1] (putBack item.1 item.2 v nxt.dropLast)
      let res ← traverse pick fuel n' nxt'
      return lst :: res

/-- `Cell.merged` (/repo/plycutter/geometry/impl2d/cell_merger.py:59-98); `none` is `None`. -/
def merged (pick : ℕ → List V → V) (self other : Cell V) : Except PyErr (Option (List (Cell V))) := do
  let (se, oe, changed) ← cancelLoop self.halfEdges self.halfEdges other.halfEdges false
  if changed = false then return none
  else do
    let nxt := (se ++ oe).foldl (fun nxt e => addNxt e.1 e.2 nxt) []
    let loops ← traverse pick (se ++ oe).length (se ++ oe).length nxt
    return some (loops.map fun l => ⟨l, self.origs ++ other.origs⟩)

/-- The iteration orders of the sets during one `add_cell`. -/
structure Orders (V : Type) where
  pick : ℕ → ℕ → ℕ → List V → V
  order : ℕ → List (Cell V) → List (Cell V)

/-- A choice of iteration orders that really iterates over the sets. -/
structure Orders.Valid (o : Orders V) : Prop where
  pick : ∀ i j n vs, vs ≠ [] → o.pick i j n vs ∈ vs
  order : ∀ i l, (o.order i l).Perm l

/-- State of a `CellMergerSlow` object (/repo/plycutter/geometry/impl2d/cell_merger.py:100-107). -/
structure Merger (V : Type) where
  cells : List (Cell V)
  original : List (List V)
  annihilated : List (List V)

/-- `set(a) & set(b)` is not empty. -/
def meets (a b : List (List V)) : Bool := a.any fun x => decide (x ∈ b)

/-- Annihilation of two cells with originals `oc`, among the remaining `cells`
(/repo/plycutter/geometry/impl2d/cell_merger.py:133-145). -/
def annihilate (oc : List (List V)) (cells : List (Cell V)) (ann : List (List V)) :
    List (Cell V) × List (List V) :=
  (cells.map fun c => if meets c.origs oc then ⟨c.vertices, (c.origs ++ oc).dedup⟩ else c,
   if cells.any fun c => meets c.origs oc then ann else ann ++ oc)

/-- The loop `for other in list(self.cells)` (/repo/plycutter/geometry/impl2d/cell_merger.py:123-149):
the resulting cell (`none` if it was annihilated), the cells, the annihilated originals, and what is
appended to `to_add`. -/
def mergeLoop (pick : ℕ → ℕ → List V → V) : List (Cell V) → Cell V → List (Cell V) → List (List V) →
    List (Cell V) → Except PyErr (Option (Cell V) × List (Cell V) × List (List V) × List (Cell V))
  | [], cell, cells, ann, toAdd => .ok (some cell, cells, ann, toAdd)
  | other :: rest, cell, cells, ann, toAdd => do
    match ← merged (pick rest.length) cell other with
    | none => mergeLoop pick rest cell cells ann toAdd
    | some [] =>
      if meets cell.origs other.origs then .error .assertion
      else
        let (cells', ann') := annihilate (cell.origs ++ other.origs) (cells.erase other) ann
        return (none, cells', ann', toAdd)
    | some (m :: ms) => mergeLoop pick rest m (cells.erase other) ann (toAdd ++ ms)

/-- The loop `while len(to_add)` (/repo/plycutter/geometry/impl2d/cell_merger.py:118-154). -/
def addLoop (o : Orders V) : ℕ → List (Cell V) → List (Cell V) → List (List V) →
    Except PyErr (List (Cell V) × List (List V))
  | n, toAdd, cells, ann =>
    if h : toAdd = [] then .ok (cells, ann)
    else match n with
      | 0 => .error (.other 0)
      | n + 1 => do
        let (r, cells', ann', toAdd') ←
          mergeLoop (o.pick n) (o.order n cells) (toAdd.getLast h) cells ann toAdd.dropLast
        match r with
        | none => addLoop o n toAdd' cells' ann'
        | some c => addLoop o n toAdd' (cells' ++ [c]) ann'

/-- `add_cell` (/repo/plycutter/geometry/impl2d/cell_merger.py:109-154). -/
def addCell (o : Orders V) (fuel : ℕ) (s : Merger V) (cell : List V) : Except PyErr (Merger V) :=
  if cell ∈ s.original then .error .assertion
  else do
    let (cells, ann) ← addLoop o fuel [⟨cell, [cell]⟩] s.cells s.annihilated
    return ⟨cells, s.original ++ [cell], ann⟩

/-- A new merger (/repo/plycutter/geometry/impl2d/cell_merger.py:100-107). -/
def Merger.empty : Merger V := ⟨[], [], []⟩

/-- Adding cells one after the other, each with its own iteration orders and fuel. -/
def addCells : Merger V → List (Orders V × ℕ × List V) → Except PyErr (Merger V)
  | s, [] => .ok s
  | s, (o, fuel, c) :: rest => do
    let s' ← addCell o fuel s c
    addCells s' rest

/-- `check` (/repo/plycutter/geometry/impl2d/cell_merger.py:166-176). -/
def check (s : Merger V) : Except PyErr Unit :=
  let origs := s.cells.flatMap Cell.origs
  if meets origs s.annihilated then .error .assertion
  else if (∀ c ∈ origs ++ s.annihilated, c ∈ s.original) ∧ ∀ c ∈ s.original, c ∈ origs ++ s.annihilated
  then .ok ()
  else .error .assertion

/-- `get_cells` (/repo/plycutter/geometry/impl2d/cell_merger.py:158-160). -/
def getCells (s : Merger V) : Except PyErr (List (List V)) := do
  check s
  return s.cells.map Cell.vertices

/-- `get_cells_originals` (/repo/plycutter/geometry/impl2d/cell_merger.py:162-164). -/
def getCellsOriginals (s : Merger V) : Except PyErr (List (List V × List (List V))) := do
  check s
  return s.cells.map fun c => (c.vertices, c.origs)

end Ply.CellMerger
