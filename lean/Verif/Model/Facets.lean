import Verif.Model.SheetPlex
import Verif.Model.Text

/-!
# Model of the facet handling in /repo/plycutter/create_sheetplex.py

The mesh is a record of the attributes read from `trimesh`; vectors, areas and points are of arbitrary
types.  The order of enumerating a Python set is a parameter.
-/

namespace Ply

/-- The attributes of the mesh used by `find_all_facets`. -/
structure Mesh (V A : Type) where
  nFaces : ℕ
  nTriangles : ℕ
  facets : List (List ℕ)
  facetsNormal : List V
  facetsOrigin : Option (List V)
  facetsArea : List A
  facetsBoundary : List (List (ℕ × ℕ))
  faceNormals : ℕ → V
  areaFaces : ℕ → A
  firstVertex : ℕ → V
  faces : ℕ → ℕ × ℕ × ℕ

/-- The namespace returned by `find_all_facets`. -/
structure AllFacets (V A : Type) where
  facets : List (List ℕ)
  normals : List V
  origins : List V
  areas : List A
  boundaries : List (List (ℕ × ℕ))

/-- `triangles_left -= set(facet)` over all facets (create_sheetplex.py:278-279). -/
def trianglesLeft : List (List ℕ) → List ℕ → List ℕ
  | [], left => left
  | f :: rest, left => trianglesLeft rest (left.filter fun t => decide (t ∉ f))

/-- The loop over the left triangles (create_sheetplex.py:281-290). -/
def addTriangles {V A : Type} (m : Mesh V A) : List ℕ → AllFacets V A → AllFacets V A
  | [], r => r
  | t :: rest, r =>
    let f := m.faces t
    addTriangles m rest
      { facets := r.facets ++ [[t]]
        normals := r.normals ++ [m.faceNormals t]
        areas := r.areas ++ [m.areaFaces t]
        origins := r.origins ++ [m.firstVertex t]
        boundaries := r.boundaries ++ [[(f.1, f.2.1), (f.2.1, f.2.2), (f.2.2, f.1)]] }

/-- `facets_origin`, which is `None` for a mesh without facets (create_sheetplex.py:263-268). -/
def originList {V A : Type} (m : Mesh V A) : List V :=
  match m.facetsOrigin with
  | some o => o
  | none => []

/-- `find_all_facets` (create_sheetplex.py:249-298); `enum` enumerates a set. -/
def findAllFacets {V A : Type} (enum : List ℕ → List ℕ) (m : Mesh V A) : Except PyErr (AllFacets V A) :=
  if m.nFaces = m.nTriangles then
    let left := trianglesLeft m.facets (List.range m.nTriangles)
    .ok (addTriangles m (enum left)
      { facets := m.facets
        normals := m.facetsNormal
        origins := originList m
        areas := m.facetsArea
        boundaries := m.facetsBoundary })
  else .error .assertion

/-- What `_find_facet_status` finds for another facet. -/
inductive FacetStatus where
  | same
  | opposed
  | within
  | unrelated
  deriving DecidableEq

/-- The facets collected for one starting facet. -/
structure Collected where
  same : List ℕ
  opposed : List ℕ
  within : List ℕ

/-- `todo_facets.remove(f)`. -/
def removeFacet (todo : List ℕ) (f : ℕ) : Except PyErr (List ℕ) :=
  if f ∈ todo then .ok (todo.erase f) else .error .keyError

/-- `_find_facet_status` (create_sheetplex.py:190-233) for a given outcome of the comparisons. -/
def facetStatus (st : FacetStatus) (other : ℕ) (c : Collected) (todo : List ℕ) :
    Except PyErr (Collected × List ℕ) :=
  match st with
  | .same => do
    let todo' ← removeFacet todo other
    .ok ({ c with same := c.same ++ [other] }, todo')
  | .opposed => do
    let todo' ← removeFacet todo other
    .ok ({ c with opposed := c.opposed ++ [other] }, todo')
  | .within => do
    let todo' ← removeFacet todo other
    .ok ({ c with within := c.within ++ [other] }, todo')
  | .unrelated => .ok (c, todo)

/-- The loop over `list(todo_facets)` (create_sheetplex.py:135-143). -/
def statusLoop (st : ℕ → FacetStatus) (facet : ℕ) : List ℕ → Collected → List ℕ →
    Except PyErr (Collected × List ℕ)
  | [], c, todo => .ok (c, todo)
  | other :: rest, c, todo =>
    if other = facet then .error .assertion
    else do
      let (c', todo') ← facetStatus (st other) other c todo
      statusLoop st facet rest c' todo'

/-- What is decided about one starting facet: the facets collected, and the sheet id given, if any. -/
structure Group where
  facet : ℕ
  parts : Collected
  id : Option Name

/-- `'s%d' % idx`. -/
def sheetName (idx : ℕ) : Name := 's' :: natText idx

/-- The outcomes of all code that is not about the bookkeeping of facets: enumeration of a set, the
comparisons of two facets, the slicing before and the 2D geometry after the comparisons. -/
structure SheetOracle where
  enum : List ℕ → List ℕ
  status : ℕ → ℕ → FacetStatus
  slices : ℕ → Except PyErr Unit
  faces : Collected → Except PyErr Unit

/-- The main loop of `create_sheets` (create_sheetplex.py:91-186).  Every starting facet gives a group;
those with an id are the sheets (before the `only` setting is applied). -/
def createLoop (o : SheetOracle) : List ℕ → List ℕ → ℕ → Except PyErr (List Group)
  | [], _, _ => .ok []
  | facet :: rest, todo, idx =>
    if facet ∈ todo then do
      let todo ← removeFacet todo facet
      o.slices facet
      let (c, todo) ← statusLoop (o.status facet) facet (o.enum todo) ⟨[facet], [], []⟩ todo
      if c.opposed.length = 0 then do
        let groups ← createLoop o rest todo idx
        .ok (⟨facet, c, none⟩ :: groups)
      else do
        let id := sheetName idx
        o.faces c
        let groups ← createLoop o rest todo (idx + 1)
        .ok (⟨facet, c, some id⟩ :: groups)
    else createLoop o rest todo idx

/-- `create_sheets` (create_sheetplex.py:65-187): the sheets as pairs of id and facets used.  `order` is
`facet_order`. -/
def createSheets (o : SheetOracle) (order : List ℕ) (n : ℕ) (only : Option (List Name)) :
    Except PyErr (List (Name × Collected)) := do
  let groups ← createLoop o order (List.range n) 0
  .ok (groups.filterMap fun g =>
    match g.id with
    | none => none
    | some id =>
      match only with
      | none => some (id, g.parts)
      | some ids => if id ∈ ids then some (id, g.parts) else none)

end Ply
