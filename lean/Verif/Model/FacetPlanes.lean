import Verif.Model.Facets
import Verif.Model.Space

/-!
# The comparisons of facets and the heights of the slices: create_sheetplex.py:93-108 and 190-243

The numbers are exact real numbers in place of floats.
-/

namespace Ply

/-- The entries of `all_facets` for one facet that `_find_facet_status` reads. -/
structure FacetNums where
  normal : V3
  origin : V3
  boundary : List (ℕ × ℕ)

/-- The second value of `_facet_plane` (create_sheetplex.py:239-244); the first is `normal`. -/
def FacetNums.offset (f : FacetNums) : ℝ := dot3 f.origin f.normal

/-- `boundary_verts` (create_sheetplex.py:219-222), a set of which only the members matter. -/
def FacetNums.verts (f : FacetNums) : List ℕ := f.boundary.flatMap fun e => [e.1, e.2]

open Classical in
/-- The comparisons of `_find_facet_status` (create_sheetplex.py:197-233).  `norm` of a number is its absolute value. -/
noncomputable def compareFacets (vertices : ℕ → V3) (thickness normalTol offsetTol : ℝ) (normal : V3) (offset : ℝ)
    (other : FacetNums) : FacetStatus :=
  if norm3 (other.normal - normal) < normalTol ∧ |other.offset - offset| < offsetTol then .same
  else if norm3 (-other.normal - normal) < normalTol ∧ |-other.offset - offset + thickness| < offsetTol then .opposed
  else if |dot3 other.normal normal| < normalTol then
    if ∀ v ∈ other.verts, offset - thickness - offsetTol ≤ dot3 (vertices v) normal ∧
        dot3 (vertices v) normal ≤ offset + offsetTol then .within
    else .unrelated
  else .unrelated

/-- `np.linspace`: `n` numbers from `a` to `b` at equal distances. -/
noncomputable def linspace (a b : ℝ) (n : ℕ) : List ℝ := (List.range n).map fun i => a + i * ((b - a) / (n - 1))

/-- `slices_height` (create_sheetplex.py:104-108): the first two are outside of the sheet. -/
noncomputable def sliceHeights (offset thickness tol : ℝ) : List ℝ :=
  [offset + tol, offset - thickness - tol] ++ linspace (offset - thickness + tol) (offset - tol) 3

/-- The comparisons that `create_sheets` makes (create_sheetplex.py:95, 135-143) for the facets of a mesh. -/
noncomputable def meshStatus (vertices : ℕ → V3) (facets : ℕ → FacetNums) (thickness normalTol offsetTol : ℝ) (facet other : ℕ) :
    FacetStatus :=
  compareFacets vertices thickness normalTol offsetTol (facets facet).normal (facets facet).offset (facets other)

end Ply
