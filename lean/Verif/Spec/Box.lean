import Verif.Spec.Plane

/-!
# Specification: axis-parallel boxes as point sets
-/

namespace Ply

/-- The closed box with the given corners. -/
def InBox (lo hi p : Pt) : Prop := lo.1 ≤ p.1 ∧ p.1 ≤ hi.1 ∧ lo.2 ≤ p.2 ∧ p.2 ≤ hi.2

/-- `p` is, in each coordinate, between two of the points of `pts`: it is in the smallest box that
contains all of them. -/
def InHull (pts : List Pt) (p : Pt) : Prop :=
  (∃ a ∈ pts, a.1 ≤ p.1) ∧ (∃ a ∈ pts, p.1 ≤ a.1) ∧
  (∃ a ∈ pts, a.2 ≤ p.2) ∧ (∃ a ∈ pts, p.2 ≤ a.2)

end Ply
