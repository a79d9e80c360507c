import Verif.Spec.Minkowski
import Verif.Spec.Plane

/-!
# Specification: convex rings

Independent of the model's functions.
-/

namespace Ply

/-- A simple clockwise ring with no corner left of the line of an edge.  Corners in the middle of a straight side are allowed. -/
structure ConvexRing (L : List Pt) : Prop where
  simple : SimpleRing L
  cw : shoelace L < 0
  convex : ∀ e ∈ polyEdges L, ∀ v ∈ L, orient e.1 e.2 v ≤ 0

end Ply
