import Verif.Spec.Minkowski
import Verif.Spec.Region

/-!
# Specification: rings that are seen from one point

Independent of the model's functions.
-/

namespace Ply

/-- A simple ring whose whole boundary is seen from the point `o` inside: `o` is strictly to the right of every edge.
Convex clockwise rings are seen so from each of their inner points. -/
structure StarRing (o : Pt) (L : List Pt) : Prop where
  simple : SimpleRing L
  right : ∀ e ∈ polyEdges L, orient e.1 e.2 o < 0

/-- An expression of `|` and `&` over rings. -/
inductive RingExpr
  | ring (L : List Pt)
  | or (a b : RingExpr)
  | and (a b : RingExpr)

namespace RingExpr

/-- The rings of the expression. -/
def rings : RingExpr → List (List Pt)
  | ring L => [L]
  | or a b => a.rings ++ b.rings
  | and a b => a.rings ++ b.rings

/-- The point is inside the shape the expression describes. -/
def Inside (p : Pt) : RingExpr → Prop
  | ring L => InPoly L p
  | or a b => a.Inside p ∨ b.Inside p
  | and a b => a.Inside p ∧ b.Inside p

end RingExpr

end Ply
