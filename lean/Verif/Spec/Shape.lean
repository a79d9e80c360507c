import Verif.Spec.Minkowski

/-!
# Specification: valid shapes made of rings

A polygon is an outer ring with the rings of its holes, given in any direction.  Independent of the
model's functions.
-/

namespace Ply

/-- An outer ring and the rings of holes. -/
abbrev Rings := List Pt × List (List Pt)

/-- The rings are simple, the holes are within the outer ring and do not overlap. -/
structure Rings.Valid (s : Rings) : Prop where
  outer : SimpleRing s.1
  holes : ∀ h ∈ s.2, SimpleRing h
  within : ∀ h ∈ s.2, ∀ p, InPoly h p → InPoly s.1 p
  apart : s.2.Pairwise fun h k => ∀ p, ¬ (InPoly h p ∧ InPoly k p)

/-- All polygons are valid, and no two of them overlap. -/
structure ValidShape (S : List Rings) : Prop where
  each : ∀ s ∈ S, Rings.Valid s
  apart : S.Pairwise fun s t => ∀ p, ¬ (InRegion s.1 s.2 p ∧ InRegion t.1 t.2 p)

/-- All rings of a shape. -/
def allRings (S : List Rings) : List (List Pt) := S.flatMap fun s => s.1 :: s.2

/-- Different rings meet only where both have a corner. -/
def Noded (S : List Rings) : Prop :=
  (allRings S).Pairwise fun L M => ∀ e ∈ polyEdges L, ∀ k ∈ polyEdges M, ∀ x, OnSeg e x → OnSeg k x →
    (x = e.1 ∨ x = e.2) ∧ (x = k.1 ∨ x = k.2)

/-- The area of a polygon with holes whose rings are given in any direction. -/
def ringsArea (s : Rings) : ℚ := |shoelace s.1| - (s.2.map fun h => |shoelace h|).sum

/-- The coordinates of a closed ring: the first is repeated at the end. -/
def closeRing : List Pt → List Pt
  | [] => []
  | a :: rest => a :: (rest ++ [a])

/-- The point is in the triangle or on its sides. -/
def InTriangle (a b c p : Pt) : Prop :=
  ∃ u v w : ℚ, 0 ≤ u ∧ 0 ≤ v ∧ 0 ≤ w ∧ u + v + w = 1 ∧
    p = (u * a.1 + v * b.1 + w * c.1, u * a.2 + v * b.2 + w * c.2)

end Ply
