import Verif.Spec.Region

/-!
# Specification: sums with a convex polygon

Independent of the model's functions.
-/

namespace Ply

/-- `w` is in the closed convex polygon whose vertices are given in clockwise order. -/
def InConvex (C : List Pt) (w : Pt) : Prop := ∀ e ∈ polyEdges C, orient e.1 e.2 w ≤ 0

/-- A clockwise outline.  Its edges have positive length, an inner point of an edge is on no other edge, and
just left of an edge the outline does not wind around the points, just right of it it winds around them once.
The outline may pass through a corner more than once. -/
structure Outline (L : List Pt) : Prop where
  pos : ∀ e ∈ polyEdges L, e.1 ≠ e.2
  inner : ∀ e ∈ polyEdges L, ∀ e' ∈ polyEdges L, ∀ s, 0 < s → s < 1 → OnSeg e' (along e s) → e' = e
  left : ∀ e ∈ polyEdges L, ∀ s, 0 < s → s < 1 → ∀ u, 0 < cross (dir e) u →
    ∃ δ : ℚ, 0 < δ ∧ ∀ ε : ℚ, 0 < ε → ε < δ → windingNumber L (along e s + (ε * u.1, ε * u.2)) = 0
  right : ∀ e ∈ polyEdges L, ∀ s, 0 < s → s < 1 → ∀ u, cross (dir e) u < 0 →
    ∃ δ : ℚ, 0 < δ ∧ ∀ ε : ℚ, 0 < ε → ε < δ → windingNumber L (along e s + (ε * u.1, ε * u.2)) = -1

/-- A simple closed ring of at least three different corners.  Two different edges only meet where one ends and
the other begins. -/
structure SimpleRing (L : List Pt) : Prop where
  long : 3 ≤ L.length
  nodup : L.Nodup
  apart : ∀ e ∈ polyEdges L, ∀ k ∈ polyEdges L, ∀ x, OnSeg e x → OnSeg k x →
    k = e ∨ (x = e.1 ∧ x = k.2) ∨ (x = e.2 ∧ x = k.1)

end Ply
