import Mathlib.MeasureTheory.Measure.Lebesgue.Basic
import Verif.Spec.Region

/-!
# Specification: the real plane

Polygons with rational vertices as sets of points with real coordinates, so that areas can be compared
with the Lebesgue measure.
-/

namespace Ply

/-- Twice the signed area of the triangle `a b z`. -/
noncomputable def orientR (a b : Pt) (z : ℝ × ℝ) : ℝ :=
  ((b.1 : ℝ) - a.1) * (z.2 - a.2) - ((b.2 : ℝ) - a.2) * (z.1 - a.1)

open Classical in
/-- `crossing` at a point with real coordinates. -/
noncomputable def crossingR (z : ℝ × ℝ) (a b : Pt) : ℤ :=
  if (a.2 : ℝ) ≤ z.2 ∧ z.2 < b.2 ∧ 0 < orientR a b z then 1
  else if (b.2 : ℝ) ≤ z.2 ∧ z.2 < a.2 ∧ orientR a b z < 0 then -1
  else 0

/-- Winding number around a point with real coordinates. -/
noncomputable def windingR (poly : List Pt) (z : ℝ × ℝ) : ℤ :=
  ((polyEdges poly).map fun e => crossingR z e.1 e.2).sum

/-- The points the outer boundary winds around and the holes do not. -/
def regionR (outer : List Pt) (holes : List (List Pt)) : Set (ℝ × ℝ) :=
  {z | windingR outer z ≠ 0 ∧ ∀ h ∈ holes, windingR h z = 0}

/-- The rational point as a point of the real plane. -/
def toR (p : Pt) : ℝ × ℝ := ((p.1 : ℝ), (p.2 : ℝ))

end Ply
