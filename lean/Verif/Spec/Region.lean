import Verif.Spec.Plane

/-!
# Specification: polygons with holes as point sets

Independent of the model's functions.
-/

namespace Ply

/-- `p` is off the boundary and the polygon winds around it. -/
def InPoly (poly : List Pt) (p : Pt) : Prop := ¬ OnBoundary poly p ∧ windingNumber poly p ≠ 0

/-- `p` is off the boundary and the polygon does not wind around it. -/
def OutPoly (poly : List Pt) (p : Pt) : Prop := ¬ OnBoundary poly p ∧ windingNumber poly p = 0

/-- `p` is inside the outer boundary and outside all holes. -/
def InRegion (outer : List Pt) (holes : List (List Pt)) (p : Pt) : Prop :=
  InPoly outer p ∧ ∀ h ∈ holes, OutPoly h p

/-- `p` is on the outer boundary, or inside it and on the boundary of a hole while being outside all
earlier holes of the list. -/
def OnRegionBoundary (outer : List Pt) (holes : List (List Pt)) (p : Pt) : Prop :=
  OnBoundary outer p ∨
    InPoly outer p ∧ ∃ pre h post, holes = pre ++ h :: post ∧ (∀ x ∈ pre, OutPoly x p) ∧
      OnBoundary h p

/-- `p` is outside the outer boundary, or inside it and inside a hole while being outside all earlier
holes of the list. -/
def OutRegion (outer : List Pt) (holes : List (List Pt)) (p : Pt) : Prop :=
  OutPoly outer p ∨
    InPoly outer p ∧ ∃ pre h post, holes = pre ++ h :: post ∧ (∀ x ∈ pre, OutPoly x p) ∧
      InPoly h p

/-- No two cyclically consecutive vertices coincide. -/
def NoRepeat (poly : List Pt) : Prop := ∀ e ∈ polyEdges poly, e.1 ≠ e.2

/-- Area enclosed by a polygon with holes, all loops clockwise. -/
def regionArea (outer : List Pt) (holes : List (List Pt)) : ℚ :=
  -shoelace outer - (holes.map fun h => -shoelace h).sum

/-- `p` is on no edge of the outer boundary or of a hole. -/
def OffEdges (outer : List Pt) (holes : List (List Pt)) (p : Pt) : Prop :=
  ¬ OnBoundary outer p ∧ ∀ h ∈ holes, ¬ OnBoundary h p

/-- Every three cyclically consecutive vertices span a non-zero area. -/
def CornersProper (l : List Pt) : Prop :=
  ∀ (j : ℕ) (a b c : Pt), j < l.length → l[(j + l.length - 1) % l.length]? = some a →
    l[j]? = some b → l[(j + 1) % l.length]? = some c → orient a b c ≠ 0

/-- Value of the linear form `v` at `p`, shifted. -/
def shadow (v : Pt) (offs : ℚ) (p : Pt) : ℚ := v.1 * p.1 + v.2 * p.2 + offs

end Ply
