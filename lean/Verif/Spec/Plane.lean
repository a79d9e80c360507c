import Verif.Model.Types2D

/-!
# Specification: elementary plane geometry over ℚ

Independent of the model's functions.
-/

namespace Ply

/-- Cross product. -/
def cross (u v : Pt) : ℚ := u.1 * v.2 - u.2 * v.1

/-- Twice the signed area of the triangle `a b c`, counter-clockwise positive. -/
def orient (a b c : Pt) : ℚ := (b.1 - a.1) * (c.2 - a.2) - (b.2 - a.2) * (c.1 - a.1)

/-- Multiply a vector by a scalar. -/
def scale (k : ℚ) (v : Pt) : Pt := (k * v.1, k * v.2)

/-- The point at parameter `t` on the line through the segment. -/
def along (s : Seg) (t : ℚ) : Pt :=
  (s.1.1 + t * (s.2.1 - s.1.1), s.1.2 + t * (s.2.2 - s.1.2))

/-- The closed segment as a set of points. -/
def OnSeg (s : Seg) (p : Pt) : Prop := ∃ t : ℚ, 0 ≤ t ∧ t ≤ 1 ∧ p = along s t

/-- Direction vector. -/
def dir (s : Seg) : Pt := (s.2.1 - s.1.1, s.2.2 - s.1.2)

/-- Two segments are parallel. -/
def Parallel (s t : Seg) : Prop := cross (dir s) (dir t) = 0

/-- The edges of the closed polygon with the given vertices: `(v₀,v₁), …, (vₙ₋₁,v₀)`. -/
def polyEdges {α : Type*} (poly : List α) : List (α × α) :=
  match poly with
  | [] => []
  | a :: rest => (a :: rest).zip (rest ++ [a])

/-- Affine map of the plane with matrix `(a b; c d)` and translation `(e, f)`. -/
structure Affine where
  (a b c d e f : ℚ)

def Affine.det (A : Affine) : ℚ := A.a * A.d - A.b * A.c

def Affine.app (A : Affine) (p : Pt) : Pt :=
  (A.a * p.1 + A.b * p.2 + A.e, A.c * p.1 + A.d * p.2 + A.f)

/-- Signed area of a closed polygon by the shoelace formula, counter-clockwise positive. -/
def shoelace (poly : List Pt) : ℚ := ((polyEdges poly).map fun e => cross e.1 e.2).sum / 2

/-- `p` lies on one of the closed edges of the closed polygon. -/
def OnBoundary (poly : List Pt) (p : Pt) : Prop := ∃ e ∈ polyEdges poly, OnSeg e p

/-- Signed crossing of the directed edge `a → b` with the open horizontal ray from `p` to the right:
`+1` for an upward, `-1` for a downward crossing; of an edge the lower end point counts, the upper
one does not. -/
def crossing (p a b : Pt) : ℤ :=
  if a.2 ≤ p.2 ∧ p.2 < b.2 ∧ 0 < orient a b p then 1
  else if b.2 ≤ p.2 ∧ p.2 < a.2 ∧ orient a b p < 0 then -1
  else 0

/-- Winding number of the closed polygon around `p`. -/
def windingNumber (poly : List Pt) (p : Pt) : ℤ :=
  ((polyEdges poly).map fun e => crossing p e.1 e.2).sum

end Ply
