import Verif.Spec.Region
import Verif.Spec.Sweep

/-!
# Specification of arrangements of segments
-/

namespace Ply

/-- On one of the segments. -/
def OnAny (S : List Seg) (p : Pt) : Prop := ∃ s ∈ S, OnSeg s p

/-- The edges of the closed polygon lie on the segments. -/
def Within (S : List Seg) (poly : List Pt) : Prop :=
  ∀ e ∈ polyEdges poly, ∀ x, OnSeg e x → OnAny S x

/-- Every polygon along the segments winds equally often around the two points. -/
def SameFace (S : List Seg) (p q : Pt) : Prop :=
  ∀ poly, Within S poly → windingNumber poly p = windingNumber poly q

/-- A piece of a segment between two event points, with no event point inside. -/
structure Arr.Elem (S : List Seg) (h : Seg) : Prop where
  ne : h.1 ≠ h.2
  on : ∃ s ∈ S, OnSeg s h.1 ∧ OnSeg s h.2
  ev1 : EventPoint S h.1
  ev2 : EventPoint S h.2
  gap : ∀ x, EventPoint S x → OnSeg h x → x = h.1 ∨ x = h.2

end Ply
