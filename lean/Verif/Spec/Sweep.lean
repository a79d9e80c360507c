import Verif.Spec.Plane

/-!
# Specification of the segment intersection problem
-/

namespace Ply

/-- `p` is an end point of one of the segments, or a common point of two non-parallel ones. -/
def EventPoint (S : List Seg) (p : Pt) : Prop :=
  (∃ s ∈ S, p = s.1 ∨ p = s.2) ∨ ∃ s ∈ S, ∃ t ∈ S, ¬ Parallel s t ∧ OnSeg s p ∧ OnSeg t p

/-- A reported intersection: a point with all the segments through it, each once. -/
def ReportOK (S : List Seg) (r : Pt × List Seg) : Prop :=
  r.2.Nodup ∧ ∀ s, s ∈ r.2 ↔ s ∈ S ∧ OnSeg s r.1

/-- The whole report: every event point on at least two segments, once, and nothing else. -/
def SweepOutput (S : List Seg) (out : List (Pt × List Seg)) : Prop :=
  (out.map Prod.fst).Nodup ∧ (∀ r ∈ out, ReportOK S r) ∧
  ∀ p, (∃ r ∈ out, r.1 = p) ↔ EventPoint S p ∧ ∃ s ∈ S, ∃ t ∈ S, s ≠ t ∧ OnSeg s p ∧ OnSeg t p

/-- Order of points in which the sweep meets them: by height, then from left to right. -/
def SweepLt (p q : Pt) : Prop := p.2 < q.2 ∨ p.2 = q.2 ∧ p.1 < q.1

/-- The sweep is at `p` and the segment has started and not yet ended. -/
def Alive (s : Seg) (p : Pt) : Prop :=
  (¬ SweepLt p s.1 ∨ ¬ SweepLt p s.2) ∧ (SweepLt p s.1 ∨ SweepLt p s.2)

/-- Where the line through a non-horizontal segment is at height `y`. -/
def lineX (s : Seg) (y : ℚ) : ℚ := s.1.1 + (s.2.1 - s.1.1) * ((y - s.1.2) / (s.2.2 - s.1.2))

/-- Lexicographic order on the coordinates of two segments. -/
def TupleLt (s t : Seg) : Prop :=
  s.1.1 < t.1.1 ∨ s.1.1 = t.1.1 ∧ (s.1.2 < t.1.2 ∨ s.1.2 = t.1.2 ∧
    (s.2.1 < t.2.1 ∨ s.2.1 = t.2.1 ∧ s.2.2 < t.2.2))

/-- `s` is left of `t` just after the sweep has passed `p`.  Lines that meet at the height of `p` are
compared slightly above it if the sweep has already passed their common point, slightly below
otherwise; coinciding lines by their coordinates. -/
def LeftOf (p : Pt) (s t : Seg) : Prop :=
  lineX s p.2 < lineX t p.2 ∨ lineX s p.2 = lineX t p.2 ∧
    ((lineX s p.2 ≤ p.1 ∧ ∀ d > 0, lineX s (p.2 + d) < lineX t (p.2 + d)) ∨
     (p.1 < lineX s p.2 ∧ ∀ d > 0, lineX s (p.2 - d) < lineX t (p.2 - d)) ∨
     ((∀ y, lineX s y = lineX t y) ∧ TupleLt s t))

end Ply
