import Verif.Model.Types2D

/-!
# Model of /repo/plycutter/geometry/aabb.py
-/

namespace Ply

/-- A rational or NaN (`none`). -/
abbrev NQ := Option ℚ

/-- `a <= b` on numbers that may be NaN: false if either is NaN. -/
def NQ.le (a b : NQ) : Bool :=
  match a, b with
  | some x, some y => decide (x ≤ y)
  | _, _ => false

/-- `a < b` on numbers that may be NaN. -/
def NQ.lt (a b : NQ) : Bool :=
  match a, b with
  | some x, some y => decide (x < y)
  | _, _ => false

/-- Arithmetic propagates NaN. -/
def NQ.map2 (f : ℚ → ℚ → ℚ) (a b : NQ) : NQ :=
  match a, b with
  | some x, some y => some (f x y)
  | _, _ => none

/-- `AABB` objects (/repo/plycutter/geometry/aabb.py:31-44). -/
structure AABB where
  lower : NQ × NQ
  upper : NQ × NQ
  middle : NQ × NQ
  deriving DecidableEq

namespace AABB

/-- `_update_middle` (/repo/plycutter/geometry/aabb.py:46-47). -/
def updateMiddle (b : AABB) : AABB :=
  { b with middle := (NQ.map2 (fun x y => (x + y) / 2) b.lower.1 b.upper.1,
                      NQ.map2 (fun x y => (x + y) / 2) b.lower.2 b.upper.2) }

/-- `NP(corner)` after the `None` default (/repo/plycutter/geometry/aabb.py:35-43). -/
def corner : Option Pt → NQ × NQ
  | none => (none, none)
  | some p => (some p.1, some p.2)

/-- `AABB.__init__` (/repo/plycutter/geometry/aabb.py:34-44). -/
def make (lower upper : Option Pt) : AABB :=
  updateMiddle ⟨corner lower, corner upper, (none, none)⟩

/-- `AABB.contains` (/repo/plycutter/geometry/aabb.py:61-62). -/
def contains (b : AABB) (pt : Pt) : Bool :=
  (NQ.le (some pt.1) b.upper.1 && NQ.le (some pt.2) b.upper.2) &&
  (NQ.le b.lower.1 (some pt.1) && NQ.le b.lower.2 (some pt.2))

/-- One iteration of the loop of `include_point` (/repo/plycutter/geometry/aabb.py:55-58) for one
coordinate; returns the new (lower, upper). -/
def includeCoord (x : ℚ) (lo up : NQ) : NQ × NQ :=
  (if ¬ NQ.le lo (some x) then some x else lo, if ¬ NQ.le (some x) up then some x else up)

/-- `AABB.include_point` (/repo/plycutter/geometry/aabb.py:49-59). -/
def includePoint (b : AABB) (pt : Pt) : AABB :=
  if b.contains pt then b
  else
    let x := includeCoord pt.1 b.lower.1 b.upper.1
    let y := includeCoord pt.2 b.lower.2 b.upper.2
    updateMiddle { b with lower := (x.1, y.1), upper := (x.2, y.2) }

/-- `AABB.intersects_aabb` (/repo/plycutter/geometry/aabb.py:64-66). -/
def intersectsAABB (a b : AABB) : Bool :=
  (NQ.le b.lower.1 a.upper.1 && NQ.le b.lower.2 a.upper.2) &&
  (NQ.le a.lower.1 b.upper.1 && NQ.le a.lower.2 b.upper.2)

/-- `AABB.intersects_segment` (/repo/plycutter/geometry/aabb.py:68-93). -/
def intersectsSegment (b : AABB) (s : Seg) : Bool :=
  if (NQ.lt (some s.1.1) b.lower.1 && NQ.lt (some s.2.1) b.lower.1) ||
     (NQ.lt (some s.1.2) b.lower.2 && NQ.lt (some s.2.2) b.lower.2) then false
  else if (NQ.lt b.upper.1 (some s.1.1) && NQ.lt b.upper.1 (some s.2.1)) ||
     (NQ.lt b.upper.2 (some s.1.2) && NQ.lt b.upper.2 (some s.2.2)) then false
  else
    let norm : Pt := ((s.2.2 - s.1.2) * 1, (s.2.1 - s.1.1) * -1)
    let mid_dot : NQ := NQ.map2 (· + ·) (NQ.map2 (· * ·) (some norm.1) b.middle.1)
      (NQ.map2 (· * ·) (some norm.2) b.middle.2)
    let seg_dot : ℚ := norm.1 * s.1.1 + norm.2 * s.1.2
    let dot_diff : NQ := NQ.map2 (· - ·) mid_dot (some seg_dot)
    let d2 : NQ := NQ.map2 (· * ·) dot_diff dot_diff
    let sm : NQ := NQ.map2 (· + ·)
      (NQ.map2 (· * ·) (some |norm.1|) (NQ.map2 (· - ·) b.upper.1 b.middle.1))
      (NQ.map2 (· * ·) (some |norm.2|) (NQ.map2 (· - ·) b.upper.2 b.middle.2))
    let rhs : NQ := NQ.map2 (· * ·) sm sm
    NQ.le d2 rhs

end AABB
end Ply
