import Mathlib.Data.Real.Basic
import Mathlib.Order.Interval.Set.Basic

/-!
# Solids in space
-/

namespace Ply.Spec

/-- The length of the shadow of `x` on `n`, times the length of `n`. -/
def inner (n x : ℝ × ℝ × ℝ) : ℝ := n.1 * x.1 + n.2.1 * x.2.1 + n.2.2 * x.2.2

/-- Three vectors of length one, at right angles. -/
structure Frame (u v w : ℝ × ℝ × ℝ) : Prop where
  uu : inner u u = 1
  vv : inner v v = 1
  ww : inner w w = 1
  uv : inner u v = 0
  uw : inner u w = 0
  vw : inner v w = 0

/-- The points between two parallel planes. -/
def slab (n : ℝ × ℝ × ℝ) (lo hi : ℝ) : Set (ℝ × ℝ × ℝ) := {x | lo ≤ inner n x ∧ inner n x ≤ hi}

/-- A flat solid: the points between two planes whose coordinates along `u` and `v` lie in `Z`. -/
def solid (u v n : ℝ × ℝ × ℝ) (lo hi : ℝ) (Z : Set (ℝ × ℝ)) : Set (ℝ × ℝ × ℝ) :=
  {x | x ∈ slab n lo hi ∧ (inner u x, inner v x) ∈ Z}

end Ply.Spec
