import Verif.Spec.PointSet1D

/-! # Specification: consecutive spans -/

namespace Ply

/-- The spans follow each other without gap or overlap from `a` to `b`. -/
def Consecutive : ℚ → List (ℚ × ℚ) → ℚ → Prop
  | a, [], b => a = b
  | a, s :: rest, b => s.1 = a ∧ Consecutive s.2 rest b

/-- The points of the `i`-th, `i+2`-nd, ... spans. -/
def everySecond : List (ℚ × ℚ) → Set ℝ
  | [] => ∅
  | [s] => {x | (s.1 : ℝ) ≤ x ∧ x < (s.2 : ℝ)}
  | s :: _ :: rest => {x | (s.1 : ℝ) ≤ x ∧ x < (s.2 : ℝ)} ∪ everySecond rest

end Ply
