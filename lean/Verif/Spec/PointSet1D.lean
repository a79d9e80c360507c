import Verif.Model.Py
import Mathlib.Data.EReal.Basic

/-!
# Specification: which real numbers an interval list stands for

The docstring of `Geom1D` (/repo/plycutter/geometry/geom1d.py:25-62) gives the meaning
"lower-bound closed, upper-bound open intervals".  This file does not mention the model's functions.
-/

namespace Ply

/-- The extended real number an end point stands for. -/
noncomputable def Ext.toE : Ext → EReal
  | ⊥ => ⊥
  | some ⊤ => ⊤
  | some (some q) => ((q : ℝ) : EReal)

/-- The real points of the interval `[a, b)`. -/
def icoSet (a b : Ext) : Set ℝ := {x | a.toE ≤ (x : EReal) ∧ (x : EReal) < b.toE}

/-- The real points of a list of intervals. -/
def pointsOf (l : List (Ext × Ext)) : Set ℝ := {x | ∃ iv ∈ l, x ∈ icoSet iv.1 iv.2}

/-- Normal form of an interval list: every interval is non-empty, and of two intervals the earlier one
ends strictly before the later one starts. -/
def NormalForm (l : List (Ext × Ext)) : Prop :=
  (∀ iv ∈ l, iv.1 < iv.2) ∧ l.Pairwise (fun p q => p.2 < q.1)

end Ply

namespace Ply

/-- Minkowski sum of a set of reals with `[-r, r]`. -/
def dilate (S : Set ℝ) (r : ℝ) : Set ℝ := {x | ∃ y ∈ S, |x - y| ≤ r}

/-- Points whose whole closed `r`-neighbourhood lies in the set. -/
def erode (S : Set ℝ) (r : ℝ) : Set ℝ := {x | ∀ y : ℝ, |x - y| ≤ r → y ∈ S}

/-- Python numbers of the exact classes (`int`, `Fraction`, `mpz`, `mpq`) or infinite. -/
inductive ExactOrInf : PyNum → Ext → Prop
  | int (z : Int) : ExactOrInf (.int z) (Ext.fin z)
  | fraction (q : ℚ) : ExactOrInf (.fraction q) (Ext.fin q)
  | mpz (z : Int) : ExactOrInf (.mpz z) (Ext.fin z)
  | mpq (q : ℚ) : ExactOrInf (.mpq q) (Ext.fin q)
  | posInf : ExactOrInf .posInf ⊤
  | negInf : ExactOrInf .negInf ⊥

/-- Set expressions over variables, as written with the `Geom1D` operators. -/
inductive SetExpr where
  | var (n : Nat)
  | empty
  | full
  | or (a b : SetExpr)
  | and (a b : SetExpr)
  | sub (a b : SetExpr)
  | xor (a b : SetExpr)
  | not (a : SetExpr)

/-- Truth value of a set expression at a point, given which variables contain the point. -/
def SetExpr.holds (ρ : Nat → Prop) : SetExpr → Prop
  | .var n => ρ n
  | .empty => False
  | .full => True
  | .or a b => a.holds ρ ∨ b.holds ρ
  | .and a b => a.holds ρ ∧ b.holds ρ
  | .sub a b => a.holds ρ ∧ ¬ b.holds ρ
  | .xor a b => (a.holds ρ ∧ ¬ b.holds ρ) ∨ (b.holds ρ ∧ ¬ a.holds ρ)
  | .not a => ¬ a.holds ρ

end Ply
