import Mathlib.Data.Rat.Defs
import Mathlib.Algebra.Order.Ring.Rat
import Mathlib.Order.WithBot

/-!
# Python values and errors used by the model
-/

namespace Ply

/-- Exceptions that the modelled code can raise.  Only the class matters. -/
inductive PyErr where
  | assertion      -- a failing `assert`
  | exception      -- `raise Exception(...)`
  | keyError
  | attributeError
  | typeError
  | indexError
  | valueError
  | zeroDivision
  | unboundLocal
  | other (code : Nat)   -- anything raised by code outside the model
  deriving DecidableEq, Repr

/-- End points of 1D intervals: exact rationals plus `-math.inf` (`⊥`) and `math.inf` (`⊤`).
Models the values stored in `Geom1D.intervals` (/repo/plycutter/geometry/geom1d.py:66-95). -/
abbrev Ext := WithBot (WithTop ℚ)

/-- A finite end point. -/
@[coe] def Ext.fin (q : ℚ) : Ext := ((q : WithTop ℚ) : WithBot (WithTop ℚ))

instance : Coe ℚ Ext := ⟨Ext.fin⟩

/-- The Python numbers that callers hand to the exact-number converters
(/repo/plycutter/plytypes.py:36-73).  The constructor records the class, the
argument the value.  `other` stands for every further class with a numeric value
(`bool`, numpy scalars, ...). -/
inductive PyNum where
  | int (z : Int)
  | fraction (q : ℚ)
  | mpz (z : Int)
  | mpq (q : ℚ)
  | float (q : ℚ)        -- finite float
  | posInf
  | negInf
  | nan
  | other (q : ℚ)
  deriving DecidableEq

/-- Numeric value of a Python number; `none` for NaN. -/
def PyNum.val : PyNum → Option Ext
  | .int z => some ((z : ℚ) : Ext)
  | .fraction q => some (q : Ext)
  | .mpz z => some ((z : ℚ) : Ext)
  | .mpq q => some (q : Ext)
  | .float q => some (q : Ext)
  | .posInf => some ⊤
  | .negInf => some ⊥
  | .nan => none
  | .other q => some (q : Ext)

/-- Python `<=` between numbers; comparisons with NaN are false. -/
def PyNum.le (a b : PyNum) : Bool :=
  match a.val, b.val with
  | some x, some y => decide (x ≤ y)
  | _, _ => false

end Ply
