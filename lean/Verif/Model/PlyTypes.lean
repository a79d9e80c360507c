import Verif.Model.Py

/-!
# Model of /repo/plycutter/plytypes.py
-/

namespace Ply

/-- `FractionFromExact` (/repo/plycutter/plytypes.py:51-62).  Dispatches on the class
of the argument: `mpq` is returned as is, `int`, `fractions.Fraction` and `mpz` are converted,
anything else raises `Exception`. -/
def fractionFromExact : PyNum → Except PyErr ℚ
  | .mpq q => .ok q
  | .int z => .ok (z : ℚ)
  | .fraction q => .ok q
  | .mpz z => .ok (z : ℚ)
  | .float _ => .error .exception
  | .posInf => .error .exception
  | .negInf => .error .exception
  | .nan => .error .exception
  | .other _ => .error .exception

/-- `FractionFromExactOrInf` (/repo/plycutter/plytypes.py:65-73): `abs(v) == math.inf`
returns `v`, otherwise `FractionFromExact(v)`. -/
def fractionFromExactOrInf : PyNum → Except PyErr Ext
  | .posInf => .ok ⊤
  | .negInf => .ok ⊥
  | v => do return ((← fractionFromExact v : ℚ) : Ext)

end Ply
