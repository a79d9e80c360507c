import Verif.Model.Py

/-!
# Model of `fstr` (/repo/plycutter/plytypes.py:81-108) and of the throttled check
(/repo/plycutter/sheetbuild.py:34-35, 148-157)

Strings are lists of characters.  Modelled objects: rationals and tuples and lists of objects; sets,
dictionaries, `__fstr__` methods and `approx=True` are left out.
-/

namespace Ply

/-- The objects handed to `fstr`. -/
inductive Obj where
  | frac (q : ℚ)
  | tuple (l : List Obj)
  | list (l : List Obj)

/-- `str` of a non-negative integer. -/
def natText (n : ℕ) : List Char := Nat.toDigits 10 n

/-- `str` of an integer. -/
def intText : ℤ → List Char
  | .ofNat n => natText n
  | .negSucc n => '-' :: natText (n + 1)

/-- The branch for rationals (plytypes.py:96-103). -/
def fracText (q : ℚ) : List Char :=
  if q.den = 1 then intText q.num else intText q.num ++ '/' :: natText q.den

mutual
/-- `recurse` (plytypes.py:84-106). -/
def Obj.text : Obj → List Char
  | .frac q => fracText q
  | .tuple l => '(' :: (joinText l ++ [')'])
  | .list l => '[' :: (joinText l ++ [']'])

/-- `", ".join(recurse(m) for m in o)`. -/
def joinText : List Obj → List Char
  | [] => []
  | o :: rest => match rest with
    | [] => o.text
    | _ :: _ => o.text ++ ',' :: ' ' :: joinText rest
end

/-- `",".join(...)` of the arguments. -/
def joinArgs : List Obj → List Char
  | [] => []
  | o :: rest => match rest with
    | [] => o.text
    | _ :: _ => o.text ++ ',' :: joinArgs rest

/-- `fstr(*objs)` (plytypes.py:81-108). -/
def fstr (objs : List Obj) : List Char := 'F' :: 'S' :: '/' :: (joinArgs objs ++ ['/'])

/-- `SheetBuild.check` (sheetbuild.py:148-157) as a function of `check_interval`, the global
`check_index` and `force`: whether `_check` is called, and the new index. -/
def checkStep (interval index : ℕ) (force : Bool) : Bool × ℕ :=
  if force ∨ index + 1 > interval then (true, 0) else (false, index + 1)

/-- A history of calls: which of them really checked, and the final index. -/
def checkRun (interval : ℕ) : ℕ → List Bool → List Bool × ℕ
  | index, [] => ([], index)
  | index, f :: rest =>
    let (b, i) := checkStep interval index f
    let (bs, j) := checkRun interval i rest
    (b :: bs, j)

end Ply
