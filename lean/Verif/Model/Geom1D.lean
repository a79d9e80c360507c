import Verif.Model.PlyTypes
import Mathlib.Data.List.Sort

/-!
# Model of /repo/plycutter/geometry/geom1d.py
-/

namespace Ply

/-- An interval: a pair of end points. -/
abbrev Ivl := Ext × Ext

/-- `Geom1D` objects: the only state is the interval list
(/repo/plycutter/geometry/geom1d.py:97). -/
structure Geom1D where
  intervals : List Ivl
  deriving DecidableEq

namespace Geom1D

/-- Python's `<=` on two-element lists/tuples of numbers as used by `sorted`
(/repo/plycutter/geometry/geom1d.py:65): lexicographic, by value. -/
def pairLe (a b : PyNum × PyNum) : Bool :=
  if a.1.val = b.1.val then PyNum.le a.2 b.2 else PyNum.le a.1 b.1

/-- `sorted` on such pairs.  Of the stable sorts, which all give the same list, insertion sort. -/
def pySorted (l : List (PyNum × PyNum)) : List (PyNum × PyNum) := l.insertionSort fun a b => pairLe a b = true

/-- The body of the "check and convert" loop (/repo/plycutter/geometry/geom1d.py:68-73):
`assert interval[0] <= interval[1]`, then convert both ends. -/
def checkConvert (iv : PyNum × PyNum) : Except PyErr Ivl := do
  if PyNum.le iv.1 iv.2 then
    let a ← fractionFromExactOrInf iv.1
    let b ← fractionFromExactOrInf iv.2
    return (a, b)
  else throw .assertion

/-- The normalisation loop (/repo/plycutter/geometry/geom1d.py:76-93).  The argument `prev`
is the variable of that name; `res.append(prev)` is the `::` in front of the recursive call. -/
def mergeLoop : Option Ivl → List Ivl → List Ivl
  | prev, [] => prev.toList
  | prev, iv :: rest =>
    if iv.1 = iv.2 then mergeLoop prev rest
    else match prev with
      | none => mergeLoop (some iv) rest
      | some p =>
        if p.2 ≥ iv.1 then
          if iv.2 > p.2 then mergeLoop (some (p.1, iv.2)) rest
          else mergeLoop (some p) rest
        else p :: mergeLoop (some iv) rest

/-- `Geom1D.__init__` (/repo/plycutter/geometry/geom1d.py:64-97): sort, check and convert,
normalise. -/
def construct (raw : List (PyNum × PyNum)) : Except PyErr Geom1D := do
  let sorted := pySorted raw
  let ivs ← sorted.mapM checkConvert
  return ⟨mergeLoop none ivs⟩

/-- The Python number behind an end point that is already stored in a `Geom1D`:
finite ones are `mpq`, infinite ones floats. -/
def toPy : Ext → PyNum
  | ⊥ => .negInf
  | some ⊤ => .posInf
  | some (some q) => .mpq q

/-- Constructor call on end points that are already exact or infinite. -/
def ofIvls (l : List Ivl) : Except PyErr Geom1D :=
  construct (l.map fun iv => (toPy iv.1, toPy iv.2))

/-- The loop of `locate` (/repo/plycutter/geometry/geom1d.py:106-113); the last test is the
`break`, after which -1 is returned. -/
def locateLoop (point : Ext) : List Ivl → Int
  | [] => -1
  | iv :: rest =>
    if iv.1 = point ∨ iv.2 = point then 0
    else if iv.1 < point ∧ point < iv.2 then 1
    else if iv.1 > point then -1
    else locateLoop point rest

/-- `Geom1D.locate` (/repo/plycutter/geometry/geom1d.py:99-113). -/
def locate (g : Geom1D) (point : Ext) : Int := locateLoop point g.intervals

/-- `Geom1D.disjoint_pieces` (/repo/plycutter/geometry/geom1d.py:115-117). -/
def disjointPieces (g : Geom1D) : Except PyErr (List Geom1D) :=
  g.intervals.mapM fun iv => ofIvls [iv]

/-- `Geom1D.empty` (/repo/plycutter/geometry/geom1d.py:131-134). -/
def empty : Except PyErr Geom1D := construct []

/-- `Geom1D.is_empty` (/repo/plycutter/geometry/geom1d.py:136-138). -/
def isEmpty (g : Geom1D) : Bool := g.intervals.length == 0

/-- `Geom1D.full` (/repo/plycutter/geometry/geom1d.py:140-143). -/
def full : Except PyErr Geom1D := construct [(.negInf, .posInf)]

/-- `x + amount` where `x` is a rational or an infinity and `amount` a rational. -/
def addRat (x : Ext) (r : ℚ) : Ext :=
  match x with
  | ⊥ => ⊥
  | some ⊤ => some ⊤
  | some (some q) => ((q + r : ℚ) : Ext)

/-- `Geom1D.buffer` (/repo/plycutter/geometry/geom1d.py:145-157). -/
def buffer (g : Geom1D) (amount : PyNum) : Except PyErr Geom1D := do
  let r ← fractionFromExact amount
  ofIvls (g.intervals.filterMap fun iv =>
    let prop : Ivl := (addRat iv.1 (-r), addRat iv.2 r)
    if prop.2 ≤ prop.1 then none else some prop)

/-- Python subtraction of end points; `none` is NaN (`inf - inf`). -/
def pySub (b a : Ext) : Option Ext :=
  match b, a with
  | some (some x), some (some y) => some ((x - y : ℚ) : Ext)
  | some (some _), ⊥ => some ⊤
  | some (some _), some ⊤ => some ⊥
  | ⊥, ⊥ => none
  | ⊥, _ => some ⊥
  | some ⊤, some ⊤ => none
  | some ⊤, _ => some ⊤

/-- Python addition; `none` is NaN (`inf + (-inf)`, or a NaN operand). -/
def pyAdd (a b : Option Ext) : Option Ext :=
  match a, b with
  | none, _ => none
  | _, none => none
  | some (some (some x)), some (some (some y)) => some ((x + y : ℚ) : Ext)
  | some ⊥, some (some ⊤) => none
  | some (some ⊤), some ⊥ => none
  | some ⊥, some _ => some ⊥
  | some _, some ⊥ => some ⊥
  | some (some ⊤), some _ => some ⊤
  | some _, some (some ⊤) => some ⊤

/-- `Geom1D.measure1d` (/repo/plycutter/geometry/geom1d.py:159-161): the built-in `sum`
starting at 0. -/
def measure1d (g : Geom1D) : Option Ext :=
  (g.intervals.map fun iv => pySub iv.2 iv.1).foldl pyAdd (some ((0 : ℚ) : Ext))

/-- `Geom1D.is_bounded` (/repo/plycutter/geometry/geom1d.py:163-166).  `math.isfinite` converts
to a float first and would overflow on rationals beyond the float range; that is not modelled. -/
def isBounded (g : Geom1D) : Bool :=
  match g.measure1d with
  | some (some (some _)) => true
  | _ => false

/-- `Geom1D.__or__` (/repo/plycutter/geometry/geom1d.py:168-169). -/
def or (a b : Geom1D) : Except PyErr Geom1D := ofIvls (a.intervals ++ b.intervals)

/-- Python slices `l[0::2]`. -/
def evens : List α → List α
  | [] => []
  | [a] => [a]
  | a :: _ :: rest => a :: evens rest

/-- Python slices `l[1::2]`. -/
def odds (l : List α) : List α := evens l.tail

/-- `Geom1D.__invert__` (/repo/plycutter/geometry/geom1d.py:180-186). -/
def invert (g : Geom1D) : Except PyErr Geom1D :=
  let pts : List Ext := [⊥] ++ g.intervals.flatMap (fun iv => [iv.1, iv.2]) ++ [⊤]
  ofIvls ((evens pts).zip (odds pts))

/-- `Geom1D.__and__` (/repo/plycutter/geometry/geom1d.py:171-172). -/
def and (a b : Geom1D) : Except PyErr Geom1D := do
  let na ← invert a
  let nb ← invert b
  let u ← or na nb
  invert u

/-- `Geom1D.__sub__` (/repo/plycutter/geometry/geom1d.py:174-175). -/
def sub (a b : Geom1D) : Except PyErr Geom1D := do
  let nb ← invert b
  and a nb

/-- `Geom1D.__xor__` (/repo/plycutter/geometry/geom1d.py:177-178). -/
def xor (a b : Geom1D) : Except PyErr Geom1D := do
  let na ← invert a
  let l ← and na b
  let nb ← invert b
  let r ← and a nb
  or l r

/-- `Geom1D.filter` (/repo/plycutter/geometry/geom1d.py:188-193). -/
def filter (g : Geom1D) (f : Ext → Ext → Bool) : Except PyErr Geom1D :=
  ofIvls (g.intervals.filter fun iv => f iv.1 iv.2)

end Geom1D
end Ply
