import Verif.Model.Geom1D
import Mathlib.Algebra.Order.Floor.Defs
import Mathlib.Data.Rat.Floor

/-!
# Model of the random fingers (/repo/plycutter/heuristics.py:403-516)

Floating point numbers (`np.float64`) are idealised to exact rationals.  The random generator is a
parameter: `order` is the shuffled index list, `u k low hi` the result of the `k`-th
`rng.uniform(low, hi)` and `pick lo hi` the result of `rng.randint(lo, hi + 1)`.  Only stretches with finite end points are modelled.
-/

namespace Ply

/-- `lengths[i] = cur`. -/
def setAt (f : ℕ → ℚ) (i : ℕ) (v : ℚ) : ℕ → ℚ := fun j => if j = i then v else f j

/-- The loop over the shuffled order (heuristics.py:408-424). -/
def lengthsLoop (u : ℕ → ℚ → ℚ → ℚ) (n : ℕ) (mn mx total : ℚ) :
    List ℕ → (ℕ → ℚ) → ℚ → ℕ → Except PyErr (ℕ → ℚ)
  | [], lengths, _, _ => .ok lengths
  | i :: rest, lengths, running, handled =>
    let left := total - running
    let atMost := left - ((n : ℚ) - handled - 1) * mn
    let atMin := left - ((n : ℚ) - handled - 1) * mx
    let low := if atMin < mn then mn else atMin
    let hi := if mx < atMost then mx else atMost
    if low ≤ hi then
      let cur := u handled low hi
      lengthsLoop u n mn mx total rest (setAt lengths i cur) (running + cur) (handled + 1)
    else .error .assertion

/-- Accumulation of the lengths into spans (heuristics.py:426-430): the spans and the final sum. -/
def accumulate : ℚ → List ℚ → List (ℚ × ℚ) × ℚ
  | cur, [] => ([], cur)
  | cur, l :: rest =>
    let (spans, fin) := accumulate (cur + l) rest
    ((cur, cur + l) :: spans, fin)

/-- `random_min_max` (heuristics.py:403-433). -/
def randomMinMax (u : ℕ → ℚ → ℚ → ℚ) (order : List ℕ) (n : ℤ) (mn mx total : ℚ) :
    Except PyErr (List (ℚ × ℚ)) := do
  if mn * n ≤ total ∧ total ≤ mx * n then
    if n < 0 then .error .valueError
    else do
      let lengths ← lengthsLoop u n.toNat mn mx total order (fun _ => 0) 0 0
      let (result, curSum) := accumulate 0 ((List.range n.toNat).map lengths)
      if curSum - total < 1 / 100000000 then .ok result else .error .assertion
  else .error .assertion

/-- `np.argmax` of two measures. -/
def argmax2 : Option Ext → Option Ext → ℕ
  | some a, some b => if a < b then 1 else 0
  | none, _ => 0
  | some _, none => 1

/-- `on_side` for one end interval (heuristics.py:460-468). -/
def onSide (ch0 ch1 : Geom1D) (lo hi : ℚ) : Except PyErr ℕ := do
  let ei ← Geom1D.construct [(.mpq lo, .mpq hi)]
  let a ← ch0.and ei
  let b ← ch1.and ei
  return argmax2 a.measure1d b.measure1d

/-- The number of fingers (heuristics.py:470-495): `none` when not even one can be put, else the
arguments of the random choice. -/
def fingerCount (minW maxW len : ℚ) (odd : Bool) : Except PyErr (Option (ℤ × ℤ)) :=
  if maxW = 0 ∨ minW = 0 then .error .zeroDivision
  else
    let nMinBase := ⌈len / maxW⌉
    let nMaxBase := ⌊len / minW⌋
    let nMin := if odd then nMinBase + nMinBase % 2 else nMinBase + 1 - nMinBase % 2
    let nMax := if odd then nMaxBase - nMaxBase % 2 else nMaxBase - 1 + nMaxBase % 2
    if nMin > nMax then .ok none
    else
      let nMin' := if nMin < 5 then (if nMax < 5 then nMax else 5) else nMin
      .ok (some (nMin', nMax))

/-- The loop assigning spans to alternating sides (heuristics.py:504-510). -/
def assignLoop (start : ℚ) : List (ℚ × ℚ) → ℕ → Geom1D → Geom1D → Except PyErr (Geom1D × Geom1D)
  | [], _, f0, f1 => .ok (f0, f1)
  | s :: rest, side, f0, f1 => do
    let span ← Geom1D.construct [(.mpq (start + s.1), .mpq (start + s.2))]
    if side = 0 then do
      let f0' ← f0.or span
      assignLoop start rest (1 - side) f0' f1
    else do
      let f1' ← f1.or span
      assignLoop start rest (1 - side) f0 f1'

/-- The random decisions made for one stretch. -/
structure Draws where
  order : ℤ → List ℕ
  u : ℕ → ℚ → ℚ → ℚ
  pick : ℤ → ℤ → ℤ

/-- What `single_fingers_random` chooses for one stretch `[start, stop)` (heuristics.py:456-513), given
what is already chosen on the two sides: the arguments of its `choose_interside` calls. -/
def stretchFingers (d : Draws) (minW maxW : ℚ) (ch0 ch1 : Geom1D) (start stop : ℚ) :
    Except PyErr (List (ℕ × Geom1D)) := do
  let geom1d ← Geom1D.construct [(.mpq start, .mpq stop)]
  let before ← onSide ch0 ch1 (start - 2) start
  let after ← onSide ch0 ch1 stop (stop + 2)
  let cnt ← fingerCount minW maxW (stop - start) (decide (before ≠ after))
  match cnt with
  | none => .ok [(0, geom1d)]
  | some (lo, hi) => do
    let n := d.pick lo hi
    let locations ← randomMinMax d.u (d.order n) n minW maxW (stop - start)
    let e ← Geom1D.empty
    let (f0, f1) ← assignLoop start locations (1 - before) e e
    return [(0, f0), (1, f1)]

end Ply
