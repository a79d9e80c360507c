import Verif.Model.Types2D
import Mathlib.Data.List.Sort

/-!
# Model of /repo/plycutter/geometry/impl2d/scan2d.py

The sorted containers are modelled by sorted lists.  `SortedList.add`, `remove` and `irange` locate
positions by bisection; here the position is the first one where the same comparison succeeds, which
is what bisection finds whenever the comparison is monotone along the list.  That it is monotone is
part of what is proved (`c26_active_sorted`, `c26_fake_key_monotone`).
-/

namespace Ply

/-- Result of `_find_general_y_shear` loop: `(had_horizontal, max_ratio)`
(/repo/plycutter/geometry/impl2d/scan2d.py:88-99). -/
def shearLoop : Bool × Option ℚ → List Seg → Bool × Option ℚ
  | st, [] => st
  | (had, mr), s :: rest =>
    let d : Pt := (s.2.1 - s.1.1, s.2.2 - s.1.2)
    if d.1 ≠ 0 then
      if d.2 = 0 then shearLoop (true, mr) rest
      else
        let ratio := |d.2 / d.1|
        match mr with
        | none => shearLoop (had, some ratio) rest
        | some m => if ratio < m then shearLoop (had, some ratio) rest else shearLoop (had, some m) rest
    else shearLoop (had, mr) rest

/-- `_find_general_y_shear` (/repo/plycutter/geometry/impl2d/scan2d.py:78-104). -/
def findShear (segments : List Seg) : ℚ :=
  match shearLoop (false, none) segments with
  | (false, _) => 0
  | (true, none) => 1
  | (true, some m) => m / 2

/-- `_at_y_no_horizontal` (/repo/plycutter/geometry/impl2d/scan2d.py:107-118). -/
def atYNoHorizontal (s : Seg) (y : ℚ) : Except PyErr ℚ :=
  if y = s.1.2 then .ok s.1.1
  else if y = s.2.2 then .ok s.2.1
  else if s.2.2 - s.1.2 ≠ 0 then
    .ok (s.1.1 + (s.2.1 - s.1.1) * (y - s.1.2) / (s.2.2 - s.1.2))
  else .error .assertion

/-- The value returned by `_at_y_no_horizontal` when its assertion holds.  Inside the sweep it is only
called on segments of `_SweepKey`s, whose constructor has already asserted non-horizontality, so the
sweep model uses this (`c25_at_y`). -/
def atY (s : Seg) (y : ℚ) : ℚ :=
  if y = s.1.2 then s.1.1
  else if y = s.2.2 then s.2.1
  else s.1.1 + (s.2.1 - s.1.1) * (y - s.1.2) / (s.2.2 - s.1.2)

/-- `_SweepKey` objects (/repo/plycutter/geometry/impl2d/scan2d.py:135-139). -/
structure SweepKey where
  segment : Seg
  pt : Pt
  deriving DecidableEq

/-- `_SweepKey.__init__` (/repo/plycutter/geometry/impl2d/scan2d.py:135-139). -/
def mkSweepKey (s : Seg) (pt : Pt) : Except PyErr SweepKey :=
  if s.1.2 ≠ s.2.2 then .ok ⟨s, pt⟩ else .error .assertion

/-- Tuple comparison `<` on points. -/
def ptLt (a b : Pt) : Bool := decide (a.1 < b.1) || (decide (a.1 = b.1) && decide (a.2 < b.2))

/-- Tuple comparison `<` on segments. -/
def segLt (a b : Seg) : Bool := ptLt a.1 b.1 || (decide (a.1 = b.1) && ptLt a.2 b.2)

/-- `_SweepKey.__lt__` (/repo/plycutter/geometry/impl2d/scan2d.py:150-186). -/
def SweepKey.lt (self other : SweepKey) : Bool :=
  let (cmp_y, other_x, self_x) :=
    if other.pt.2 > self.pt.2 then (other.pt.2, other.pt.1, atY self.segment other.pt.2)
    else (self.pt.2, atY other.segment self.pt.2, self.pt.1)
  if self_x < other_x then true
  else if self_x > other_x then false
  else
    let alt_cmp_y := if other.pt.2 = self.pt.2 then cmp_y + 1 else cmp_y - 1
    let self_next_x := atY self.segment alt_cmp_y
    let other_next_x := atY other.segment alt_cmp_y
    if self_next_x < other_next_x then true
    else if self_next_x > other_next_x then false
    else segLt self.segment other.segment

/-- `event_key(p) < event_key(q)` (/repo/plycutter/geometry/impl2d/scan2d.py:203-204). -/
def evLt (p q : Pt) : Bool := decide (p.2 < q.2) || (decide (p.2 = q.2) && decide (p.1 < q.1))

/-- The event queue: a `SortedDict` from points to lists of keys, in key order. -/
abbrev EventQueue := List (Pt × List SweepKey)

/-- `add_event` (/repo/plycutter/geometry/impl2d/scan2d.py:209-213). -/
def addEvent (pt : Pt) (k : Option SweepKey) : EventQueue → EventQueue
  | [] => [(pt, k.toList)]
  | (q, l) :: rest =>
    if q = pt then (q, l ++ k.toList) :: rest
    else if evLt pt q then (pt, k.toList) :: (q, l) :: rest
    else (q, l) :: addEvent pt k rest

/-- The loop filling the event queue (/repo/plycutter/geometry/impl2d/scan2d.py:215-221). -/
def initQueue : EventQueue → List Seg → Except PyErr EventQueue
  | q, [] => .ok q
  | q, s :: rest =>
    if evLt s.1 s.2 then do
      let k ← mkSweepKey s s.1
      initQueue (addEvent s.2 none (addEvent s.1 (some k) q)) rest
    else do
      let k ← mkSweepKey s s.2
      initQueue (addEvent s.2 (some k) (addEvent s.1 none q)) rest

/-- `SortedList.add` (insertion at `bisect_right`): before the first element greater than the key. -/
def activeAdd (k : SweepKey) : List SweepKey → List SweepKey
  | [] => [k]
  | a :: rest => if k.lt a then k :: a :: rest else a :: activeAdd k rest

/-- `SortedList.remove`: the element at `bisect_left`, i.e. the first one not less than the key, must
equal the key. -/
def activeRemove (k : SweepKey) : List SweepKey → Except PyErr (List SweepKey)
  | [] => .error .valueError
  | a :: rest =>
    if a.lt k then do
      let r ← activeRemove k rest
      return a :: r
    else if a = k then .ok rest
    else .error .valueError

/-- Removing the touching keys one by one (/repo/plycutter/geometry/impl2d/scan2d.py:264-265). -/
def activeRemoveAll : List SweepKey → List SweepKey → Except PyErr (List SweepKey)
  | [], l => .ok l
  | k :: ks, l => do
    let l' ← activeRemove k l
    activeRemoveAll ks l'

/-- `_det` (/repo/plycutter/geometry/impl2d/scan2d.py:316-317). -/
def det2 (va vb : Pt) : ℚ := va.1 * vb.2 - va.2 * vb.1

/-- `_nonparallel_intersection_point` (/repo/plycutter/geometry/impl2d/scan2d.py:320-347). -/
def nonparallelIntersection (a b : Seg) : Option Pt :=
  let da : Pt := (a.2.1 - a.1.1, a.2.2 - a.1.2)
  let db : Pt := (b.2.1 - b.1.1, b.2.2 - b.1.2)
  let denom := det2 da db
  if denom = 0 then none
  else
    let dab0 : Pt := (a.1.1 - b.1.1, a.1.2 - b.1.2)
    let t_num := det2 db dab0
    let u_num := det2 da dab0
    let (t_num, u_num, denom) :=
      if denom < 0 then (-t_num, -u_num, -denom) else (t_num, u_num, denom)
    if 0 ≤ t_num ∧ t_num ≤ denom ∧ 0 ≤ u_num ∧ u_num ≤ denom then
      let ta := t_num / denom
      some (a.1.1 + ta * da.1, a.1.2 + ta * da.2)
    else none

/-- `if ipt and ipt[1] > pt[1]: add_event(ipt)` for two neighbouring segments
(/repo/plycutter/geometry/impl2d/scan2d.py:287-291, 296-301, 304-309). -/
def addCrossing (a b : Seg) (pt : Pt) (q : EventQueue) : EventQueue :=
  match nonparallelIntersection a b with
  | some ipt => if ipt.2 > pt.2 then addEvent ipt none q else q
  | none => q

/-- `sorted` on sweep keys (/repo/plycutter/geometry/impl2d/scan2d.py:281): stable, uses only `<`. -/
def sortKeys (l : List SweepKey) : List SweepKey := l.insertionSort fun a b => b.lt a = false

/-- What one event contributes to the iterator, and the new queue and active list. -/
structure SweepStep where
  out : List (Pt × List Seg)
  queue : EventQueue
  active : List SweepKey

/-- The body of the main loop for the event `(pt, segstarts)` after it was popped
(/repo/plycutter/geometry/impl2d/scan2d.py:229-313). -/
def sweepStep (y : WithBot ℚ) (pt : Pt) (segstarts : List SweepKey) (queue : EventQueue)
    (active : List SweepKey) : Except PyErr SweepStep :=
  if y ≤ (pt.2 : WithBot ℚ) then do
    let fake_segment : Seg := ((pt.1, pt.2), (pt.1, pt.2 + 1))
    let fake_key ← mkSweepKey fake_segment pt
    -- irange(None, fake_key) and irange(fake_key, None, exclusive)
    let lower := (active.takeWhile fun k => !(fake_key.lt k)).reverse
    let higher := active.dropWhile fun k => !(fake_key.lt k)
    let hit := fun k : SweepKey => decide (atY k.segment pt.2 = pt.1)
    let touches := lower.takeWhile hit ++ higher.takeWhile hit
    let neighbour0 := (lower.dropWhile hit).head?
    let neighbour1 := (higher.dropWhile hit).head?
    let active ← activeRemoveAll touches active
    let segments_at_pt := (touches ++ segstarts).map SweepKey.segment
    let out := if segments_at_pt.length > 1 then [(pt, segments_at_pt)] else []
    let sweep_keys ← (segments_at_pt.filter fun s => !(decide (max s.1.2 s.2.2 ≤ pt.2))).mapM
      fun s => mkSweepKey s pt
    let sweep_keys := sortKeys sweep_keys
    match sweep_keys.head?, sweep_keys.getLast? with
    | some first, some last =>
      let queue := match neighbour0 with
        | some n => addCrossing first.segment n.segment pt queue
        | none => queue
      let queue := match neighbour1 with
        | some n => addCrossing last.segment n.segment pt queue
        | none => queue
      return ⟨out, queue, sweep_keys.foldl (fun act k => activeAdd k act) active⟩
    | _, _ =>
      match neighbour0, neighbour1 with
      | some n0, some n1 => return ⟨out, addCrossing n0.segment n1.segment pt queue, active⟩
      | _, _ => return ⟨out, queue, active⟩
  else throw .assertion

/-- The main loop (/repo/plycutter/geometry/impl2d/scan2d.py:223-313).  The number of iterations is
bounded by `fuel`; running out (`.other 0`) stands for a non-terminating loop and is proved not to
occur for large enough `fuel` (`c27_*`). -/
def sweepLoop : Nat → WithBot ℚ → EventQueue → List SweepKey → Except PyErr (List (Pt × List Seg))
  | _, _, [], _ => .ok []
  | 0, _, _ :: _, _ => .error (.other 0)
  | fuel + 1, y, (pt, segstarts) :: queue, active => do
    let st ← sweepStep y pt segstarts queue active
    let rest ← sweepLoop fuel (pt.2 : WithBot ℚ) st.queue st.active
    return st.out ++ rest

/-- `_all_segment_intersections_no_horizontal`
(/repo/plycutter/geometry/impl2d/scan2d.py:192-313); the generator is the list of what it yields. -/
def sweepNoHorizontal (fuel : Nat) (segments : List Seg) : Except PyErr (List (Pt × List Seg)) :=
  if segments.Nodup then
    if ∀ s ∈ segments, s.1 ≠ s.2 then do
      let q ← initQueue [] segments
      sweepLoop fuel ⊥ q []
    else .error .assertion
  else .error .assertion

/-- The shear `y <- y + alpha x` on points (/repo/plycutter/geometry/impl2d/scan2d.py:66). -/
def shearPt (alpha : ℚ) (p : Pt) : Pt := (p.1, p.2 + alpha * p.1)

def shearSeg (alpha : ℚ) (s : Seg) : Seg := (shearPt alpha s.1, shearPt alpha s.2)

/-- `origs[seg]` for the dictionary `{k: v for k, v in zip(tr_segments, segments)}`
(/repo/plycutter/geometry/impl2d/scan2d.py:69): the last pair with that key wins. -/
def origsLookup (alpha : ℚ) (segments : List Seg) (k : Seg) : Except PyErr Seg :=
  match segments.reverse.find? (fun s => decide (shearSeg alpha s = k)) with
  | some s => .ok s
  | none => .error .keyError

/-- `all_segment_intersections` (/repo/plycutter/geometry/impl2d/scan2d.py:29-75).  The two
`type(...) != float` assertions hold for exact input and are not modelled. -/
def allSegmentIntersections (fuel : Nat) (segments : List Seg) :
    Except PyErr (List (Pt × List Seg)) := do
  let alpha := findShear segments
  let res ← sweepNoHorizontal fuel (segments.map (shearSeg alpha))
  res.mapM fun (pt, segs) => do
    let origs ← segs.mapM (origsLookup alpha segments)
    return ((pt.1, pt.2 - alpha * pt.1), origs)

end Ply
