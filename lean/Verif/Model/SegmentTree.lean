import Verif.Model.Types2D
import Mathlib.Data.List.Dedup
import Mathlib.Data.List.Sort

/-!
# Model of /repo/plycutter/geometry/impl2d/segment_tree.py

Coordinates are rationals; `ι` is the type of the objects attached to segments.
-/

namespace Ply

/-- `(low, high, id)` -/
abbrev STSeg (ι : Type) := ℚ × ℚ × ι

/-- `SegmentTree1D_Slow.stab` (/repo/plycutter/geometry/impl2d/segment_tree.py:26-29). -/
def slowStab {ι : Type} (segments : List (STSeg ι)) (v : ℚ) : List (STSeg ι) :=
  segments.filter fun s => decide (s.1 ≤ v) && decide (s.2.1 ≥ v)

/-- `PointLeaf`, `RangeLeaf` and `Node`
(/repo/plycutter/geometry/impl2d/segment_tree.py:39-51, 96-102, 118-124). -/
inductive STree (ι : Type) where
  | point (value : ℚ) (at_ : List (STSeg ι))
  | range (low high : ℚ) (at_ : List (STSeg ι))
  | node (min : ℚ) (closed_low : Bool) (max : ℚ) (closed_high : Bool) (cut : ℚ)
      (segments : List (STSeg ι)) (left right : STree ι)

namespace STree

variable {ι : Type}

def min : STree ι → ℚ
  | point v _ => v
  | range l _ _ => l
  | node m _ _ _ _ _ _ _ => m

def max : STree ι → ℚ
  | point v _ => v
  | range _ h _ => h
  | node _ _ m _ _ _ _ _ => m

def closedLow : STree ι → Bool
  | point _ _ => true
  | range _ _ _ => false
  | node _ c _ _ _ _ _ _ => c

def closedHigh : STree ι → Bool
  | point _ _ => true
  | range _ _ _ => false
  | node _ _ _ c _ _ _ _ => c

/-- `Node.__init__` (/repo/plycutter/geometry/impl2d/segment_tree.py:40-51). -/
def mkNode (left right : STree ι) : Except PyErr (STree ι) :=
  if left.max = right.min then
    if left.closedHigh = !right.closedLow then
      .ok (node left.min left.closedLow right.max right.closedHigh left.max [] left right)
    else .error .assertion
  else .error .assertion

/-- `Node.is_inside` (/repo/plycutter/geometry/impl2d/segment_tree.py:53-68). -/
def isInside (mn : ℚ) (closed_low : Bool) (mx : ℚ) (closed_high : Bool) (pt : ℚ) (side : Int) : Bool :=
  if side ≤ 0 ∧ (if closed_high then pt > mx else pt ≥ mx) then false
  else if side ≥ 0 ∧ (if closed_low then pt < mn else pt ≤ mn) then false
  else true

/-- `add_segment` of the three classes
(/repo/plycutter/geometry/impl2d/segment_tree.py:70-80, 104-109, 126-131). -/
def addSegment (s : STSeg ι) : STree ι → STree ι
  | point v at_ => if s.1 ≤ v ∧ s.2.1 ≥ v then point v (at_ ++ [s]) else point v at_
  | range l h at_ => if s.1 < h ∧ s.2.1 > l then range l h (at_ ++ [s]) else range l h at_
  | node mn cl mx ch cut segs left right =>
    if isInside mn cl mx ch s.1 (-1) = false then node mn cl mx ch cut segs left right
    else if isInside mn cl mx ch s.2.1 1 = false then node mn cl mx ch cut segs left right
    else if s.1 ≤ mn ∧ s.2.1 ≥ mx then node mn cl mx ch cut (segs ++ [s]) left right
    else node mn cl mx ch cut segs (addSegment s left) (addSegment s right)

/-- `stab` of the three classes
(/repo/plycutter/geometry/impl2d/segment_tree.py:82-89, 111-113, 133-136). -/
def stab (value : ℚ) : STree ι → List (STSeg ι)
  | point v at_ => if value = v then at_ else []
  | range l h at_ => if value > l ∧ value < h then at_ else []
  | node mn _ mx _ cut segs left right =>
    (if mn ≤ value ∧ value ≤ mx then segs else []) ++
    (if value < cut ∨ (value = cut ∧ left.closedHigh = true) then stab value left
     else stab value right)

end STree

/-- The leaves in order (/repo/plycutter/geometry/impl2d/segment_tree.py:151-156). -/
def stLeaves {ι : Type} : List ℚ → List (STree ι)
  | [] => []
  | [e] => [.point e []]
  | e :: e' :: rest => .point e [] :: .range e e' [] :: stLeaves (e' :: rest)

/-- One pass of the pairing loop (/repo/plycutter/geometry/impl2d/segment_tree.py:159-164). -/
def stPairUp {ι : Type} : List (STree ι) → Except PyErr (List (STree ι))
  | [] => .ok []
  | [a] => .ok [a]
  | a :: b :: rest => do
    let n ← STree.mkNode a b
    let r ← stPairUp rest
    return n :: r

/-- The `while len(nodes) > 1` loop and `self.root = nodes[0]`
(/repo/plycutter/geometry/impl2d/segment_tree.py:158-167).  The number of iterations is bounded by
`fuel`; running out of fuel (`.other 0`) would be a non-terminating loop and is proved not to occur
(`c23_constructor`). -/
def stReduce {ι : Type} : Nat → List (STree ι) → Except PyErr (STree ι)
  | _, [] => .error .indexError
  | _, [a] => .ok a
  | 0, _ :: _ :: _ => .error (.other 0)
  | fuel + 1, a :: b :: rest => do
    let l ← stPairUp (a :: b :: rest)
    stReduce fuel l

/-- Python's `min(l)` / `max(l)` on a list of numbers. -/
def pyMin : List ℚ → Except PyErr ℚ
  | [] => .error .valueError
  | a :: l => .ok (l.foldl (fun m x => if x < m then x else m) a)

def pyMax : List ℚ → Except PyErr ℚ
  | [] => .error .valueError
  | a :: l => .ok (l.foldl (fun m x => if m < x then x else m) a)

/-- The loop collecting end points (/repo/plycutter/geometry/impl2d/segment_tree.py:142-145). -/
def stEndpoints {ι : Type} : List (STSeg ι) → Except PyErr (List ℚ)
  | [] => .ok []
  | s :: rest =>
    if s.2.1 ≥ s.1 then do
      let r ← stEndpoints rest
      return s.1 :: s.2.1 :: r
    else .error .assertion

/-- `SegmentTree1D.__init__` (/repo/plycutter/geometry/impl2d/segment_tree.py:141-175);
the result is `self.root`. -/
def segmentTree {ι : Type} (segments : List (STSeg ι)) : Except PyErr (STree ι) := do
  let eps ← stEndpoints segments
  let sorted := (eps.dedup).insertionSort (fun a b => a ≤ b)
  let endpoints := if sorted.length = 0 then [0, 1] else sorted
  let leaves := stLeaves endpoints
  let root₀ ← stReduce leaves.length leaves
  let root := segments.foldl (fun t s => t.addSegment s) root₀
  let mn ← pyMin endpoints
  let mx ← pyMax endpoints
  if root.min = mn then
    if root.max = mx then return root
    else throw .assertion
  else throw .assertion

/-- `SegmentTree1D.stab` (/repo/plycutter/geometry/impl2d/segment_tree.py:179-183), collected into a
list; the assertions are evaluated for every element. -/
def segmentTreeStab {ι : Type} (root : STree ι) (value : ℚ) : Except PyErr (List (STSeg ι)) :=
  (root.stab value).mapM fun s =>
    if s.1 ≤ value then
      if s.2.1 ≥ value then .ok s else .error .assertion
    else .error .assertion

end Ply
