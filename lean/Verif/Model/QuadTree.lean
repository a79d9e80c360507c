import Verif.Model.AABB
import Mathlib.Data.Finset.Card

/-!
# Model of /repo/plycutter/geometry/impl2d/pmr_quadtree.py
-/

namespace Ply

/-- `PMRQuadTree.Node` (/repo/plycutter/geometry/impl2d/pmr_quadtree.py:60-65): `children` is `None`
(`leaf`) or a list of four nodes (`quad`).  Sets of items are `Finset`s. -/
inductive QNode (α : Type) where
  | leaf (aabb : AABB) (items : Finset α)
  | quad (aabb : AABB) (items : Finset α) (c00 c01 c10 c11 : QNode α)

namespace QNode

variable {α : Type}

def aabb : QNode α → AABB
  | leaf b _ => b
  | quad b _ _ _ _ _ => b

/-- `AABB((x0, y0), (x1, y1))` with numbers that may be NaN. -/
def boxOfRanges (x0 x1 y0 y1 : NQ) : AABB :=
  AABB.updateMiddle ⟨(x0, y0), (x1, y1), (none, none)⟩

/-- The four boxes made by `split`, in order
(/repo/plycutter/geometry/impl2d/pmr_quadtree.py:83-94). -/
def splitBoxes (b : AABB) : AABB × AABB × AABB × AABB :=
  let mx := NQ.map2 (fun u l => (u + l) / 2) b.upper.1 b.lower.1
  let my := NQ.map2 (fun u l => (u + l) / 2) b.upper.2 b.lower.2
  (boxOfRanges b.lower.1 mx b.lower.2 my, boxOfRanges b.lower.1 mx my b.upper.2,
   boxOfRanges mx b.upper.1 b.lower.2 my, boxOfRanges mx b.upper.1 my b.upper.2)

/-- `Node.split` (/repo/plycutter/geometry/impl2d/pmr_quadtree.py:81-98).  The items already stored
stay where they are (the redistribution is commented out in the source). -/
def split (b : AABB) (items : Finset α) : QNode α :=
  let c := splitBoxes b
  quad b items (leaf c.1 ∅) (leaf c.2.1 ∅) (leaf c.2.2.1 ∅) (leaf c.2.2.2 ∅)

variable [DecidableEq α]

/-- `self.items.add(item)` or the four recursive calls
(/repo/plycutter/geometry/impl2d/pmr_quadtree.py:75-79) for a node that has just been split or must
not be split: `allow_split` is false from here on, so leaves simply store the item. -/
def addNoSplit (inter : α → AABB → Bool) (item : α) : QNode α → QNode α
  | leaf b items => if inter item b then leaf b (insert item items) else leaf b items
  | quad b items c00 c01 c10 c11 =>
    if inter item b then
      quad b items (addNoSplit inter item c00) (addNoSplit inter item c01)
        (addNoSplit inter item c10) (addNoSplit inter item c11)
    else quad b items c00 c01 c10 c11

/-- `Node.add(item, True)` (/repo/plycutter/geometry/impl2d/pmr_quadtree.py:67-79).  A leaf may be
split once; `allow_split` is then false.  A node that already has children passes `True` on. -/
def add (inter : α → AABB → Bool) (threshold : Int) (item : α) : QNode α → QNode α
  | leaf b items =>
    if inter item b then
      if (items.card : Int) + 1 ≥ threshold then addChildren (split b items)
      else leaf b (insert item items)
    else leaf b items
  | quad b items c00 c01 c10 c11 =>
    if inter item b then
      quad b items (add inter threshold item c00) (add inter threshold item c01)
        (add inter threshold item c10) (add inter threshold item c11)
    else quad b items c00 c01 c10 c11
where
  /-- the `for child in self.children` loop after a split -/
  addChildren : QNode α → QNode α
    | leaf b items => leaf b items
    | quad b items c00 c01 c10 c11 =>
      quad b items (addNoSplit inter item c00) (addNoSplit inter item c01)
        (addNoSplit inter item c10) (addNoSplit inter item c11)

/-- `Node.find_all` (/repo/plycutter/geometry/impl2d/pmr_quadtree.py:100-107). -/
def findAll (pred : AABB → Bool) : QNode α → Finset α
  | leaf b items => if pred b then items else ∅
  | quad b items c00 c01 c10 c11 =>
    if pred b then
      items ∪ findAll pred c00 ∪ findAll pred c01 ∪ findAll pred c10 ∪ findAll pred c11
    else ∅

end QNode

/-- `PMRQuadTree` (/repo/plycutter/geometry/impl2d/pmr_quadtree.py:27-57). -/
structure PMRQuadTree (α : Type) where
  inter : α → AABB → Bool
  threshold : Int
  root : QNode α

namespace PMRQuadTree

variable {α : Type} [DecidableEq α]

/-- `PMRQuadTree.add` (/repo/plycutter/geometry/impl2d/pmr_quadtree.py:46-47). -/
def add (t : PMRQuadTree α) (item : α) : PMRQuadTree α :=
  { t with root := t.root.add t.inter t.threshold item }

/-- `PMRQuadTree.__init__` (/repo/plycutter/geometry/impl2d/pmr_quadtree.py:28-44). -/
def make (aabb : AABB) (inter : α → AABB → Bool) (items : List α) (threshold : Int) : PMRQuadTree α :=
  items.foldl add ⟨inter, threshold, .leaf aabb ∅⟩

/-- `PMRQuadTree.find_all` (/repo/plycutter/geometry/impl2d/pmr_quadtree.py:52-57). -/
def findAll (t : PMRQuadTree α) (pred : AABB → Bool) : Finset α := t.root.findAll pred

/-- `PMRQuadTree.find_all_similar` (/repo/plycutter/geometry/impl2d/pmr_quadtree.py:49-50). -/
def findAllSimilar (t : PMRQuadTree α) (item : α) : Finset α := t.findAll fun b => t.inter item b

end PMRQuadTree

/-- `SegmentPMRQuadTree.__init__` (/repo/plycutter/geometry/impl2d/pmr_quadtree.py:110-121). -/
def segmentQuadTree (aabb : Option AABB) (items : List Seg) (threshold : Int) : PMRQuadTree Seg :=
  let box := aabb.getD
    (items.foldl (fun b s => (b.includePoint s.1).includePoint s.2) (AABB.make none none))
  PMRQuadTree.make box (fun s b => b.intersectsSegment s) items threshold

end Ply
