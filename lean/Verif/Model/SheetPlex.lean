import Verif.Model.Geom2D
import Verif.Model.PMap
import Mathlib.Data.List.Lex
import Mathlib.Data.Char

/-!
# Model of sheetplexes

/repo/plycutter/sheetplex.py and the part of /repo/plycutter/create_sheetplex.py that makes the
intersections.  Strings are lists of characters.  The floating point geometry of `create_intersection` is a parameter: for two sheets it says
whether they are parallel and, if not, gives for both sheets the projected direction and the four
projected corner points (as exact rationals, after `vFraction`).
-/

namespace Ply

/-- A string. -/
abbrev Name := List Char

/-- `InterSide` (sheetplex.py:186-223). -/
structure InterSide where
  id : Name × Name
  intersection : Name
  idx : ℕ
  sheet : Name
  direction : Pt
  normal : Pt
  originOffset : ℚ
  minNormalOffset : ℚ
  maxNormalOffset : ℚ

/-- `Intersection` (sheetplex.py:138-163) without the 3D direction and origins. -/
structure Intersection where
  id : Name
  sides : List InterSide

/-- `Sheet` (sheetplex.py:91-135): only the name. -/
structure Sheet where
  id : Name
  deriving DecidableEq

/-- `SheetPlex` (sheetplex.py:33-54). -/
structure SheetPlex where
  sheets : PMap Name Sheet
  intersections : PMap Name Intersection

/-- `t[i]` for a tuple and a possibly negative index. -/
def pyIndex {α : Type} (l : List α) (i : ℤ) : Except PyErr α :=
  match l[(if i < 0 then i + l.length else i).toNat]? with
  | some v => if (if i < 0 then i + l.length else i) < 0 then .error .indexError else .ok v
  | none => .error .indexError

/-- `SheetPlex.interside` (sheetplex.py:56-64). -/
def SheetPlex.interside (sp : SheetPlex) (id : Name × Name) : Except PyErr InterSide := do
  let inter ← sp.intersections.get id.1
  let s0 ← pyIndex inter.sides 0
  if s0.sheet = id.2 then .ok s0
  else do
    let s1 ← pyIndex inter.sides 1
    if s1.sheet = id.2 then .ok s1 else .error .assertion

/-- `SheetPlex.intersides` (sheetplex.py:66-71); `vals` is `self.intersections.values()`, in any order. -/
def intersides (vals : List Intersection) (sheetId : Option Name) : List InterSide :=
  vals.flatMap fun inter => inter.sides.filter fun side =>
    match sheetId with
    | none => true
    | some s => decide (side.sheet = s)

/-- The filter condition of `limit` (sheetplex.py:85-86).  `iter` is the builtin function, which has no
attribute `sides`. -/
def limitCond (ids : List Name) (inter : Intersection) : Except PyErr Bool := do
  let s0 ← pyIndex inter.sides 0
  if s0.sheet ∈ ids then .error .attributeError else .ok false

/-- The dictionary comprehension over the intersections in `limit` (sheetplex.py:81-87). -/
def limitInters (ids : List Name) : PMap Name Intersection → Except PyErr (PMap Name Intersection)
  | [] => .ok []
  | (k, inter) :: m => do
    let keep ← limitCond ids inter
    let rest ← limitInters ids m
    .ok (if keep then (k, inter) :: rest else rest)

/-- `SheetPlex.limit` (sheetplex.py:73-88). -/
def SheetPlex.limit (sp : SheetPlex) (ids : List Name) : Except PyErr SheetPlex := do
  let sheets := sp.sheets.filter fun e => decide (e.1 ∈ ids)
  let inters ← limitInters ids sp.intersections
  .ok ⟨sheets, inters⟩

/-- `InterSide.opposite` (sheetplex.py:225-227). -/
def InterSide.opposite (s : InterSide) (sp : SheetPlex) : Except PyErr InterSide := do
  let inter ← sp.intersections.get s.intersection
  pyIndex inter.sides (1 - (s.idx : ℤ))

/-- `Intersection.side_by_sheet` (sheetplex.py:169-178). -/
def sideBySheet : List InterSide → Name → Option InterSide
  | [], _ => none
  | s :: rest, sheetId => if s.sheet = sheetId then some s else sideBySheet rest sheetId

/-- `InterSide.project_to_1d` (sheetplex.py:229-232). -/
def InterSide.projectTo1d (s : InterSide) (g : Geom2D) : Except PyErr Geom1D :=
  Geom2D.projectTo1d g s.direction (-s.originOffset)

/-- `coords` in `make_fingers` (sheetplex.py:259-269). -/
def InterSide.coords (s : InterSide) (fract0 fract1 along across : ℚ) : Pt :=
  let al := along + s.originOffset
  let fract := fract0 + (fract1 - fract0) * across
  let nc := s.minNormalOffset + (s.maxNormalOffset - s.minNormalOffset) * fract
  (al * s.direction.1 + nc * s.normal.1, al * s.direction.2 + nc * s.normal.2)

/-- `isinstance(v, FractionClass)`, giving the rational. -/
def asFraction : Ext → Except PyErr ℚ
  | some (some q) => .ok q
  | _ => .error .assertion

/-- The loop of `make_fingers` (sheetplex.py:252-279). -/
def InterSide.fingerLoop (s : InterSide) (fract0 fract1 : ℚ) : List Ivl → Except PyErr (List Geom2D)
  | [] => .ok []
  | iv :: rest => do
    let a ← asFraction iv.1
    let b ← asFraction iv.2
    let g ← Geom2D.polygon [s.coords fract0 fract1 a 0, s.coords fract0 fract1 a 1,
      s.coords fract0 fract1 b 1, s.coords fract0 fract1 b 0] true
    let r ← s.fingerLoop fract0 fract1 rest
    .ok (g :: r)

/-- `InterSide.make_fingers` (sheetplex.py:234-280). -/
def InterSide.makeFingers (arr : Geom2D.ArrOp) (s : InterSide) (where_ : Geom1D) (fract0 fract1 : ℚ) :
    Except PyErr Geom2D := do
  let res ← s.fingerLoop fract0 fract1 where_.intervals
  Geom2D.union arr (res.length + 4) res

/-! ### create_sheetplex.py: intersections -/

/-- The floating point results of `create_intersection` and `create_inter_side`: for side `0` and `1` the
projected direction and the four projected corner points. -/
structure JointNums where
  dir : ℕ → Pt
  origs : ℕ → Pt × Pt × Pt × Pt

/-- `intersection_id` (create_sheetplex.py:356-357). -/
def intersectionId (a b : Name) : Name :=
  if b < a then b ++ ',' :: a else a ++ ',' :: b

/-- `np.dot` of two points. -/
def dot (a b : Pt) : ℚ := a.1 * b.1 + a.2 * b.2

/-- `create_inter_side` (create_sheetplex.py:360-386). -/
def createInterSide (nums : JointNums) (interId : Name) (sheet : Sheet) (idx : ℕ) : InterSide :=
  let direction := nums.dir idx
  let normal : Pt := (direction.2 * 1, direction.1 * -1)
  let (o0, o1, o2, o3) := nums.origs idx
  { id := (interId, sheet.id)
    intersection := interId
    sheet := sheet.id
    idx := idx
    direction := direction
    normal := normal
    originOffset := dot direction o0
    minNormalOffset := Geom2D.minQ (dot o0 normal) [dot o1 normal, dot o2 normal, dot o3 normal]
    maxNormalOffset := Geom2D.maxQ (dot o0 normal) [dot o1 normal, dot o2 normal, dot o3 normal] }

/-- `create_intersection` (create_sheetplex.py:307-353). -/
def createIntersection (geo : Sheet → Sheet → Option JointNums) (sp : SheetPlex) (sheet1 sheet2 : Sheet) :
    SheetPlex :=
  let id := intersectionId sheet1.id sheet2.id
  match geo sheet1 sheet2 with
  | none => sp
  | some nums =>
    let sides := [createInterSide nums id sheet1 0, createInterSide nums id sheet2 1]
    { sp with intersections := PMap.set sp.intersections id ⟨id, sides⟩ }

/-- The inner loop of `create_intersections` (create_sheetplex.py:302-303). -/
def createInner (geo : Sheet → Sheet → Option JointNums) (sheet0 : Sheet) : List Sheet → SheetPlex → SheetPlex
  | [], sp => sp
  | sheet1 :: rest, sp => createInner geo sheet0 rest (createIntersection geo sp sheet0 sheet1)

/-- The outer loop of `create_intersections` (create_sheetplex.py:299-304). -/
def createOuter (geo : Sheet → Sheet → Option JointNums) : List Sheet → SheetPlex → SheetPlex
  | [], sp => sp
  | sheet0 :: rest, sp => createOuter geo rest (createInner geo sheet0 rest sp)

/-- The end of `create_sheetplex` (create_sheetplex.py:58-62) for sheets in any order. -/
def createSheetplex (geo : Sheet → Sheet → Option JointNums) (sheets : List Sheet) : SheetPlex :=
  createOuter geo sheets ⟨sheets.map fun s => (s.id, s), []⟩

end Ply
