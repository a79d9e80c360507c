import Verif.Model.SheetPlex
import Verif.Model.Geom1D

/-!
# Model of /repo/plycutter/sheetbuild.py

The 2D geometry is reached through the record `G2Ops`, so that the same definitions can be used with the
model of `Geom2D` (`geom2dOps`) and with any other implementation.  The `dbg` field and the display
functions are left out.  Comparisons with float literals use the exact values of those floats.
-/

namespace Ply

/-- The 2D operations used by the sheet build and the heuristics. -/
structure G2Ops (G : Type) where
  empty : G
  or : G → G → Except PyErr G
  and : G → G → Except PyErr G
  sub : G → G → Except PyErr G
  isEmpty : G → Bool
  area : G → Except PyErr ℚ
  buffer : G → ℚ → Except PyErr G
  polygons : G → List G
  /-- `interside.make_fingers(v)`. -/
  fingers : InterSide → Geom1D → Except PyErr G
  /-- `interside.project_to_1d(g)`. -/
  project : InterSide → G → Except PyErr Geom1D

/-- The operations of `Geom2D`; the arrangement and the buffer are parameters. -/
def geom2dOps (arr : Geom2D.ArrOp) (buffer : Geom2D → ℚ → Except PyErr Geom2D) : G2Ops Geom2D where
  empty := Geom2D.empty
  or := Geom2D.or arr
  and := Geom2D.and arr
  sub := Geom2D.sub arr
  isEmpty := Geom2D.isEmpty
  area := Geom2D.area
  buffer := buffer
  polygons := Geom2D.polygons
  fingers s v := s.makeFingers arr v 0 1
  project s g := s.projectTo1d g

/-- The float `1e-5`. -/
def tol5 : ℚ := 5902958103587057 / 590295810358705651712

/-- The float `1e-6`. -/
def tol6 : ℚ := 4722366482869645 / 4722366482869645213696

/-- The float `1e-7`. -/
def tol7 : ℚ := 944473296573929 / 9444732965739290427392

/-- The float `0.001`. -/
def tol3 : ℚ := 1152921504606847 / 1152921504606846976

/-- `m < tol` for a result of `measure1d`. -/
def measureLt (m : Option Ext) (tol : ℚ) : Bool :=
  match m with
  | none => false
  | some v => decide (v < Ext.fin tol)

/-! ### Maps of geoms (sheetbuild.py:201-232) -/

/-- `map_or_geom` (sheetbuild.py:201-204).  A geom object is always true, so that `or` only replaces
`None`. -/
def mapOrGeom {κ α : Type} [DecidableEq κ] (or : α → α → Except PyErr α) (empty : Except PyErr α)
    (m : PMap κ α) (key : κ) (g : α) : Except PyErr (PMap κ α) := do
  let base ← (match m.get? key with
    | some w => .ok w
    | none => empty : Except PyErr α)
  let r ← or base g
  .ok (m.set key r)

/-- `map_and_geom` (sheetbuild.py:207-209) and `map_sub_geom` (sheetbuild.py:212-214), depending on `op`.
A missing key gives `None & geom`. -/
def mapOpGeom {κ α : Type} [DecidableEq κ] (op : α → α → Except PyErr α)
    (m : PMap κ α) (key : κ) (g : α) : Except PyErr (PMap κ α) :=
  match m.get? key with
  | some w => do
    let r ← op w g
    .ok (m.set key r)
  | none => .error .typeError

/-- The dictionary comprehension of `map_and` (sheetbuild.py:217-224). -/
def mapAnd {κ α : Type} [DecidableEq κ] (and : α → α → Except PyErr α) (isEmpty : α → Bool)
    (m2 : PMap κ α) : PMap κ α → Except PyErr (PMap κ α)
  | [] => .ok []
  | (k, v1) :: rest =>
    match m2.get? k with
    | none => mapAnd and isEmpty m2 rest
    | some v2 => do
      let r ← and v1 v2
      let tail ← mapAnd and isEmpty m2 rest
      .ok (if isEmpty r then tail else (k, r) :: tail)

/-- `map_or` (sheetbuild.py:227-232). -/
def mapOr {κ α : Type} [DecidableEq κ] (or : α → α → Except PyErr α) (empty : Except PyErr α) :
    PMap κ α → PMap κ α → Except PyErr (PMap κ α)
  | m1, [] => .ok m1
  | m1, (k, v) :: rest => do
    let m ← mapOrGeom or empty m1 k v
    mapOr or empty m rest

/-! ### The build -/

/-- `SheetBuild` (sheetbuild.py:38-77). -/
structure SheetBuild (G : Type) where
  sheetplex : SheetPlex
  sheetChosen : PMap Name G
  sheetOk : PMap Name G
  interChosen : PMap (Name × Name) Geom1D
  interOk : PMap (Name × Name) Geom1D

namespace SheetBuild

variable {G : Type} (o : G2Ops G)

/-- `assert cond`. -/
def assert (b : Bool) : Except PyErr Unit := if b then .ok () else .error .assertion

/-- `unchoose_interside` (sheetbuild.py:79-93).  A failing assertion first evaluates its message, which
calls the missing method `area` of `Geom1D`. -/
def unchooseInterside (sb : SheetBuild G) (id : Name × Name) (v : Geom1D) : Except PyErr (SheetBuild G) := do
  let ch ← sb.interChosen.get id
  let both ← ch.and v
  if both.isEmpty then do
    let inter ← sb.sheetplex.interside id
    let ok ← mapOpGeom Geom1D.sub sb.interOk inter.id v
    .ok { sb with interOk := ok }
  else .error .attributeError

/-- `unchoose_sheet_area` (sheetbuild.py:95-98).  `transform` hands an empty map to the function when the
key is missing. -/
def unchooseSheetArea (sb : SheetBuild G) (sheet : Name) (area : G) : Except PyErr (SheetBuild G) := do
  let ch ← sb.sheetChosen.get sheet
  let both ← o.and ch area
  let a ← o.area both
  assert (decide (a < tol5))
  let ok ← mapOpGeom o.sub sb.sheetOk sheet area
  .ok { sb with sheetOk := ok }

/-- `unchoose_intersides` (sheetbuild.py:100-103). -/
def unchooseIntersides (sb : SheetBuild G) : PMap (Name × Name) Geom1D → Except PyErr (SheetBuild G)
  | [] => .ok sb
  | (id, v) :: rest => do
    let sb' ← unchooseInterside sb id v
    unchooseIntersides sb' rest

/-- `choose_interside` (sheetbuild.py:105-137). -/
def chooseInterside (sb : SheetBuild G) (id : Name × Name) (v : Geom1D) (tentative : Bool) :
    Except PyErr (SheetBuild G) := do
  let okHere ← sb.interOk.get id
  let notOk ← okHere.invert
  let outside ← notOk.and v
  assert (measureLt outside.measure1d tol6)
  let interside ← sb.sheetplex.interside id
  let opposite ← interside.opposite sb.sheetplex
  let opp2d ← o.fingers opposite v
  let oppChosen ← sb.sheetChosen.get opposite.sheet
  let both ← o.and opp2d oppChosen
  let a ← o.area both
  assert (decide (a < tol6))
  let chosen ← (if tentative then .ok sb.sheetChosen
    else do
      let f ← o.fingers interside v
      let sok ← sb.sheetOk.get interside.sheet
      let fok ← o.and f sok
      mapOrGeom o.or (.ok o.empty) sb.sheetChosen interside.sheet fok : Except PyErr (PMap Name G))
  let opp2d' ← o.fingers opposite v
  let sheetOk ← mapOpGeom o.sub sb.sheetOk opposite.sheet opp2d'
  let interChosen ← mapOrGeom Geom1D.or Geom1D.empty sb.interChosen id v
  let interOk ← mapOpGeom Geom1D.sub sb.interOk opposite.id v
  .ok { sheetplex := sb.sheetplex
        sheetChosen := chosen
        sheetOk := sheetOk
        interChosen := interChosen
        interOk := interOk }

/-- `choose_intersides` (sheetbuild.py:139-142). -/
def chooseIntersides (sb : SheetBuild G) (tentative : Bool) :
    PMap (Name × Name) Geom1D → Except PyErr (SheetBuild G)
  | [] => .ok sb
  | (id, v) :: rest => do
    let sb' ← chooseInterside o sb id v tentative
    chooseIntersides sb' tentative rest

/-- The checks of one sheet in `_check` (sheetbuild.py:159-167). -/
def checkSheet (sb : SheetBuild G) (id : Name) : Except PyErr Unit := do
  let ch ← sb.sheetChosen.get id
  let ok ← sb.sheetOk.get id
  let d ← o.sub ch ok
  let a ← o.area d
  assert (decide (a < tol7))

/-- The checks of one joint side in `_check` (sheetbuild.py:169-197). -/
def checkInterside (sb : SheetBuild G) (s : InterSide) : Except PyErr Unit := do
  let opp ← s.opposite sb.sheetplex
  let ch ← sb.interChosen.get s.id
  let ok ← sb.interOk.get s.id
  let d ← ch.sub ok
  assert (measureLt d.measure1d tol7)
  let oppOk ← sb.interOk.get opp.id
  let both ← ch.and oppOk
  assert both.isEmpty
  let sch ← sb.sheetChosen.get s.sheet
  let f ← o.fingers s oppOk
  let cb ← o.and sch f
  let a ← o.area cb
  assert (decide (a < tol3))

/-- A loop that only checks. -/
def each {α : Type} (f : α → Except PyErr Unit) : List α → Except PyErr Unit
  | [] => .ok ()
  | x :: rest => do
    f x
    each f rest

/-- `_check` (sheetbuild.py:155-199) with the sheets and intersections in the order of the lists. -/
def check (sb : SheetBuild G) : Except PyErr Unit := do
  each (fun e : Name × Sheet => checkSheet o sb e.2.id) sb.sheetplex.sheets
  each (checkInterside o sb) (intersides (sb.sheetplex.intersections.map Prod.snd) none)

end SheetBuild

/-! ### create_sheetbuild -/

/-- The geometry of a sheet used by `create_sheetbuild`. -/
structure SheetGeoms (G : Type) where
  face0 : G
  face1 : G
  slicesMax : G

/-- `sheet_chosen` before the joints are removed (sheetbuild.py:240-242); `max_buffer` is 0. -/
def freshChosen {G : Type} (o : G2Ops G) (g : SheetGeoms G) : Except PyErr G := do
  let both ← o.and g.face0 g.face1
  let b ← o.buffer both 1
  let sm ← o.buffer g.slicesMax 0
  o.and b sm

/-- `sheet_ok` (sheetbuild.py:246-249). -/
def freshOk {G : Type} (o : G2Ops G) (rad : ℚ) (g : SheetGeoms G) : Except PyErr G := do
  let b0 ← o.buffer g.face0 rad
  let b1 ← o.buffer g.face1 rad
  let b ← o.and b0 b1
  let sm ← o.buffer g.slicesMax 0
  o.and b sm

/-- A dictionary comprehension with failing values. -/
def dictOf {κ α β : Type} (key : α → κ) (f : α → Except PyErr β) : List α → Except PyErr (PMap κ β)
  | [] => .ok []
  | x :: rest => do
    let v ← f x
    let tail ← dictOf key f rest
    .ok ((key x, v) :: tail)

/-- `interside_ok` before it is restricted to both sides (sheetbuild.py:255-261). -/
def freshInterOk {G : Type} (o : G2Ops G) (geoms : Name → SheetGeoms G) (sheetOk : PMap Name G) (s : InterSide) :
    Except PyErr Geom1D := do
  let ok ← sheetOk.get s.sheet
  let r ← o.and ok (geoms s.sheet).slicesMax
  let w ← Geom1D.construct [(.fraction (-1000), .fraction 1000)]
  let f ← o.fingers s w
  let g ← o.and r f
  o.project s g

/-- `interside_ok[id] &= interside_ok[opposite id]` (sheetbuild.py:263-264). -/
def restrictInter (sp : SheetPlex) (m : PMap (Name × Name) Geom1D) : List InterSide →
    Except PyErr (PMap (Name × Name) Geom1D)
  | [] => .ok m
  | s :: rest => do
    let a ← m.get s.id
    let t ← s.opposite sp
    let b ← m.get t.id
    let r ← a.and b
    restrictInter sp (m.set s.id r) rest

/-- `sheet_chosen[interside.sheet] -= interside.make_fingers(v)` (sheetbuild.py:266-268). -/
def removeFingers {G : Type} (o : G2Ops G) (sp : SheetPlex) (chosen : PMap Name G) :
    PMap (Name × Name) Geom1D → Except PyErr (PMap Name G)
  | [] => .ok chosen
  | (k, v) :: rest => do
    let s ← sp.interside k
    let c ← chosen.get s.sheet
    let f ← o.fingers s v
    let r ← o.sub c f
    removeFingers o sp (chosen.set s.sheet r) rest

/-- `create_sheetbuild` (sheetbuild.py:235-279); the dictionaries are made in the order of the lists. -/
def createSheetbuild {G : Type} (o : G2Ops G) (sp : SheetPlex) (geoms : Name → SheetGeoms G) (rad : ℚ) :
    Except PyErr (SheetBuild G) := do
  let sheetChosen ← dictOf (fun e : Name × Sheet => e.2.id) (fun e => freshChosen o (geoms e.2.id)) sp.sheets
  let sheetOk ← dictOf (fun e : Name × Sheet => e.2.id) (fun e => freshOk o rad (geoms e.2.id)) sp.sheets
  let inters := intersides (sp.intersections.map Prod.snd) none
  let interChosen ← dictOf InterSide.id (fun _ => Geom1D.empty) inters
  let interOk0 ← dictOf InterSide.id (freshInterOk o geoms sheetOk) inters
  let interOk ← restrictInter sp interOk0 inters
  let sheetChosen' ← removeFingers o sp sheetChosen interOk
  .ok { sheetplex := sp
        sheetChosen := sheetChosen'
        sheetOk := sheetOk
        interChosen := interChosen
        interOk := interOk }

end Ply
