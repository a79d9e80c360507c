import Verif.Model.SheetBuild
import Verif.Model.Fingers

/-!
# Model of /repo/plycutter/heuristics.py

Logging is left out.  `sb.check()` really checks only when a global counter has run full; `el` says for
every call (numbered within the step) whether it is elided.  Dictionaries and persistent maps are walked
in the order of the list; the order of the set `sheet_ids` is a parameter.
-/

namespace Ply

namespace Heu

open SheetBuild

variable {G : Type} (o : G2Ops G) (geoms : Name → SheetGeoms G) (el : ℕ → Bool)

/-- `sb.check()` without `force` (sheetbuild.py:144-153). -/
def checkAt (t : ℕ) (sb : SheetBuild G) : Except PyErr Unit := if el t then .ok () else check o sb

/-- `sp.intersides()`. -/
def allSides (sp : SheetPlex) : List InterSide := intersides (sp.intersections.map Prod.snd) none

/-- `sp.intersides(sheet_id)`. -/
def sidesOf (sp : SheetPlex) (sheet : Name) : List InterSide :=
  intersides (sp.intersections.map Prod.snd) (some sheet)

/-- A loop changing the build. -/
def fold {α : Type} (f : SheetBuild G → α → Except PyErr (SheetBuild G)) :
    SheetBuild G → List α → Except PyErr (SheetBuild G)
  | sb, [] => .ok sb
  | sb, x :: rest => do
    let sb' ← f sb x
    fold f sb' rest

/-- The value of `unchoices[interside.id]` (heuristics.py:49-59). -/
def irrelevantAt (sb : SheetBuild G) (s : InterSide) : Except PyErr Geom1D := do
  let ok ← sb.interOk.get s.id
  let wide ← ok.buffer (.mpq (1 / 100))
  let fing ← o.fingers s wide
  let b1 ← o.buffer fing (1 / 100)
  let out1 ← o.and (geoms s.sheet).slicesMax b1
  let b2 ← o.buffer fing (1 / 1000)
  let out2 ← o.sub out1 b2
  let p ← o.project s out2
  let less ← p.invert
  let opp ← s.opposite sb.sheetplex
  let okOpp ← sb.interOk.get opp.id
  let r ← less.and ok
  r.and okOpp

/-- `choose_obviously_irrelevant` (heuristics.py:41-63). -/
def chooseIrrelevant (sb : SheetBuild G) : Except PyErr (SheetBuild G) := do
  checkAt o el 0 sb
  let unchoices ← dictOf InterSide.id (irrelevantAt o geoms sb) (allSides sb.sheetplex)
  unchooseIntersides sb unchoices

/-- The float `0.01`. -/
def tol2 : ℚ := 5764607523034235 / 576460752303423488

/-- The loop over the polygons in `remove_loose` (heuristics.py:75-81). -/
def looseLoop (support chosen : G) : List G → G → Except PyErr G
  | [], impossible => .ok impossible
  | p :: rest, impossible => do
    let m ← o.and p support
    if o.isEmpty m then do
      let c ← o.and chosen p
      let a ← o.area c
      assert (decide (a < tol2))
      let imp ← o.or impossible p
      looseLoop support chosen rest imp
    else looseLoop support chosen rest impossible

/-- One sheet of `remove_loose` (heuristics.py:72-83). -/
def looseSheet (sb : SheetBuild G) (e : Name × Sheet) : Except PyErr (SheetBuild G) := do
  let support ← o.and (geoms e.2.id).face0 (geoms e.2.id).face1
  let ch ← sb.sheetChosen.get e.2.id
  let ok ← sb.sheetOk.get e.2.id
  let possible ← o.or ch ok
  let impossible ← looseLoop o support ch (o.polygons possible) o.empty
  let ok' ← mapOpGeom o.sub sb.sheetOk e.2.id impossible
  .ok { sb with sheetOk := ok' }

/-- `remove_loose` (heuristics.py:66-84). -/
def removeLoose (sb : SheetBuild G) : Except PyErr (SheetBuild G) := do
  checkAt o el 0 sb
  fold (looseSheet o geoms) sb sb.sheetplex.sheets

/-- One side of `update_intersection_ok` (heuristics.py:92-99). -/
def interOkAt (sb : SheetBuild G) (s : InterSide) : Except PyErr (SheetBuild G) := do
  let ok ← sb.interOk.get s.id
  let wide ← ok.buffer (.mpq (1 / 10))
  let fing ← o.fingers s wide
  let sok ← sb.sheetOk.get s.sheet
  let maxFing ← o.and fing sok
  let p1 ← o.project s fing
  let p2 ← o.project s maxFing
  let unsupported ← p1.sub p2
  let b ← unsupported.buffer (.mpq (1 / 1000))
  let ok' ← mapOpGeom Geom1D.sub sb.interOk s.id b
  .ok { sb with interOk := ok' }

/-- `update_intersection_ok` (heuristics.py:87-100). -/
def updateInterOk (sb : SheetBuild G) : Except PyErr (SheetBuild G) := do
  checkAt o el 0 sb
  fold (interOkAt o) sb (allSides sb.sheetplex)

/-- The loop over the sides of a sheet in `update_sheet_ok` (heuristics.py:112-119), returning the area on
joints and the allowed area on joints. -/
def onSides (sb : SheetBuild G) : List InterSide → G → G → Except PyErr (G × G)
  | [], on, okOn => .ok (on, okOn)
  | s :: rest, on, okOn => do
    let opp ← s.opposite sb.sheetplex
    let ok ← sb.interOk.get s.id
    let f ← o.fingers s ok
    let okOn' ← o.or okOn f
    let okOpp ← sb.interOk.get opp.id
    let u ← ok.or okOpp
    let g ← o.fingers s u
    let on' ← o.or on g
    onSides sb rest on' okOn'

/-- One sheet of `update_sheet_ok` (heuristics.py:110-124). -/
def sheetOkAt (sb : SheetBuild G) (e : Name × Sheet) : Except PyErr (SheetBuild G) := do
  let (on, okOn) ← onSides o sb (sidesOf sb.sheetplex e.2.id) o.empty o.empty
  let d ← o.sub on okOn
  let b ← o.buffer d (2 / 1000)
  let ch ← sb.sheetChosen.get e.2.id
  let r ← o.sub b ch
  unchooseSheetArea o sb e.2.id r

/-- `update_sheet_ok` (heuristics.py:103-125). -/
def updateSheetOk (sb : SheetBuild G) : Except PyErr (SheetBuild G) := do
  checkAt o el 0 sb
  fold (sheetOkAt o) sb sb.sheetplex.sheets

/-! ### Interactions -/

/-- `_Interaction` (heuristics.py:128-132). -/
structure Interaction where
  interside : Name × Name
  range : Geom1D
  other : Name × Name
  otherRange : Geom1D

/-- `_Interactions.by_intersection` (heuristics.py:135-137). -/
abbrev Interactions := PMap Name (List Interaction)

/-- `interactions[key].append(x)` with the default dictionary. -/
def appendTo (m : Interactions) (key : Name) (x : Interaction) : Interactions :=
  m.set key ((m.get? key).getD [] ++ [x])

/-- The inner loop of `_find_interactions` (heuristics.py:161-183). -/
def findInner (sb : SheetBuild G) (i : InterSide) (iFingers : G) :
    List InterSide → Interactions → Except PyErr Interactions
  | [], m => .ok m
  | j :: rest, m => do
    let jOk ← sb.interOk.get j.id
    let jFingers ← o.fingers j jOk
    let double ← o.and iFingers jFingers
    if o.isEmpty double then findInner sb i iFingers rest m
    else do
      let iD ← o.project i double
      let jD ← o.project j double
      let m1 := appendTo m i.intersection ⟨i.id, iD, j.id, jD⟩
      let m2 := appendTo m1 j.intersection ⟨j.id, jD, i.id, iD⟩
      findInner sb i iFingers rest m2

/-- The loop over the sides of one sheet in `_find_interactions` (heuristics.py:157-183). -/
def findSheet (sb : SheetBuild G) : List InterSide → Interactions → Except PyErr Interactions
  | [], m => .ok m
  | i :: rest, m => do
    let iOk ← sb.interOk.get i.id
    let iFingers ← o.fingers i iOk
    let m' ← findInner o sb i iFingers rest m
    findSheet sb rest m'

/-- The loop over the sheets in `_find_interactions` (heuristics.py:155-183). -/
def findSheets (sb : SheetBuild G) : List (Name × Sheet) → Interactions → Except PyErr Interactions
  | [], m => .ok m
  | e :: rest, m => do
    let m' ← findSheet o sb (sidesOf sb.sheetplex e.2.id) m
    findSheets sb rest m'

/-- `_find_interactions` (heuristics.py:140-188). -/
def findInteractions (sb : SheetBuild G) : Except PyErr Interactions :=
  findSheets o sb sb.sheetplex.sheets []

/-! ### Clusters -/

/-- The ranges of a cluster on the intersections. -/
abbrev Cluster := PMap Name Geom1D

/-- `cmap` (heuristics.py:202-207); of two equal keys the later wins. -/
def interactionMap (sp : SheetPlex) (x : Interaction) : Except PyErr Cluster := do
  let a ← sp.interside x.interside
  let b ← sp.interside x.other
  .ok (PMap.set [(a.intersection, x.range)] b.intersection x.otherRange)

/-- `belongs_to` (heuristics.py:210-213).  The names `'c%d'` of the clusters are their numbers. -/
def belongsTo (cmap : Cluster) : PMap ℕ Cluster → Except PyErr (List ℕ)
  | [] => .ok []
  | (k, v) :: rest => do
    let both ← mapAnd Geom1D.and Geom1D.isEmpty cmap v
    let tail ← belongsTo cmap rest
    .ok (if both.length > 0 then k :: tail else tail)

/-- The merging loop (heuristics.py:222-226). -/
def mergeInto (b : ℕ) : List ℕ → PMap ℕ Cluster → Except PyErr (PMap ℕ Cluster)
  | [], m => .ok m
  | k :: rest, m => do
    let vb ← m.get b
    let vk ← m.get k
    let r ← mapOr Geom1D.or Geom1D.empty vb vk
    mergeInto b rest ((m.set b r).del k)

/-- One interaction (heuristics.py:209-232); the state is the clusters and `n`. -/
def addInteraction (cmap : Cluster) (m : PMap ℕ Cluster) (n : ℕ) : Except PyErr (PMap ℕ Cluster × ℕ) := do
  let belongs ← belongsTo cmap m
  match belongs with
  | [] => .ok (m.set n cmap, n + 1)
  | b :: rest => do
    let vb ← m.get b
    let r ← mapOr Geom1D.or Geom1D.empty vb cmap
    let m' ← mergeInto b rest (m.set b r)
    .ok (m', n)

/-- The loops of `_find_interaction_clusters` (heuristics.py:198-233). -/
def clusterLoop (sp : SheetPlex) : List Interaction → PMap ℕ Cluster → ℕ →
    Except PyErr (PMap ℕ Cluster × ℕ)
  | [], m, n => .ok (m, n)
  | x :: rest, m, n => do
    let cmap ← interactionMap sp x
    let (m', n') ← addInteraction cmap m n
    clusterLoop sp rest m' n'

/-- `_find_interaction_clusters` (heuristics.py:191-235). -/
def findClusters (sp : SheetPlex) (xs : Interactions) : Except PyErr (PMap ℕ Cluster) := do
  let (m, _) ← clusterLoop sp (xs.flatMap Prod.snd) [] 0
  .ok m

/-! ### Deciding the clusters -/

/-- `[sp.intersections[id] for id in cluster.keys()]` and all their sides (heuristics.py:260-269). -/
def clusterSides (sp : SheetPlex) : List Name → Except PyErr (List InterSide)
  | [] => .ok []
  | k :: rest => do
    let i ← sp.intersections.get k
    let tail ← clusterSides sp rest
    .ok (i.sides ++ tail)

/-- The fingers of one sheet (heuristics.py:280-284). -/
def clusterFingers (sb : SheetBuild G) (cluster : Cluster) : List InterSide → G → Except PyErr G
  | [], g => .ok g
  | s :: rest, g => do
    let c ← cluster.get s.intersection
    let ok ← sb.interOk.get s.id
    let v ← c.and ok
    let f ← o.fingers s v
    let g' ← o.or g f
    clusterFingers sb cluster rest g'

/-- `areas` and `needs_extra` for one sheet (heuristics.py:279-292). -/
def sheetDemand (sb : SheetBuild G) (cluster : Cluster) (sides : List InterSide) (id : Name) :
    Except PyErr (ℚ × Bool) := do
  let sheet ← sb.sheetplex.sheets.get id
  let fingers ← clusterFingers o sb cluster (sides.filter fun s => s.sheet = sheet.id) o.empty
  let a ← o.area fingers
  let b ← o.buffer fingers (2 / 10)
  let ch ← sb.sheetChosen.get sheet.id
  let c ← o.and b ch
  let a2 ← o.area c
  .ok (a, decide (a2 ≤ 3 * (2 / 10)))

/-- The loop over the sheets (heuristics.py:279-292): sheet, area, needs extra. -/
def demands (sb : SheetBuild G) (cluster : Cluster) (sides : List InterSide) :
    List Name → Except PyErr (List (Name × ℚ × Bool))
  | [] => .ok []
  | id :: rest => do
    let d ← sheetDemand o sb cluster sides id
    let tail ← demands sb cluster sides rest
    .ok ((id, d) :: tail)

/-- `np.argmax(areas)`, giving the whole entry; the first of several maxima; fails for no areas. -/
def bestOf : List (Name × ℚ × Bool) → Except PyErr (Name × ℚ × Bool)
  | [] => .error .valueError
  | x :: rest =>
    match bestOf rest with
    | .error _ => .ok x
    | .ok y => .ok (if x.2.1 < y.2.1 then y else x)

/-- The length of an interval; NaN cannot occur for a non-empty interval. -/
def ivlLen (i : Ivl) : Ext := (Geom1D.pySub i.2 i.1).getD ⊤

/-- Whether `a` comes after `b` in the order by length and then start (heuristics.py:317-318). -/
def ivlAfter (a b : Ivl) : Bool := decide (ivlLen b < ivlLen a) || (decide (ivlLen a = ivlLen b) && decide (b.1 < a.1))

/-- The last of the sorted intervals (heuristics.py:317-324). -/
def lastIvl : List Ivl → Option Ivl
  | [] => none
  | i :: rest =>
    match lastIvl rest with
    | none => some i
    | some j => some (if ivlAfter i j then i else j)

/-- The search for room for an extra connection (heuristics.py:304-335). -/
def findExtra (sb : SheetBuild G) (cluster : Cluster) : List InterSide → Except PyErr Cluster
  | [] => .error .exception
  | s :: rest => do
    let inter ← sb.sheetplex.intersections.get s.intersection
    let dflt ← cluster.get inter.id
    let b ← dflt.buffer (.mpq (3 + 2 / 10))
    let ok ← sb.interOk.get s.id
    let m1 ← b.and ok
    let m2 ← m1.sub dflt
    match lastIvl m2.intervals with
    | none => findExtra sb cluster rest
    | some i =>
      if ivlLen i < Ext.fin (3 / 2) then findExtra sb cluster rest
      else do
        let g ← Geom1D.ofIvls [i]
        mapOpGeom Geom1D.or cluster s.intersection g

/-- One choice on the chosen sheet (heuristics.py:349-354). -/
def chooseCluster (cluster : Cluster) (sb : SheetBuild G) (s : InterSide) : Except PyErr (SheetBuild G) := do
  let c ← cluster.get s.intersection
  let ok ← sb.interOk.get s.id
  let v ← c.and ok
  chooseInterside o sb s.id v false

/-- Unchoosing one intersection on the other sheets (heuristics.py:359-363). -/
def unchooseCluster (choice : Name) (sb : SheetBuild G) (e : Name × Geom1D) : Except PyErr (SheetBuild G) := do
  let i ← sb.sheetplex.intersections.get e.1
  fold (fun sb s => if s.sheet ≠ choice then unchooseInterside sb s.id e.2 else .ok sb) sb i.sides

/-- One cluster (heuristics.py:258-367); `order` is the order of a set given as the list of its members
in order of insertion. -/
def decideCluster (order : List Name → List Name) (sb : SheetBuild G) (e : ℕ × Cluster) :
    Except PyErr (SheetBuild G) := do
  let sides ← clusterSides sb.sheetplex (e.2.map Prod.fst)
  let ds ← demands o sb e.2 sides (order (sides.map InterSide.sheet).dedup)
  let best ← bestOf ds
  let mine := sides.filter fun s => s.sheet = best.1
  let cluster ← (if best.2.2 then findExtra sb e.2 mine else .ok e.2 : Except PyErr Cluster)
  checkAt o el (2 * e.1) sb
  let sb1 ← fold (chooseCluster o cluster) sb mine
  let sb2 ← fold (unchooseCluster best.1) sb1 cluster
  checkAt o el (2 * e.1 + 1) sb2
  .ok sb2

/-- The union of all clusters, computed but not used (heuristics.py:253-255). -/
def reserved : List Cluster → Cluster → Except PyErr Cluster
  | [], m => .ok m
  | c :: rest, m => do
    let m' ← mapOr Geom1D.or Geom1D.empty m c
    reserved rest m'

/-- `heuristic_multi_inter_single_decisions` (heuristics.py:241-369). -/
def multiInter (order : List Name → List Name) (sb : SheetBuild G) : Except PyErr (SheetBuild G) := do
  let xs ← findInteractions o sb
  let clusters ← findClusters sb.sheetplex xs
  let _ ← reserved (clusters.map Prod.snd) []
  fold (decideCluster o el order) sb clusters

/-! ### The remaining steps -/

/-- One side of `choose_the_ok_side` (heuristics.py:384-398). -/
def okSideAt (t : ℕ) (sb : SheetBuild G) (s : InterSide) : Except PyErr (SheetBuild G) := do
  let ok ← sb.interOk.get s.id
  let ch ← sb.interChosen.get s.id
  let a ← ok.sub ch
  let opp ← s.opposite sb.sheetplex
  let oppOk ← sb.interOk.get opp.id
  let b ← a.sub oppOk
  let oppCh ← sb.interChosen.get opp.id
  let orig ← b.sub oppCh
  let e ← orig.buffer (.mpq (-(1 / 100)))
  let thisOnly ← e.buffer (.mpq (1 / 100))
  let small ← orig.sub thisOnly
  let sb1 ← chooseInterside o sb s.id thisOnly false
  let sb2 ← unchooseInterside sb1 s.id small
  checkAt o el t sb2
  .ok sb2

/-- The loops of `choose_the_ok_side` (heuristics.py:382-398). -/
def okSides (sb : SheetBuild G) : List InterSide → ℕ → Except PyErr (SheetBuild G)
  | [], _ => .ok sb
  | s :: rest, t => do
    let sb' ← okSideAt o el t sb s
    okSides sb' rest (t + 1)

/-- `choose_the_ok_side` (heuristics.py:374-400). -/
def chooseOkSide (sb : SheetBuild G) : Except PyErr (SheetBuild G) := do
  checkAt o el 0 sb
  okSides o el sb (allSides sb.sheetplex) 1

/-- The float `1e-8`. -/
def tol8 : ℚ := 3022314549036573 / 302231454903657293676544

/-- The choices made for one stretch (heuristics.py:488, 512-513). -/
def chooseFingers (s0 s1 : InterSide) (sb : SheetBuild G) (c : ℕ × Geom1D) : Except PyErr (SheetBuild G) :=
  chooseInterside o sb (if c.1 = 0 then s0.id else s1.id) c.2 false

/-- One stretch of `single_fingers_random` (heuristics.py:456-513).  Simplified: an infinite end point,
which does not occur for joints of bounded sheets, ends in an error. -/
def fingersAt (draws : Ivl → Draws) (minW maxW : ℚ) (s0 s1 : InterSide) (sb : SheetBuild G) (i : Ivl) :
    Except PyErr (SheetBuild G) := do
  let start ← asFraction i.1
  let stop ← asFraction i.2
  let ch0 ← sb.interChosen.get s0.id
  let ch1 ← sb.interChosen.get s1.id
  let cs ← stretchFingers (draws i) minW maxW ch0 ch1 start stop
  fold (chooseFingers o s0 s1) sb cs

/-- One joint of `single_fingers_random` (heuristics.py:446-513). -/
def fingersJoint (draws : Name → Ivl → Draws) (minW maxW : ℚ) (sb : SheetBuild G) (e : Name × Intersection) :
    Except PyErr (SheetBuild G) :=
  match e.2.sides with
  | [s0, s1] => do
    let ok0 ← sb.interOk.get s0.id
    let ok1 ← sb.interOk.get s1.id
    let ch0 ← sb.interChosen.get s0.id
    let ch1 ← sb.interChosen.get s1.id
    let a0 ← ok0.sub ch0
    let a1 ← ok1.sub ch1
    let x ← a0.xor a1
    assert (measureLt x.measure1d tol8)
    fold (fingersAt o (draws e.1) minW maxW s0 s1) sb a0.intervals
  | _ => .error .assertion

/-- `single_fingers_random` (heuristics.py:436-516); the random generator is replaced by the decisions
`draws` for every joint and stretch. -/
def singleFingers (draws : Name → Ivl → Draws) (minW maxW : ℚ) (sb : SheetBuild G) :
    Except PyErr (SheetBuild G) := do
  checkAt o el 0 sb
  fold (fingersJoint o draws minW maxW) sb sb.sheetplex.intersections

/-- The loop of `clean_up_thin_ok_parts` (heuristics.py:524-532). -/
def cleanLoop (sb : SheetBuild G) : List (Name × Sheet) → PMap Name G → Except PyErr (PMap Name G)
  | [], m => .ok m
  | e :: rest, m => do
    let ch ← sb.sheetChosen.get e.2.id
    let ok ← sb.sheetOk.get e.2.id
    let b1 ← o.buffer ok (-(1 / 2))
    let b2 ← o.buffer b1 (1 / 2)
    let r ← o.or b2 ch
    cleanLoop sb rest (m.set e.2.id r)

/-- `clean_up_thin_ok_parts` (heuristics.py:519-533). -/
def cleanUp (sb : SheetBuild G) : Except PyErr (SheetBuild G) := do
  let m ← cleanLoop o sb sb.sheetplex.sheets sb.sheetOk
  .ok { sb with sheetOk := m }

/-- `select_all` (heuristics.py:536-538) stops at its first line. -/
def selectAll (_ : SheetBuild G) : Except PyErr (SheetBuild G) := .error .assertion

end Heu

end Ply
