import Verif.Model.Heuristics
import Verif.Model.AABB

/-!
# Model of /repo/plycutter/canned.py, /repo/plycutter/writer.py and the end of /repo/plycutter/command_line.py

Logging, the `dbg` field, parsing of arguments, the mesh and the file itself are left out.
-/

namespace Ply

/-! ### canned.py -/

namespace Canned

variable {G : Type}

/-- The namespace returned by `canned_1` (canned.py:85-91). -/
structure Result (G : Type) where
  ok : Bool
  sheetbuild : SheetBuild G
  history : List (SheetBuild G)
  sheetCuts : PMap Name G

/-- The state of `canned_1` when its `try` block ends: the variable `sb`, the log, the exception. -/
structure State (G : Type) where
  sb : Option (SheetBuild G)
  log : List (SheetBuild G)
  err : Option PyErr

/-- `if show: do_show(op)` (canned.py:72-73): `do_show` has two parameters. -/
def showOp (display : Option (Except PyErr Unit)) : Except PyErr Unit :=
  match display with
  | none => .ok ()
  | some _ => .error .typeError

/-- The loop over the steps and the rest of the `try` block (canned.py:52-78). -/
def loop (display : Option (Except PyErr Unit)) (finalCheck : SheetBuild G → Except PyErr Unit) :
    List (SheetBuild G → Except PyErr (SheetBuild G)) → SheetBuild G → List (SheetBuild G) → State G
  | [], sb, log =>
    match finalCheck sb with
    | .error e => ⟨some sb, log ++ [sb], some e⟩
    | .ok _ => ⟨some sb, log ++ [sb], none⟩
  | op :: rest, sb, log =>
    match op sb with
    | .error e => ⟨some sb, log ++ [sb], some e⟩
    | .ok sb' =>
      match showOp display with
      | .error e => ⟨some sb', log ++ [sb], some e⟩
      | .ok _ => loop display finalCheck rest sb' (log ++ [sb])

/-- `do_show('Creation', sb)` (canned.py:48-49); what displaying does is given by `display`. -/
def showCreation (display : Option (Except PyErr Unit)) : Except PyErr Unit :=
  match display with
  | none => .ok ()
  | some r => r

/-- The `try` block (canned.py:38-78). -/
def attempt (create : Except PyErr (SheetBuild G)) (display : Option (Except PyErr Unit))
    (firstCheck finalCheck : SheetBuild G → Except PyErr Unit)
    (steps : List (SheetBuild G → Except PyErr (SheetBuild G))) : State G :=
  match create with
  | .error e => ⟨none, [], some e⟩
  | .ok sb =>
    match firstCheck sb with
    | .error e => ⟨some sb, [sb], some e⟩
    | .ok _ =>
      match showCreation display with
      | .error e => ⟨some sb, [sb], some e⟩
      | .ok _ => loop display finalCheck steps sb [sb]

/-- The return statement (canned.py:85-91). -/
def finish (ok : Bool) (st : State G) : Except PyErr (Result G) :=
  match st.sb with
  | none => .error .unboundLocal
  | some sb => .ok ⟨ok, sb, st.log, sb.sheetChosen⟩

/-- `canned_1` (canned.py:34-91).  `rof` is `params.get('return_on_failure')` as a truth value. -/
def canned1 (create : Except PyErr (SheetBuild G)) (display : Option (Except PyErr Unit))
    (firstCheck finalCheck : SheetBuild G → Except PyErr Unit)
    (steps : List (SheetBuild G → Except PyErr (SheetBuild G))) (rof : Option Bool) : Except PyErr (Result G) :=
  match (attempt create display firstCheck finalCheck steps).err with
  | none => finish true (attempt create display firstCheck finalCheck steps)
  | some e =>
    match rof with
    | none => .error .keyError
    | some false => .error e
    | some true => finish false (attempt create display firstCheck finalCheck steps)

/-- What the steps need to know. -/
structure Params (G : Type) where
  o : G2Ops G
  geoms : Name → SheetGeoms G
  supportRadius : ℚ
  minW : ℚ
  maxW : ℚ
  /-- Outcome of the random draws. -/
  draws : Name → Ivl → Draws
  /-- Iteration order of sets. -/
  order : List Name → List Name
  /-- Which checks of which step are elided. -/
  el : ℕ → ℕ → Bool

open Heu in
/-- The list of steps (canned.py:52-66). -/
def steps (p : Params G) : List (SheetBuild G → Except PyErr (SheetBuild G)) :=
  [chooseIrrelevant p.o p.geoms (p.el 1), removeLoose p.o p.geoms (p.el 2), updateInterOk p.o (p.el 3),
    updateSheetOk p.o (p.el 4), updateInterOk p.o (p.el 5), removeLoose p.o p.geoms (p.el 6),
    updateInterOk p.o (p.el 7), multiInter p.o (p.el 8) p.order, updateInterOk p.o (p.el 9),
    chooseOkSide p.o (p.el 10), singleFingers p.o (p.el 11) p.draws p.minW p.maxW, cleanUp p.o]

/-- `canned_1` with its steps. -/
def run (p : Params G) (sp : SheetPlex) (display : Option (Except PyErr Unit)) (rof : Option Bool) :
    Except PyErr (Result G) :=
  canned1 (createSheetbuild p.o sp p.geoms p.supportRadius) display (Heu.checkAt p.o (p.el 0) 0) (SheetBuild.check p.o)
    (steps p) rof

end Canned

/-! ### writer.py -/

namespace Writer

/-- The points of a polyline; a coordinate may be NaN. -/
abbrev Polyline := List (NQ × NQ)

/-- `draw_coords` (writer.py:47-51).  Adding the offsets to an empty array fails. -/
def drawCoords (dx dy : NQ) : List Pt → Except PyErr Polyline
  | [] => .error .valueError
  | p :: rest => .ok (((p :: rest) ++ [p]).map fun q => (NQ.map2 (· + ·) (some q.1) dx, NQ.map2 (· + ·) (some q.2) dy))

/-- Several calls of `draw_coords`. -/
def drawAll (dx dy : NQ) : List (List Pt) → Except PyErr (List Polyline)
  | [] => .ok []
  | l :: rest => do
    let a ← drawCoords dx dy l
    let tail ← drawAll dx dy rest
    .ok (a :: tail)

/-- The loops drawn for a geom in order (writer.py:53-56). -/
def loopsOf (g : Geom2D) : List (List Pt) := List.flatMap (fun s : SPWH => s.outer :: s.holes) g

/-- The box of the outer points (writer.py:35-40). -/
def boxOfGeom (g : Geom2D) : AABB :=
  (List.flatMap SPWH.outer g).foldl AABB.includePoint (AABB.make none none)

/-- The loop of `write_dxf` (writer.py:31-56); the result is what is added to the drawing. -/
def place : NQ → List (Name × Geom2D) → Except PyErr (List Polyline)
  | _, [] => .ok []
  | x, e :: rest => do
    let b := boxOfGeom e.2
    let dx := NQ.map2 (· + ·) (NQ.map2 (· - ·) x b.lower.1) (some 3)
    let dy := NQ.map2 (· - ·) (some 0) b.lower.2
    let x' := NQ.map2 (· + ·) x (NQ.map2 (· + ·) (NQ.map2 (· - ·) b.upper.1 b.lower.1) (some 3))
    let here ← drawAll dx dy (loopsOf e.2)
    let tail ← place x' rest
    .ok (here ++ tail)

/-- `write_dxf` (writer.py:26-58). -/
def writeDxf (geoms : List (Name × Geom2D)) : Except PyErr (List Polyline) := place (some 0) geoms

end Writer

/-! ### command_line.py -/

/-- The dictionary comprehension of `main` (command_line.py:97-100). -/
def dilateAll (buffer : Geom2D → ℚ → Except PyErr Geom2D) (dil : ℚ) :
    List (Name × Geom2D) → Except PyErr (List (Name × Geom2D))
  | [] => .ok []
  | e :: rest => do
    let b ← buffer e.2 dil
    let tail ← dilateAll buffer dil rest
    .ok ((e.1, b) :: tail)

/-- `main` from the sheetplex on (command_line.py:87-103).  The parameters come from the argument parser,
which has no `return_on_failure`. -/
def commandLine (p : Canned.Params Geom2D) (sp : SheetPlex) (buffer : Geom2D → ℚ → Except PyErr Geom2D) (dil : ℚ) :
    Except PyErr (List Writer.Polyline) := do
  if sp.sheets.length = 0 then .error .exception
  else do
    let r ← Canned.run p sp none none
    let d ← dilateAll buffer dil r.sheetCuts
    Writer.writeDxf d

end Ply
