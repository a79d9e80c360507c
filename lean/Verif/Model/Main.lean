import Verif.Model.Canned
import Verif.Model.FacetPlanes

/-!
# `main` of /repo/plycutter/command_line.py from the facets of the mesh to the drawing

The geoms of the sheets and the numbers of the joints are inputs, see `Model/Shapes.lean` and `Model/Space.lean`.
-/

namespace Ply

/-- `set(only)` (create_sheetplex.py:79-80) where `only` is the text given to `--only_sheets` (command_line.py:66-67): the set of
its characters. -/
def onlySet (text : List Char) : List Name := text.map fun c => [c]

/-- `main` (command_line.py:40-105) after the mesh is loaded.  `perm` is the order in which the persistent map enumerates the
sheets. -/
def mainFrom (o : SheetOracle) (order : List ℕ) (n : ℕ) (only : Option (List Char)) (perm : List Sheet → List Sheet)
    (geo : Sheet → Sheet → Option JointNums) (p : Canned.Params Geom2D) (buffer : Geom2D → ℚ → Except PyErr Geom2D) (dil : ℚ) :
    Except PyErr (List Writer.Polyline) := do
  let sheets ← createSheets o order n (only.map onlySet)
  commandLine p (createSheetplex geo (perm (sheets.map fun s => ⟨s.1⟩))) buffer dil

end Ply
