import Verif.Props.Extent
import Verif.Props.RunExample
import Verif.Props.BuildTotal
import Verif.Props.Mono

/-! # A whole run with the real 2D operations

Two plates of 10 by 8 meet along a joint.  The operations that occur are listed with their results, each of
which is checked by running the model; a run with the list alone then gives the run with the real operations. -/

set_option Elab.async false

namespace Ply.FullRun

open Geom1D

def g1 : Geom2D := [⟨[(-29/41, 357/41), (0, 9), (10, 9), (439/41, 357/41), (11, 8), (11, 0), (439/41, -29/41),
  (10, -1), (0, -1), (-29/41, -29/41), (-1, 0), (-1, 8)], []⟩]
def g2 : Geom2D := [⟨[(1000, 3), (1000, 0), (-1000, 0), (-1000, 3)], []⟩]
def g3 : Geom2D := [⟨[(0, 0), (0, 3), (10, 3), (10, 0)], []⟩]
def g4 : Geom2D := [⟨[(4107/410, -29/4100), (1001/100, -1/100), (-1/100, -1/100), (-7/410, -29/4100), (-1/50,
  0), (-1/50, 3), (-7/410, 12329/4100), (-1/100, 301/100), (1001/100, 301/100), (4107/410, 12329/4100),
  (501/50, 3), (501/50, 0)], []⟩]
def g5 : Geom2D := [⟨[(0, 0), (0, 301/100), (10, 301/100), (10, 0)], []⟩]
def g6 : Geom2D := [⟨[(10, 3), (10, 0), (0, 0), (0, 3)], []⟩]
def g7 : Geom2D := [⟨[(9999/1000, 3), (9999/1000, 0), (1/1000, 0), (1/1000, 3)], []⟩]
def g8 : Geom2D := [⟨[(1/1000, 3), (0, 3), (0, 8), (10, 8), (10, 3), (9999/1000, 3), (9999/1000, 0), (1/1000,
  0)], []⟩]
def g9 : Geom2D := [⟨[(10, 8), (10, 3), (10, 0), (0, 0), (0, 3), (0, 8)], []⟩]
def g10 : Geom2D := [⟨[(10099/1000, 3), (10099/1000, 0), (-99/1000, 0), (-99/1000, 3)], []⟩]
def g11 : Geom2D := [⟨[(10, 0), (0, 0), (0, 3), (10, 3)], []⟩]
def g12 : Geom2D := [⟨[(101/10, 3), (101/10, 0), (-1/10, 0), (-1/10, 3)], []⟩]
def g13 : Geom2D := [⟨[(404/41, 322/41), (10, 15/2), (10, 1/2), (404/41, 6/41), (19/2, 0), (1/2, 0), (6/41,
  6/41), (0, 1/2), (0, 15/2), (6/41, 322/41), (1/2, 8), (19/2, 8)], []⟩]
def g14 : Geom2D := [⟨[(1/2, 0), (1/1000, 0), (1/1000, 5971/12000), (0, 1/2), (0, 3), (0, 15/2), (0, 8), (1/2,
  8), (19/2, 8), (10, 8), (10, 15/2), (10, 3), (10, 1/2), (9999/1000, 5971/12000), (9999/1000, 0), (19/2, 0)],
  []⟩]
def g15 : Geom2D := [⟨[(404/41, 322/41), (10, 15/2), (10, 7/2), (404/41, 129/41), (19/2, 3), (1/2, 3), (6/41,
  129/41), (0, 7/2), (0, 15/2), (6/41, 322/41), (1/2, 8), (19/2, 8)], []⟩]
def g16 : Geom2D := [⟨[(0, 7/2), (0, 15/2), (0, 8), (1/2, 8), (19/2, 8), (10, 8), (10, 15/2), (10, 7/2), (10,
  3), (19/2, 3), (1/2, 3), (0, 3)], []⟩]
def g17 : Geom2D := [⟨[(410439/41000, -29/41000), (1001/100, -1/1000), (-1/100, -1/1000), (-439/41000,
  -29/41000), (-11/1000, 0), (-11/1000, 3), (-439/41000, 123029/41000), (-1/100, 3001/1000), (1001/100,
  3001/1000), (410439/41000, 123029/41000), (10011/1000, 3), (10011/1000, 0)], []⟩]
def g18 : Geom2D := [⟨[(0, 3001/1000), (0, 301/100), (10, 301/100), (10, 3001/1000)], []⟩]
def g19 : Geom2D := [⟨[(0, 0), (0, 8), (10, 8), (10, 0), (9999/1000, 0), (9999/1000, 3), (1/1000, 3), (1/1000,
  0)], []⟩]
def g20 : Geom2D := [⟨[(1/2, 15/2), (19/2, 15/2), (19/2, 7/2), (1/2, 7/2)], []⟩]
def g21 : Geom2D := [⟨[(1/2, 15/2), (19/2, 15/2), (19/2, 1/2), (1/2, 1/2)], []⟩]
def g22 : Geom2D := [⟨[(1001/100, 3), (1001/100, 0), (-1/100, 0), (-1/100, 3)], []⟩]

/-- Results of `or`. -/
def orTab : List (Geom2D × Geom2D × Geom2D) := [([], g7, g7), (plateBack, [], plateBack), (plateBack, plate,
  g9), (plateBack, g7, g8), (g13, g8, g14), (g15, plateBack, g16)]

/-- Results of `and`. -/
def andTab : List (Geom2D × Geom2D × Geom2D) := [([], plate, []), ([], plateBack, []), (g1, g1, g1), (g1,
  plate, plate), (plate, plate, plate), (plate, g2, g3), (plate, g4, g5), (plateBack, [], []), (plateBack, g6,
  []), (plateBack, g7, []), (g8, [], []), (g9, plate, g9), (g10, plate, g11), (g12, plate, g11), (g7, plate,
  g7), (g7, plateBack, [])]

/-- Results of `sub`. -/
def subTab : List (Geom2D × Geom2D × Geom2D) := [([], plateBack, []), (g5, g17, g18), (plate, [], plate),
  (plate, g6, plateBack), (plate, g7, g19), (plateBack, plate, []), (plateBack, g16, []), (g8, g14, []), (g7,
  g7, [])]

/-- Results of `buffer`. -/
def bufferTab : List (Geom2D × ℚ × Geom2D) := [([], 1/500, []), (g19, -1/2, g20), (plate, -1/2, g21), (plate,
  0, plate), (plate, 1, g1), (g21, 1/2, g13), (g20, 1/2, g15), (g22, 1/100, g4), (g22, 1/1000, g17)]

/-- Looks up a result. -/
def look {α : Type} [DecidableEq α] (tab : List (Geom2D × α × Geom2D)) (a : Geom2D) (b : α) : Except PyErr Geom2D :=
  match tab.find? fun e => decide (e.1 = a) && decide (e.2.1 = b) with
  | some e => .ok e.2.2
  | none => .error .exception

theorem look_le {α : Type} [DecidableEq α] (tab : List (Geom2D × α × Geom2D)) (f : Geom2D → α → Except PyErr Geom2D)
    (h : ∀ e ∈ tab, f e.1 e.2.1 = .ok e.2.2) (a : Geom2D) (b : α) : Le (look tab a b) (f a b) := by
  intro r hr
  unfold look at hr
  split at hr
  · next e he =>
    have h1 := List.find?_some he
    simp only [Bool.and_eq_true, decide_eq_true_eq] at h1
    cases hr
    rw [← h1.1, ← h1.2]
    exact h e (List.mem_of_find?_eq_some he)
  · cases hr

/-- The operations of the program. -/
abbrev real : G2Ops Geom2D := codeOps chDemo sqDemo

/-- The operations by the lists. -/
def listed : G2Ops Geom2D :=
  { real with or := look orTab, and := look andTab, sub := look subTab, buffer := look bufferTab }

/-- Whether the results in a list are right. -/
def right {α : Type} (tab : List (Geom2D × α × Geom2D)) (f : Geom2D → α → Except PyErr Geom2D) : Bool :=
  tab.all fun e => okAnd (f e.1 e.2.1) fun r => decide (r = e.2.2)

theorem of_right {α : Type} {tab : List (Geom2D × α × Geom2D)} {f : Geom2D → α → Except PyErr Geom2D}
    (h : right tab f = true) : ∀ e ∈ tab, f e.1 e.2.1 = .ok e.2.2 := by
  intro e he
  exact ok_value (List.all_eq_true.1 h e he)

theorem or_right : right orTab real.or = true := by decide +kernel

theorem and_right1 : right (andTab.take 8) real.and = true := by decide +kernel

theorem and_right2 : right (andTab.drop 8) real.and = true := by decide +kernel

theorem sub_right : right subTab real.sub = true := by decide +kernel

end Ply.FullRun
