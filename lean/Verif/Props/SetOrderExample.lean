import Verif.Props.SetOrder
import Verif.Props.BufferExample

/-! # A build made with two set orders -/

namespace Ply

open Arr MeasureTheory Geom1D

/-- Iteration against the order of insertion; the last of what is left is taken out. -/
def chBack : Choices where
  segs := List.reverse
  verts := List.reverse
  pop := fun l => l.getLastD ((0, 0), (0, 0))
  conts := fun _ => List.reverse
  cells := List.reverse
  merger := fun _ => ⟨fun _ _ _ vs => vs.getLastD (0, 0), fun _ => List.reverse⟩
  merged := List.reverse
  holes := fun _ => List.reverse

theorem chBack_valid : chBack.Valid := by
  have hp : ∀ {α : Type} (d : α) (l : List α), l ≠ [] → l.getLastD d ∈ l := by
    intro α d l hl
    rw [List.getLastD_eq_getLast?, List.getLast?_eq_some_getLast hl]
    exact List.getLast_mem hl
  exact ⟨List.reverse_perm, List.reverse_perm, fun l hl => hp _ l hl, fun _ => List.reverse_perm, List.reverse_perm,
    fun _ => ⟨fun _ _ _ vs hv => hp _ vs hv, fun _ => List.reverse_perm⟩, List.reverse_perm, fun _ => List.reverse_perm⟩

/-- What is allowed and what is chosen with this order: the same corners as `strip` and `plateBack`, from another start. -/
def backOk : Geom2D := [⟨[(11, 0), (0, 0), (0, 8), (10, 8), (10, 1 / 2), (11, 1 / 2)], []⟩]
def backChosen : Geom2D := [⟨[(10, 3), (0, 3), (0, 8), (10, 8)], []⟩]

theorem back_chosen : freshChosen (codeOps chBack sqDemo) ⟨plate, plate, thin⟩ = .ok backOk :=
  ok_value (by decide +kernel)

theorem back_ok : freshOk (codeOps chBack sqDemo) 1 ⟨plate, plate, thin⟩ = .ok backOk :=
  ok_value (by decide +kernel)

/-- The fresh build with this order. -/
def buildBack : SheetBuild Geom2D where
  sheetplex := plex2
  sheetChosen := [("s0".toList, backChosen), ("s2".toList, backChosen)]
  sheetOk := [("s0".toList, backOk), ("s2".toList, backOk)]
  interChosen := [(id0, ⟨[]⟩), (id2, ⟨[]⟩)]
  interOk := [(id0, ivl 0 11), (id2, ivl 0 11)]

theorem back_run : createSheetbuild (codeOps chBack sqDemo) plex2 geomsT 1 = .ok buildBack := by
  have ok_bind : ∀ {α β : Type} (a : α) (f : α → Except PyErr β), (Except.ok a >>= f) = f a := fun _ _ => rfl
  have f1 : dictOf (fun e : Name × Sheet => e.2.id) (fun e => freshChosen (codeOps chBack sqDemo) (geomsT e.2.id)) plex2.sheets =
      .ok [("s0".toList, backOk), ("s2".toList, backOk)] := by
    have : plex2.sheets = [("s0".toList, ⟨"s0".toList⟩), ("s2".toList, ⟨"s2".toList⟩)] := by decide
    rw [this]
    simp only [dictOf, geomsT, back_chosen, ok_bind]
  have f2 : dictOf (fun e : Name × Sheet => e.2.id) (fun e => freshOk (codeOps chBack sqDemo) 1 (geomsT e.2.id)) plex2.sheets =
      .ok [("s0".toList, backOk), ("s2".toList, backOk)] := by
    have : plex2.sheets = [("s0".toList, ⟨"s0".toList⟩), ("s2".toList, ⟨"s2".toList⟩)] := by decide
    rw [this]
    simp only [dictOf, geomsT, back_ok, ok_bind]
  have f3 : intersides (plex2.intersections.map Prod.snd) none = [side2 0, side2 1] := by rfl
  have f4 : dictOf InterSide.id (fun _ => Geom1D.empty) [side2 0, side2 1] = .ok [(id0, ⟨[]⟩), (id2, ⟨[]⟩)] :=
    ok_value (by decide +kernel)
  have f5 : dictOf InterSide.id (freshInterOk (codeOps chBack sqDemo) geomsT [("s0".toList, backOk), ("s2".toList, backOk)])
      [side2 0, side2 1] = .ok [(id0, ivl 0 11), (id2, ivl 0 11)] := ok_value (by decide +kernel)
  have f6 : restrictInter plex2 [(id0, ivl 0 11), (id2, ivl 0 11)] [side2 0, side2 1] =
      .ok [(id0, ivl 0 11), (id2, ivl 0 11)] := by
    have g0 : PMap.get [(id0, ivl 0 11), (id2, ivl 0 11)] (side2 0).id = .ok (ivl 0 11) := by rfl
    have g1 : PMap.get [(id0, ivl 0 11), (id2, ivl 0 11)] (side2 1).id = .ok (ivl 0 11) := by rfl
    have o0 : (side2 0).opposite plex2 = .ok (side2 1) := by rfl
    have o1 : (side2 1).opposite plex2 = .ok (side2 0) := by rfl
    have s0 : PMap.set [(id0, ivl 0 11), (id2, ivl 0 11)] (side2 0).id (ivl 0 11) = [(id0, ivl 0 11), (id2, ivl 0 11)] := by rfl
    have s1 : PMap.set [(id0, ivl 0 11), (id2, ivl 0 11)] (side2 1).id (ivl 0 11) = [(id0, ivl 0 11), (id2, ivl 0 11)] := by rfl
    rw [restrictInter, g0, ok_bind, o0, ok_bind, g1, ok_bind, ivl_and 0 11 (by norm_num), ok_bind, s0,
      restrictInter, g1, ok_bind, o1, ok_bind, g0, ok_bind, ivl_and 0 11 (by norm_num), ok_bind, s1, restrictInter]
  have f7 : removeFingers (codeOps chBack sqDemo) plex2 [("s0".toList, backOk), ("s2".toList, backOk)]
      [(id0, ivl 0 11), (id2, ivl 0 11)] = .ok [("s0".toList, backChosen), ("s2".toList, backChosen)] :=
    ok_value (by decide +kernel)
  unfold createSheetbuild
  rw [f1, ok_bind, f2, ok_bind, f3]
  dsimp only
  rw [f4, ok_bind, f5, ok_bind, f6, ok_bind, f7]
  rfl

/-- No holes in what both faces have in common, in either order. -/
theorem common_islands (b : Geom2D) (h : Geom2D.and (arrangementOp chDemo) plate plate = .ok b ∨
    Geom2D.and (arrangementOp chBack) plate plate = .ok b) : b.NoIslands := by
  have k1 : okAnd (Geom2D.and (arrangementOp chDemo) plate plate) (fun b => b.all fun s => s.holes.isEmpty) = true := by
    decide +kernel
  have k2 : okAnd (Geom2D.and (arrangementOp chBack) plate plate) (fun b => b.all fun s => s.holes.isEmpty) = true := by
    decide +kernel
  rcases h with h | h
  · rw [h] at k1; exact noIslands_of b k1
  · rw [h] at k2; exact noIslands_of b k2

/-- C95: the builds differ as lists of corners and agree as sets. -/
theorem c95_run : buildF.sheetChosen ≠ buildBack.sheetChosen ∧ SbSim Geom2D.Agree buildF buildBack :=
  ⟨by decide, c95_fresh chDemo_valid chBack_valid sqDemo_root (by decide) plex2 geomsT geomsT_valid 1
    (fun e _ => ⟨(geomsT_islands e.2.id).1, (geomsT_islands e.2.id).2, common_islands⟩) c46_2d_run back_run⟩

end Ply
