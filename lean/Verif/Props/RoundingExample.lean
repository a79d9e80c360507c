import Verif.Props.Rounding
import Verif.Props.CollisionExample

/-!
# Sheets that are not quite where their numbers say: examples for C92
-/

namespace Ply.FullRun

open Spec MeasureTheory Set Geom1D Arr Canned

/-- The sine of the angle by which the upright sheet is turned. -/
noncomputable def tiltS : ℝ := 2 * 10 ^ 9 / (10 ^ 18 + 1)

/-- The cosine. -/
noncomputable def tiltC : ℝ := (10 ^ 18 - 1) / (10 ^ 18 + 1)

theorem tilt_sq : tiltC ^ 2 + tiltS ^ 2 = 1 := by norm_num [tiltS, tiltC]

/-- The upright sheet of the full run, turned a little.  The joint numbers of the run are those of the sheet before it
was turned. -/
noncomputable def turned : Plate where
  plane := (tiltS, -tiltC, 0)
  height := 0
  thickness := 3
  ex := (tiltC, tiltS, 0)
  ey := (0, 0, 1)
  ez := (tiltS, -tiltC, 0)

theorem turned_sound : turned.Sound where
  frame := by constructor <;> norm_num [turned, Spec.inner, tiltS, tiltC]
  up := rfl
  thick := by norm_num [turned]

/-- The line where the flat sheet and the turned sheet cross. -/
noncomputable def lineT : Line3 :=
  ⟨(tiltC, tiltS, 0), (0, 0, 3), (-3 * tiltS, 3 * tiltC, 3), (0, 0, 0), (-3 * tiltS, 3 * tiltC, 0)⟩

theorem turned_crossing : Crossing flatPlate turned lineT := by
  have e : norm3 (cross3 flatPlate.plane turned.plane) = 1 := by
    unfold norm3
    rw [show dot3 (cross3 flatPlate.plane turned.plane) (cross3 flatPlate.plane turned.plane) = 1 by
      norm_num [dot3, cross3, flatPlate, turned, tiltS, tiltC]]
    exact Real.sqrt_one
  refine ⟨?_, ?_, ?_, ?_, ?_, ⟨?_, ?_, ?_⟩, ⟨?_, ?_, ?_⟩, ⟨?_, ?_, ?_⟩, ⟨?_, ?_, ?_⟩⟩ <;> try rw [e]
  all_goals norm_num [dot3, flatPlate, turned, lineT, tiltS, tiltC]

/-- The error of the joint numbers. -/
noncomputable def tiltE : ℝ := 7 / 10 ^ 9

theorem turned_first : (side2 0).Within flatPlate lineT tiltE := by
  obtain ⟨h1, h2, h3, h4, h5⟩ := side2_numbers 0
  constructor
  · rw [h1]; norm_num [Plate.project, lineT, dot3, flatPlate, tiltS, tiltC, tiltE, abs_le]
  · rw [h1]; norm_num [Plate.project, lineT, dot3, flatPlate, tiltS, tiltC, tiltE, abs_le]
  · rw [h1, h2]
  · rw [h3]; norm_num [dotR, Plate.project, lineT, dot3, flatPlate, tiltS, tiltC, tiltE, abs_le]
  · rw [h4]; norm_num [Plate.low, dotR, Plate.project, lineT, dot3, flatPlate, tiltS, tiltC, tiltE, abs_le]
  · rw [h5]; norm_num [Plate.high, dotR, Plate.project, lineT, dot3, flatPlate, tiltS, tiltC, tiltE, abs_le]

theorem turned_second : (side2 1).Within turned lineT tiltE := by
  obtain ⟨h1, h2, h3, h4, h5⟩ := side2_numbers 1
  constructor
  · rw [h1]; norm_num [Plate.project, lineT, dot3, turned, tiltS, tiltC, tiltE, abs_le]
  · rw [h1]; norm_num [Plate.project, lineT, dot3, turned, tiltS, tiltC, tiltE, abs_le]
  · rw [h1, h2]
  · rw [h3]; norm_num [dotR, Plate.project, lineT, dot3, turned, tiltS, tiltC, tiltE, abs_le]
  · rw [h4]; norm_num [Plate.low, dotR, Plate.project, lineT, dot3, turned, tiltS, tiltC, tiltE, abs_le]
  · rw [h5]; norm_num [Plate.high, dotR, Plate.project, lineT, dot3, turned, tiltS, tiltC, tiltE, abs_le]

/-- Where the sheets of the full run are, one of them turned. -/
noncomputable def platesT (n : Name) : Plate := if n = "s0".toList then flatPlate else turned

theorem platesT_0 : platesT (side2 0).sheet = flatPlate := if_pos rfl

theorem platesT_1 : platesT (side2 1).sheet = turned := if_neg (by decide)

theorem plex2_nearly : NearlyPlaced plex2 platesT tiltE where
  sound e _ := by
    unfold platesT
    split
    · exact flat_sound
    · exact turned_sound
  thick e _ := by
    unfold platesT
    split <;> norm_num [flatPlate, turned, tiltE]
  joint s t hj := by
    obtain ⟨h1, h2⟩ := hj
    rcases plex2_sides _ s h1 with ⟨-, rfl⟩ | ⟨-, rfl⟩
    · have : t = side2 1 := by cases h2; rfl
      subst this
      rw [platesT_0, platesT_1]
      exact ⟨lineT, turned_crossing, turned_first, turned_second⟩
    · have : t = side2 0 := by cases h2; rfl
      subst this
      rw [platesT_0, platesT_1]
      exact ⟨_, turned_crossing.symm', Within.symm' turned_second, Within.symm' turned_first⟩

theorem fresh_listed : okAnd (createSheetbuild listed plex2 par.geoms 1) (fun sb =>
    decide (sb.sheetOk = [("s0".toList, plate), ("s2".toList, plate)])) = true := by
  decide +kernel

theorem fresh_inter (i : ℕ) (hi : i = 0 ∨ i = 1) (v : Geom1D)
    (h : freshInterOk real par.geoms [("s0".toList, plate), ("s2".toList, plate)] (side2 i) = .ok v) : v.intervals.length = 1 := by
  have e : okAnd (freshInterOk real par.geoms [("s0".toList, plate), ("s2".toList, plate)] (side2 0))
        (fun v => decide (v.intervals.length = 1)) = true ∧
      okAnd (freshInterOk real par.geoms [("s0".toList, plate), ("s2".toList, plate)] (side2 1))
        (fun v => decide (v.intervals.length = 1)) = true := by
    decide +kernel
  rcases hi with rfl | rfl
  · have := e.1
    rw [h] at this
    exact of_decide_eq_true this
  · have := e.2
    rw [h] at this
    exact of_decide_eq_true this

/-- C92 for the full run: the joint numbers are off, but the two solids that are cut share at most 2 / 100, within
100 of the origin. -/
example : ∃ r, run par plex2 none none = .ok r ∧
    volume (flatPlate.solid (dens Geom2D.region r.sheetCuts "s0".toList \ otherFingers r.sheetbuild (side2 0)) ∩
      turned.solid (dens Geom2D.region r.sheetCuts "s2".toList \ otherFingers r.sheetbuild (side2 1)) ∩
      {x | Spec.inner x x ≤ 100 ^ 2}) ≤ ENNReal.ofReal (2 / 100) := by
  obtain ⟨r, h1, h2, -, h4⟩ := c66_full_run
  have hε : tiltE ≤ 1 / 100 := by norm_num [tiltE]
  obtain ⟨sb0, c1, c2, -⟩ := run_cuts chDemo_valid sqDemo_root par rfl par_valid par_geoms plex2 plex2_paired plex2_sheeted
    (plex2_nearly.proper hε plex2_paired plex2_sheeted) none r h1 h2
  have hv := c92_run chDemo_valid sqDemo_root par rfl par_valid par_geoms plex2 plex2_paired plex2_sheeted
    platesT hε plex2_nearly none r h1 h2 le_rfl (fun e _ => par_islands _) (side2 0) (side2 1) ⟨rfl, rfl⟩ (R := 100) (by norm_num)
    (by norm_num [tiltE]) 3 (by
      intro sb vs vt cs ct k1 k2 k3 k4 k5
      rw [c2] at k1
      cases k1
      obtain ⟨sb', l1, l2⟩ := ok_of_match fresh_listed
      have l3 := Heu.le_create listed_le par.geoms plex2 1 sb' l1
      have l4 : createSheetbuild real plex2 par.geoms 1 = .ok sb0 := c1
      rw [l3] at l4
      cases l4
      rw [of_decide_eq_true l2] at k2 k3
      have m1 := fresh_inter 0 (Or.inl rfl) vs k2
      have m2 := fresh_inter 1 (Or.inr rfl) vt k3
      rw [h4] at k4 k5
      have m3 : some (ivl (1 / 1000) (9999 / 1000)) = some cs := k4
      have m4 : some (⟨[]⟩ : Geom1D) = some ct := k5
      cases m3
      cases m4
      rw [m1, m2]
      decide)
  rw [platesT_0, platesT_1] at hv
  refine ⟨r, h1, hv.trans (ENNReal.ofReal_le_ofReal ?_)⟩
  unfold jointWide
  norm_num [tol7, Spec.inner, flatPlate, turned, tiltE]

/-- The numbers of the joint before the sheet was turned. -/
def numsU : JointNums where
  dir _ := (1, 0)
  origs i := if i = 0 then ((0, 0), (0, 3), (0, 0), (0, 3)) else ((0, 3), (0, 3), (0, 0), (0, 0))

/-- Their one joint. -/
def geoU (x y : Sheet) : Option JointNums := if x.id = "s0".toList ∧ y.id = "s2".toList then some numsU else none

/-- C92: `create_sheetplex` with numbers that are off. -/
example : NearlyPlaced (createSheetplex geoU [⟨"s0".toList⟩, ⟨"s2".toList⟩]) platesT (5 * (tiltE * 3)) := by
  refine (create_nearly (by decide) (fun x _ y _ nums hg => ?_) (by norm_num [tiltE]) (by norm_num) fun x _ => ?_).2.2
  · unfold geoU at hg
    split at hg
    · next h =>
      cases hg
      rw [h.1, h.2, show platesT "s0".toList = flatPlate from platesT_0, show platesT "s2".toList = turned from platesT_1]
      refine ⟨lineT, turned_crossing, ?_, ?_, ?_, ?_⟩
      · unfold JointNums.Within
        norm_num [numsU, Plate.project, lineT, dot3, flatPlate, tiltS, tiltC, tiltE, abs_le]
      · unfold JointNums.Within
        norm_num [numsU, Plate.project, lineT, dot3, turned, tiltS, tiltC, tiltE, abs_le]
      · unfold Plate.Corners
        norm_num [Plate.project, lineT, dot3, flatPlate, tiltS, tiltC, abs_le]
      · unfold Plate.Corners
        norm_num [Plate.project, lineT, dot3, turned, tiltS, tiltC, abs_le]
    · cases hg
  · unfold platesT
    split
    · exact ⟨flat_sound, by norm_num [flatPlate, tiltE]⟩
    · exact ⟨turned_sound, by norm_num [turned, tiltE]⟩

end Ply.FullRun
