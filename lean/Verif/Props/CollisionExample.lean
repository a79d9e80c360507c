import Verif.Props.Collision
import Verif.Props.FullRun

/-!
# Sheets in space: examples for C89 and C90
-/

namespace Ply.FullRun

open Spec MeasureTheory Set Geom1D Arr Canned

/-! ### Two sheets askew -/

/-- A sheet that lies flat. -/
noncomputable def flatPlate : Plate where
  plane := (0, 0, 1)
  height := 3
  thickness := 3
  ex := (1, 0, 0)
  ey := (0, 1, 0)
  ez := (0, 0, 1)

/-- A sheet that leans over. -/
noncomputable def leaning : Plate where
  plane := (0, -4 / 5, 3 / 5)
  height := 0
  thickness := 3
  ex := (1, 0, 0)
  ey := (0, 3 / 5, 4 / 5)
  ez := (0, -4 / 5, 3 / 5)

theorem flat_sound : flatPlate.Sound where
  frame := by constructor <;> norm_num [flatPlate, Spec.inner]
  up := rfl
  thick := by norm_num [flatPlate]

theorem leaning_sound : leaning.Sound where
  frame := by constructor <;> norm_num [leaning, Spec.inner]
  up := rfl
  thick := by norm_num [leaning]

/-- The line where they cross. -/
noncomputable def lineL : Line3 := ⟨(1, 0, 0), (0, 9 / 4, 3), (0, 6, 3), (0, 0, 0), (0, 15 / 4, 0)⟩

theorem line_leaning : createLine flatPlate leaning = some lineL := by
  have e : norm3 (cross3 flatPlate.plane leaning.plane) = 4 / 5 := by
    unfold norm3
    rw [show dot3 (cross3 flatPlate.plane leaning.plane) (cross3 flatPlate.plane leaning.plane) = (4 / 5) ^ 2 by
      norm_num [dot3, cross3, flatPlate, leaning]]
    exact Real.sqrt_sq (by norm_num)
  unfold createLine
  simp only [Plate.normal, Plate.offset, if_true, if_false, one_ne_zero, e]
  rw [if_neg (by norm_num)]
  norm_num [lineL, lstsq, cross3, dot3, flatPlate, leaning]
  rfl

/-- The numbers of their joint. -/
def numsL : JointNums where
  dir _ := (1, 0)
  origs i := if i = 0 then ((0, 9 / 4), (0, 6), (0, 0), (0, 15 / 4)) else ((0, 15 / 4), (0, 6), (0, 0), (0, 9 / 4))

theorem numsL_first : numsL.Exact flatPlate lineL 0 := by
  unfold JointNums.Exact
  norm_num [numsL, Plate.project, lineL, dot3, flatPlate]

theorem numsL_second : numsL.Exact leaning lineL 1 := by
  unfold JointNums.Exact
  norm_num [numsL, Plate.project, lineL, dot3, leaning]

/-- The two joint sides. -/
def sideL (i : ℕ) : InterSide := createInterSide numsL "s0,s1".toList ⟨if i = 0 then "s0".toList else "s1".toList⟩ i

/-- C89 for sheets askew: the joint is twice as wide as the sheets are thick. -/
example : (sideL 0).Proper ∧ (sideL 0).scale = 1 ∧ (sideL 0).wide = 6 := by
  obtain ⟨h1, -, h3, -, -, -, h7, -⟩ := c89_numbers flat_sound leaning_sound line_leaning
    (exact_create numsL_first "s0,s1".toList ⟨"s0".toList⟩) (exact_create numsL_second "s0,s1".toList ⟨"s1".toList⟩)
  refine ⟨h1, h3, h7.trans ?_⟩
  have e : Real.sqrt (1 - dot3 flatPlate.plane leaning.plane ^ 2) = 4 / 5 := by
    rw [show 1 - dot3 flatPlate.plane leaning.plane ^ 2 = (4 / 5) ^ 2 by norm_num [dot3, flatPlate, leaning]]
    exact Real.sqrt_sq (by norm_num)
  rw [e]
  norm_num [dot3, flatPlate, leaning]

/-- C89 for sheets askew: the point (7, 3, 2) lies in both. -/
example : ∃ r u v, u ∈ (sideL 0).across ∧ v ∈ (sideL 1).across ∧
    flatPlate.project (7, 3, 2) = (sideL 0).place (r, u) ∧ leaning.project (7, 3, 2) = (sideL 1).place (r, v) :=
  c89_seen flat_sound leaning_sound line_leaning (exact_create numsL_first "s0,s1".toList ⟨"s0".toList⟩)
    (exact_create numsL_second "s0,s1".toList ⟨"s1".toList⟩)
    (by norm_num [Plate.slab, Spec.slab, Spec.inner, flatPlate]) (by norm_num [Plate.slab, Spec.slab, Spec.inner, leaning])

/-- A sheet is not joined with one parallel to it. -/
example : ¬ (createLine flatPlate { flatPlate with height := 10 }).isSome := by
  have h : ({ flatPlate with height := 10 } : Plate).Sound := ⟨flat_sound.frame, rfl, flat_sound.thick⟩
  rw [(c89_crosses flat_sound h).1]
  norm_num [dot3, flatPlate]

/-! ### The sheets of the full run -/

/-- A sheet that stands upright, three thick. -/
noncomputable def upright : Plate where
  plane := (0, -1, 0)
  height := 0
  thickness := 3
  ex := (1, 0, 0)
  ey := (0, 0, 1)
  ez := (0, -1, 0)

theorem upright_sound : upright.Sound where
  frame := by constructor <;> norm_num [upright, Spec.inner]
  up := rfl
  thick := by norm_num [upright]

/-- The line where they cross. -/
noncomputable def lineU : Line3 := ⟨(1, 0, 0), (0, 0, 3), (0, 3, 3), (0, 0, 0), (0, 3, 0)⟩

theorem line_upright : createLine flatPlate upright = some lineU := by
  have e : norm3 (cross3 flatPlate.plane upright.plane) = 1 := by
    unfold norm3
    rw [show dot3 (cross3 flatPlate.plane upright.plane) (cross3 flatPlate.plane upright.plane) = 1 by
      norm_num [dot3, cross3, flatPlate, upright]]
    exact Real.sqrt_one
  unfold createLine
  simp only [Plate.normal, Plate.offset, if_true, if_false, one_ne_zero, e]
  rw [if_neg (by norm_num)]
  norm_num [lineU, lstsq, cross3, dot3, flatPlate, upright]
  rfl

/-- Where the sheets of the full run are. -/
noncomputable def plates (n : Name) : Plate := if n = "s0".toList then flatPlate else upright

theorem plates_0 : plates (side2 0).sheet = flatPlate := if_pos rfl

theorem plates_1 : plates (side2 1).sheet = upright := if_neg (by decide)

theorem side2_numbers (i : ℕ) : (side2 i).direction = (1, 0) ∧ (side2 i).normal = (0, -1) ∧ (side2 i).originOffset = 0 ∧
    (side2 i).minNormalOffset = -3 ∧ (side2 i).maxNormalOffset = 0 := by
  unfold side2 createInterSide
  norm_num [dot, Geom2D.minQ, Geom2D.maxQ]

theorem side2_first : (side2 0).Exact flatPlate lineU := by
  obtain ⟨h1, h2, h3, h4, h5⟩ := side2_numbers 0
  constructor
  · rw [h1]; norm_num [Plate.project, lineU, dot3, flatPlate]
  · rw [h1, h2]
  · rw [h3]; norm_num [dotR, Plate.project, lineU, dot3, flatPlate]
  · rw [h4]; norm_num [dotR, Plate.project, lineU, dot3, flatPlate]
  · rw [h5]; norm_num [dotR, Plate.project, lineU, dot3, flatPlate]

theorem side2_second : (side2 1).Exact upright lineU := by
  obtain ⟨h1, h2, h3, h4, h5⟩ := side2_numbers 1
  constructor
  · rw [h1]; norm_num [Plate.project, lineU, dot3, upright]
  · rw [h1, h2]
  · rw [h3]; norm_num [dotR, Plate.project, lineU, dot3, upright]
  · rw [h4]; norm_num [dotR, Plate.project, lineU, dot3, upright]
  · rw [h5]; norm_num [dotR, Plate.project, lineU, dot3, upright]

theorem plex2_placed : Placed plex2 plates where
  sound e _ := by
    unfold plates
    split
    · exact flat_sound
    · exact upright_sound
  joint s t hj := by
    obtain ⟨h1, h2⟩ := hj
    rcases plex2_sides _ s h1 with ⟨-, rfl⟩ | ⟨-, rfl⟩
    · have : t = side2 1 := by cases h2; rfl
      subst this
      rw [plates_0, plates_1]
      exact ⟨lineU, side2_first, side2_second, Or.inl line_upright⟩
    · have : t = side2 0 := by cases h2; rfl
      subst this
      rw [plates_0, plates_1]
      exact ⟨lineU, side2_second, side2_first, Or.inr line_upright⟩

/-- C90 for the full run: the two solids that are cut share less than a millionth. -/
example : ∃ r, run par plex2 none none = .ok r ∧ ∃ d : V3, Spec.inner d d = 1 ∧
    volume (flatPlate.solid (dens Geom2D.region r.sheetCuts "s0".toList \ otherFingers r.sheetbuild (side2 0)) ∩
      upright.solid (dens Geom2D.region r.sheetCuts "s2".toList \ otherFingers r.sheetbuild (side2 1)) ∩
      {x | Spec.inner d x ∈ Ico (-1000) 1000}) ≤ ENNReal.ofReal (9 / 10000000) := by
  obtain ⟨r, h1, h2, -⟩ := c66_full_run
  obtain ⟨d, d1, -, -, hv⟩ := c90_run chDemo_valid sqDemo_root par rfl par_valid par_geoms plex2 plex2_paired plex2_sheeted
    plates plex2_placed none r h1 h2 le_rfl (fun e _ => par_islands _) (side2 0) (side2 1) ⟨rfl, rfl⟩
  rw [plates_0, plates_1] at hv
  refine ⟨r, h1, d, d1, hv.trans (ENNReal.ofReal_le_ofReal ?_)⟩
  obtain ⟨-, -, -, k4, k5⟩ := side2_numbers 0
  obtain ⟨-, -, -, m4, m5⟩ := side2_numbers 1
  unfold InterSide.wide
  rw [k4, k5, m4, m5]
  norm_num [tol7, Spec.inner, flatPlate, upright]

end Ply.FullRun
