import Verif.Props.FullRunBuffer

/-! # The whole run -/

namespace Ply.FullRun

open MeasureTheory Geom1D SheetBuild Canned

theorem listed_le : OpsLe listed real where
  empty := rfl
  isEmpty := rfl
  polygons := rfl
  or := look_le _ _ (of_right or_right)
  and := look_le _ _ fun e he => by
    rw [← List.take_append_drop 8 andTab, List.mem_append] at he
    exact he.elim (of_right and_right1 e) (of_right and_right2 e)
  sub := look_le _ _ (of_right sub_right)
  area _ := Le.refl _
  buffer := look_le _ _ fun e he => by
    have h : bufferTab = bufferTab.take 1 ++ ((bufferTab.drop 1).take 1 ++ ((bufferTab.drop 2).take 2 ++
        ((bufferTab.drop 4).take 2 ++ ((bufferTab.drop 6).take 1 ++ bufferTab.drop 7)))) := rfl
    rw [h] at he
    simp only [List.mem_append] at he
    rcases he with he | he | he | he | he | he
    · exact of_right buffer_right1 e he
    · exact of_right buffer_right2 e he
    · exact of_right buffer_right3 e he
    · exact of_right buffer_right4 e he
    · exact of_right buffer_right5 e he
    · exact of_right buffer_right6 e he
  fingers _ _ := Le.refl _
  project _ _ := Le.refl _

/-- The parameters; all checks are made. -/
def par : Params Geom2D where
  o := real
  geoms _ := ⟨plate, plate, plate⟩
  supportRadius := 1
  minW := 4
  maxW := 6
  draws _ _ := lowDraws
  order l := l
  el _ _ := false

theorem run_listed : okAnd (run { par with o := listed } plex2 none none) (fun r => r.ok &&
    decide (r.sheetCuts = [("s0".toList, g8), ("s2".toList, plateBack)]) &&
    decide (r.sheetbuild.interChosen = [(id0, ivl (1 / 1000) (9999 / 1000)), (id2, ⟨[]⟩)])) = true := by
  decide +kernel

/-- C66: a run of all twelve steps with the operations of the program succeeds. -/
theorem c66_full_run : ∃ r, run par plex2 none none = .ok r ∧ r.ok = true ∧
    r.sheetCuts = [("s0".toList, g8), ("s2".toList, plateBack)] ∧
    r.sheetbuild.interChosen = [(id0, ivl (1 / 1000) (9999 / 1000)), (id2, ⟨[]⟩)] := by
  obtain ⟨r, h1, h2⟩ := ok_of_match run_listed
  simp only [Bool.and_eq_true, decide_eq_true_eq] at h2
  exact ⟨r, run_le listed_le par plex2 none r h1 h2.1.1, h2.1.1, h2.1.2, h2.2⟩

theorem par_valid : par.Valid where
  project := code_project
  draws _ _ := lowDraws_valid
  minW := by show (0 : ℚ) < 4; norm_num
  maxW := by show (0 : ℚ) < 6; norm_num

theorem par_geoms : ValidGeoms Geom2D.Fine par.geoms := fun _ => ⟨plate_fine, plate_fine, plate_fine⟩

theorem par_islands (n : Name) : (par.geoms n).face0.NoIslands ∧ (par.geoms n).face1.NoIslands :=
  ⟨noIslands_of plate (by decide), noIslands_of plate (by decide)⟩

/-- C66 for this run: what the fingers were to be found for is decided, for one side or the other. -/
example : ∃ r sb1, run par plex2 none none = .ok r ∧ r.history[11]? = some sb1 ∧
    pts sb1.interOk id0 ⊆ pts r.sheetbuild.interChosen id0 ∪ pts r.sheetbuild.interChosen id2 := by
  obtain ⟨r, h1, h2, -⟩ := c66_full_run
  obtain ⟨_, _, _, sb0, sb1, _, hh, _, h⟩ := c66_run par par_valid plex2 plex2_paired none r h1 h2
  exact ⟨r, sb1, h1, hh, (h (side2 0) (side2 1) ⟨rfl, rfl⟩).2.2.2.2.2⟩

/-- C87 for this run: along the whole joint the two cut sheets overlap in less than 9/10000000. -/
example : ∃ r, run par plex2 none none = .ok r ∧
    volume (overlap (side2 0) (side2 1) (dens Geom2D.region r.sheetCuts "s0".toList \ otherFingers r.sheetbuild (side2 0))
      (dens Geom2D.region r.sheetCuts "s2".toList \ otherFingers r.sheetbuild (side2 1)) (Set.Ico (-1000) 1000)) <
    ENNReal.ofReal (9 / 10000000) := by
  obtain ⟨r, h1, h2, -⟩ := c66_full_run
  have hs : ∀ i, (side2 i).scale = 1 := fun i => by
    show ((1 : ℚ) : ℝ) ^ 2 + ((0 : ℚ) : ℝ) ^ 2 = 1
    norm_num
  have hw : (side2 0).wide = 3 ∧ (side2 1).wide = 3 := by
    have h3 : (side2 0).maxNormalOffset = 0 ∧ (side2 0).minNormalOffset = -3 ∧ (side2 1).maxNormalOffset = 0 ∧
        (side2 1).minNormalOffset = -3 := by decide +kernel
    unfold InterSide.wide
    rw [h3.1, h3.2.1, h3.2.2.1, h3.2.2.2]
    norm_num
  refine ⟨r, h1, lt_of_lt_of_le (c87_whole chDemo_valid sqDemo_root par rfl par_valid par_geoms plex2 plex2_paired plex2_sheeted
    plex2_proper none r h1 h2 le_rfl (fun e _ => par_islands _) (side2 0) (side2 1) ⟨rfl, rfl⟩ (hs 0) (hs 1))
    (ENNReal.ofReal_le_ofReal ?_)⟩
  rw [hw.1, hw.2]
  unfold tol7
  norm_num

/-- C88 for this run: the point (5, 1) is cut from the first sheet, so it is near both of its faces. -/
example : ∃ r, run par plex2 none none = .ok r ∧ Geom2D.locate g8 (5, 1) = .ok 1 ∧
    r.sheetCuts.get? "s0".toList = some g8 ∧
    ∃ y, plate.Has y ∧ dist2 (5, 1) y ≤ par.supportRadius ^ 2 * max 1 (2 / sqDemo 2 ^ 2) := by
  obtain ⟨r, h1, h2, h3, -⟩ := c66_full_run
  have hc : r.sheetCuts.get? "s0".toList = some g8 := by rw [h3]; rfl
  have hq : Geom2D.locate g8 (5, 1) = .ok 1 := by decide +kernel
  exact ⟨r, h1, hq, hc, (c88_run_near chDemo_valid sqDemo_root par rfl par_valid par_geoms plex2 plex2_paired plex2_sheeted
    plex2_proper none r h1 h2 (by decide +kernel) le_rfl (fun e _ => par_islands _)
    (e := ("s0".toList, ⟨"s0".toList⟩)) List.mem_cons_self hc hq).2.1⟩

end Ply.FullRun
