import Verif.Props.Filled
import Verif.Props.FullRun

/-! # C91 for a whole run -/

namespace Ply.FullRun

open MeasureTheory Geom1D Canned Heu

/-- C91 for the full run: the first sheet has fingers, and these are cut but for what is lost for a reason. -/
example : ∃ r, run par plex2 none none = .ok r ∧ (∃ z, z ∈ fingersOn r.sheetbuild "s0".toList) ∧
    ∃ sb0 sb1, createSheetbuild par.o plex2 par.geoms par.supportRadius = .ok sb0 ∧
      ∀ᵐ z : ℝ × ℝ, z ∈ fingersOn r.sheetbuild "s0".toList → z ∈ dens Geom2D.region sb0.sheetOk "s0".toList →
        z ∈ dens Geom2D.region r.sheetCuts "s0".toList ∨ Lost par.o par.geoms sb0 sb1 "s0".toList z := by
  obtain ⟨r, h1, h2, -, h4⟩ := c66_full_run
  obtain ⟨sb0, sb1, k1, -, -, k2, k3, k4⟩ := c91_run chDemo_valid sqDemo_root (by decide +kernel) par rfl par_valid par_geoms
    plex2 plex2_paired plex2_sheeted plex2_proper none r h1 h2
  refine ⟨r, h1, ⟨(side2 0).place (1, 0), side2 0, ?_, rfl, ?_⟩, sb0, sb1, k1, k4 _⟩
  · rw [(c66_run par par_valid plex2 plex2_paired none r h1 h2).1]
    rfl
  · refine (mem_strip _ _ _).2 ⟨(1, 0), ?_, ?_, rfl⟩
    · rw [h4, show pts [(id0, ivl (1 / 1000) (9999 / 1000)), (id2, ⟨[]⟩)] (side2 0).id =
        pointsOf (ivl (1 / 1000) (9999 / 1000)).intervals from rfl]
      refine ⟨(Ext.fin (1 / 1000), Ext.fin (9999 / 1000)), by simp [ivl], ?_⟩
      rw [mem_icoSet, Ext.toE_fin, Ext.toE_fin, EReal.coe_le_coe_iff, EReal.coe_lt_coe_iff]
      norm_num
    · have h3 : (side2 0).maxNormalOffset = 0 ∧ (side2 0).minNormalOffset = -3 := by decide +kernel
      unfold InterSide.across
      rw [h3.1, h3.2]
      norm_num

end Ply.FullRun
