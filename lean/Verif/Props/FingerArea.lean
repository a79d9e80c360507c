import Verif.Props.Rings
import Verif.Proofs.Area
import Mathlib.MeasureTheory.Measure.Lebesgue.EqHaar
import Mathlib.LinearAlgebra.Matrix.ToLin

/-!
# The area of the fingers
-/

namespace Ply

open MeasureTheory Set Geom1D Arr

/-- The part of the real plane that lies on a joint side, at the given places along the joint. -/
def InterSide.strip (s : InterSide) (V : Set ℝ) : Set (ℝ × ℝ) :=
  {z | ∃ al nc : ℝ, al ∈ V ∧ s.minNormalOffset ≤ nc ∧ nc ≤ s.maxNormalOffset ∧
    z = ((al + s.originOffset) * s.direction.1 + nc * s.normal.1, (al + s.originOffset) * s.direction.2 + nc * s.normal.2)}

theorem strip_union (s : InterSide) (V W : Set ℝ) : s.strip (V ∪ W) = s.strip V ∪ s.strip W := by
  ext z
  constructor
  · rintro ⟨al, nc, hv | hv, h⟩
    · exact Or.inl ⟨al, nc, hv, h⟩
    · exact Or.inr ⟨al, nc, hv, h⟩
  · rintro (⟨al, nc, hv, h⟩ | ⟨al, nc, hv, h⟩)
    · exact ⟨al, nc, Or.inl hv, h⟩
    · exact ⟨al, nc, Or.inr hv, h⟩

theorem strip_mono (s : InterSide) {V W : Set ℝ} (h : V ⊆ W) : s.strip V ⊆ s.strip W :=
  fun _ ⟨al, nc, hv, k⟩ => ⟨al, nc, h hv, k⟩

@[simp] theorem strip_empty (s : InterSide) : s.strip ∅ = ∅ := by
  ext z
  simp [InterSide.strip]

/-- Almost every point has a rational point on the same side of the lines of the given edges. -/
theorem generic_sides (E : List Seg) (hE : ∀ e ∈ E, e.1 ≠ e.2) :
    ∀ᵐ z : ℝ × ℝ, ∃ p : Pt, Near E z p ∧ ∀ e ∈ E, orientR e.1 e.2 z ≠ 0 ∧ (0 < orient e.1 e.2 p ↔ 0 < orientR e.1 e.2 z) := by
  have : ∀ᵐ z : ℝ × ℝ, ∀ e ∈ E, z.2 ≠ e.1.2 ∧ z.2 ≠ e.2.2 ∧ orientR e.1 e.2 z ≠ 0 := by
    induction E with
    | nil => simp
    | cons a E ih =>
      filter_upwards [generic_edge a (hE a List.mem_cons_self), ih fun e he => hE e (List.mem_cons_of_mem _ he)] with z h1 h2 e he
      rcases List.mem_cons.1 he with rfl | he
      · exact h1
      · exact h2 e he
  filter_upwards [this] with z hz
  have sgn : ∀ e : Seg, orientR e.1 e.2 z ≠ 0 → ∀ᶠ w in nhds z, (0 < orientR e.1 e.2 w ↔ 0 < orientR e.1 e.2 z) := by
    intro e he
    have co : Continuous fun w : ℝ × ℝ => orientR e.1 e.2 w := by unfold orientR; fun_prop
    rcases lt_or_gt_of_ne he with hl | hl
    · filter_upwards [co.continuousAt.eventually_lt continuousAt_const hl] with w hw
      simp [not_lt.2 hw.le, not_lt.2 hl.le]
    · filter_upwards [continuousAt_const.eventually_lt co.continuousAt hl] with w hw
      simp [hw, hl]
  have ev : ∀ᶠ w in nhds z, ∀ e ∈ E, (crossingR w e.1 e.2 = crossingR z e.1 e.2 ∧ orientR e.1 e.2 w ≠ 0) ∧
      (0 < orientR e.1 e.2 w ↔ 0 < orientR e.1 e.2 z) := by
    clear this hE
    induction E with
    | nil => simp
    | cons a E ih =>
      filter_upwards [crossingR_near a z (hz a List.mem_cons_self), sgn a (hz a List.mem_cons_self).2.2,
        ih fun e he => hz e (List.mem_cons_of_mem _ he)] with w h1 h2 h3 e he
      rcases List.mem_cons.1 he with rfl | he
      · exact ⟨h1, h2⟩
      · exact h3 e he
  have hd : Dense (range toR) := by
    have : range toR = (range ((↑) : ℚ → ℝ)) ×ˢ (range ((↑) : ℚ → ℝ)) := by
      ext z
      simp only [mem_range, mem_prod, toR]
      constructor
      · rintro ⟨p, rfl⟩; exact ⟨⟨p.1, rfl⟩, ⟨p.2, rfl⟩⟩
      · rintro ⟨⟨a, ha⟩, ⟨b, hb⟩⟩; exact ⟨(a, b), Prod.ext ha hb⟩
    rw [this]
    exact Rat.denseRange_cast.prod Rat.denseRange_cast
  obtain ⟨w, ⟨p, rfl⟩, hw⟩ := (mem_closure_iff_frequently.1 (hd z)).and_eventually ev |>.exists
  refine ⟨p, fun e he => ?_, fun e he => ?_⟩
  · obtain ⟨⟨h1, h2⟩, -⟩ := hw e he
    rw [crossingR_toR] at h1
    rw [orientR_toR] at h2
    exact ⟨h1, by exact_mod_cast h2⟩
  · obtain ⟨-, h3⟩ := hw e he
    rw [orientR_toR] at h3
    exact ⟨(hz e he).2.2, by rw [← h3]; exact_mod_cast Iff.rfl⟩

theorem orientR_along (s : InterSide) (h : s.Proper) (a n0 n1 : ℚ) (al nc : ℝ) :
    orientR (s.point a n0) (s.point a n1)
      ((al + s.originOffset) * s.direction.1 + nc * s.normal.1, (al + s.originOffset) * s.direction.2 + nc * s.normal.2) =
    (n1 - n0) * (al - a) * ((s.direction.1 : ℝ) ^ 2 + (s.direction.2 : ℝ) ^ 2) := by
  unfold orientR InterSide.point
  rw [h.normal]
  push_cast
  ring

theorem orientR_across (s : InterSide) (h : s.Proper) (a b n : ℚ) (al nc : ℝ) :
    orientR (s.point b n) (s.point a n)
      ((al + s.originOffset) * s.direction.1 + nc * s.normal.1, (al + s.originOffset) * s.direction.2 + nc * s.normal.2) =
    (b - a) * (nc - n) * ((s.direction.1 : ℝ) ^ 2 + (s.direction.2 : ℝ) ^ 2) := by
  unfold orientR InterSide.point
  rw [h.normal]
  push_cast
  ring

theorem orient_along (s : InterSide) (h : s.Proper) (a n0 n1 al nc : ℚ) :
    orient (s.point a n0) (s.point a n1) (s.point al nc) =
    (n1 - n0) * (al - a) * (s.direction.1 ^ 2 + s.direction.2 ^ 2) := by
  unfold orient InterSide.point
  rw [h.normal]
  ring

theorem orient_across (s : InterSide) (h : s.Proper) (a b n al nc : ℚ) :
    orient (s.point b n) (s.point a n) (s.point al nc) =
    (b - a) * (nc - n) * (s.direction.1 ^ 2 + s.direction.2 ^ 2) := by
  unfold orient InterSide.point
  rw [h.normal]
  ring

theorem strip_coords (s : InterSide) (h : s.Proper) (z : ℝ × ℝ) : ∃ al nc : ℝ,
    z = ((al + s.originOffset) * s.direction.1 + nc * s.normal.1, (al + s.originOffset) * s.direction.2 + nc * s.normal.2) := by
  have hp : (0 : ℝ) < (s.direction.1 : ℝ) ^ 2 + (s.direction.2 : ℝ) ^ 2 := by exact_mod_cast dir_sq_pos h.dir
  refine ⟨(s.direction.1 * z.1 + s.direction.2 * z.2) / ((s.direction.1 : ℝ) ^ 2 + (s.direction.2 : ℝ) ^ 2) - s.originOffset,
    (s.direction.2 * z.1 - s.direction.1 * z.2) / ((s.direction.1 : ℝ) ^ 2 + (s.direction.2 : ℝ) ^ 2), ?_⟩
  rw [h.normal]
  push_cast
  ext <;> dsimp only <;> field_simp <;> ring

theorem fingers_bounded (ch : Choices) (s : InterSide) (h : s.Proper) (w : Geom1D) (hw : w.Made) (r : Geom2D)
    (hr : s.makeFingers (arrangementOp ch) w 0 1 = .ok r) : Bornology.IsBounded (pointsOf w.intervals) := by
  by_contra hb
  rw [c37_refuses _ s h 0 1 one_pos w hw hb] at hr
  cases hr

/-- C37: in the real plane the fingers are, but for a null set, the part of the joint side at the given places. -/
theorem c37_area (ch : Choices) (hch : ch.Valid) (s : InterSide) (h : s.Proper) (w : Geom1D) (hw : w.Made) (r : Geom2D)
    (hr : s.makeFingers (arrangementOp ch) w 0 1 = .ok r) :
    ∀ᵐ z : ℝ × ℝ, z ∈ r.region ↔ z ∈ s.strip (pointsOf w.intervals) := by
  have hb := fingers_bounded ch s h w hw r hr
  obtain ⟨r', hr', hfine, hloc, -⟩ := c37_fingers ch hch s h 0 1 one_pos w hw hb
  rw [hr] at hr'
  cases hr'
  obtain ⟨ivs, hi⟩ := bounded_fin w hw hb
  have hlt : ∀ e ∈ ivs, e.1 < e.2 := by
    intro e he
    have hnf := hw.nf.1
    rw [hi] at hnf
    exact Ext.fin_lt_fin.1 (hnf _ (List.mem_map_of_mem (f := fun e : ℚ × ℚ => (Ext.fin e.1, Ext.fin e.2)) he))
  have hp : (0 : ℚ) < s.direction.1 ^ 2 + s.direction.2 ^ 2 := dir_sq_pos h.dir
  have hpR : (0 : ℝ) < (s.direction.1 : ℝ) ^ 2 + (s.direction.2 : ℝ) ^ 2 := by exact_mod_cast hp
  have hwd := h.width
  have hwdR : (s.minNormalOffset : ℝ) < s.maxNormalOffset := by exact_mod_cast hwd
  have a0 : s.acrossAt 0 = s.minNormalOffset := by unfold InterSide.acrossAt; ring
  have a1 : s.acrossAt 1 = s.maxNormalOffset := by unfold InterSide.acrossAt; ring
  rw [a0, a1] at hloc
  set n0 := s.minNormalOffset
  set n1 := s.maxNormalOffset
  have hloc' : ∀ al nc, Geom2D.locate r (s.point al nc) = .ok 1 ↔ (∃ e ∈ ivs, e.1 < al ∧ al < e.2) ∧ n0 < nc ∧ nc < n1 := by
    intro al nc
    rw [hloc, hi]
    simp only [List.mem_map, exists_exists_and_eq_and, Ext.fin_lt_fin]
  have hpts : ∀ x : ℝ, x ∈ pointsOf w.intervals ↔ ∃ e ∈ ivs, (e.1 : ℝ) ≤ x ∧ x < e.2 := by
    intro x
    unfold pointsOf
    rw [hi]
    simp only [List.mem_map, exists_exists_and_eq_and, mem_ofPred_eq, icoSet_fin]
  set fr : ℚ × ℚ → List Seg := fun e => [(s.point e.1 n0, s.point e.1 n1), (s.point e.2 n0, s.point e.2 n1),
    (s.point e.2 n0, s.point e.1 n0), (s.point e.2 n1, s.point e.1 n1)] with hfr
  have hE : ∀ e ∈ r.allSegments ++ ivs.flatMap fr, e.1 ≠ e.2 := by
    intro e he
    rcases List.mem_append.1 he with he | he
    · exact Arr.segments_ne [r] (by intro g hg; rw [List.mem_singleton.1 hg]; exact hfine.proper.made) e (by simpa using he)
    · obtain ⟨i, hi', he⟩ := List.mem_flatMap.1 he
      have := hlt i hi'
      have o0 : ∀ a p : Pt, orient a a p = 0 := by intro a p; unfold orient; ring
      have k1 : ∀ a, s.point a n0 ≠ s.point a n1 := by
        intro a hc
        have := orient_along s h a n0 n1 (a + 1) 0
        rw [← hc, o0] at this
        have : 0 < (n1 - n0) * (a + 1 - a) * (s.direction.1 ^ 2 + s.direction.2 ^ 2) := by
          refine mul_pos (mul_pos (sub_pos.2 hwd) (by linarith)) hp
        linarith
      have k2 : ∀ n, s.point i.2 n ≠ s.point i.1 n := by
        intro n hc
        have := orient_across s h i.1 i.2 n 0 (n + 1)
        rw [← hc, o0] at this
        have : 0 < (i.2 - i.1) * (n + 1 - n) * (s.direction.1 ^ 2 + s.direction.2 ^ 2) := by
          refine mul_pos (mul_pos (by linarith) (by linarith)) hp
        linarith
      rw [hfr] at he
      simp only [List.mem_cons, List.not_mem_nil, or_false] at he
      rcases he with rfl | rfl | rfl | rfl
      · exact k1 _
      · exact k1 _
      · exact k2 _
      · exact k2 _
  filter_upwards [generic_sides _ hE] with z hz
  obtain ⟨p, hN, hs⟩ := hz
  rw [hN.region hfine.proper.made fun e he => List.mem_append_left _ he]
  obtain ⟨alp, ncp, rfl⟩ := point_surjective s h p
  rw [hloc']
  have key : ∀ al nc : ℝ,
      z = ((al + s.originOffset) * s.direction.1 + nc * s.normal.1, (al + s.originOffset) * s.direction.2 + nc * s.normal.2) →
      ∀ e ∈ ivs, (al ≠ e.1 ∧ (e.1 < alp ↔ (e.1 : ℝ) < al)) ∧ (al ≠ e.2 ∧ (e.2 < alp ↔ (e.2 : ℝ) < al)) ∧
        (nc ≠ n0 ∧ (n0 < ncp ↔ (n0 : ℝ) < nc)) ∧ (nc ≠ n1 ∧ (n1 < ncp ↔ (n1 : ℝ) < nc)) ∧ alp ≠ e.2 ∧ ncp ≠ n1 := by
    rintro al nc rfl e he
    have hle := hlt e he
    have hleR : (e.1 : ℝ) < e.2 := by exact_mod_cast hle
    have hm : ∀ x ∈ fr e, x ∈ r.allSegments ++ ivs.flatMap fr := fun x hx =>
      List.mem_append_right _ (List.mem_flatMap.2 ⟨e, he, hx⟩)
    have sg : ∀ {c d x : ℝ}, 0 < c → 0 < d → (c * x * d ≠ 0 → x ≠ 0) ∧ (0 < c * x * d ↔ 0 < x) := by
      intro c d x hc hd
      refine ⟨fun hne h0 => hne (by rw [h0]; ring), ?_⟩
      rw [mul_pos_iff_of_pos_right hd, mul_pos_iff_of_pos_left hc]
    have sgQ : ∀ {c d x : ℚ}, 0 < c → 0 < d → (c * x * d ≠ 0 → x ≠ 0) ∧ (0 < c * x * d ↔ 0 < x) := by
      intro c d x hc hd
      refine ⟨fun hne h0 => hne (by rw [h0]; ring), ?_⟩
      rw [mul_pos_iff_of_pos_right hd, mul_pos_iff_of_pos_left hc]
    have e1 := hs _ (hm _ (by rw [hfr]; exact List.mem_cons_self))
    have e2 := hs _ (hm (s.point e.2 n0, s.point e.2 n1) (by rw [hfr]; simp))
    have e3 := hs _ (hm (s.point e.2 n0, s.point e.1 n0) (by rw [hfr]; simp))
    have e4 := hs _ (hm (s.point e.2 n1, s.point e.1 n1) (by rw [hfr]; simp))
    have m2 := (hN _ (hm (s.point e.2 n0, s.point e.2 n1) (by rw [hfr]; simp))).2
    have m4 := (hN _ (hm (s.point e.2 n1, s.point e.1 n1) (by rw [hfr]; simp))).2
    dsimp only at e1 e2 e3 e4 m2 m4
    rw [orientR_along s h, orient_along s h, (sg (sub_pos.2 hwdR) hpR).2, (sgQ (sub_pos.2 hwd) hp).2] at e1 e2
    rw [orientR_across s h, orient_across s h, (sg (sub_pos.2 hleR) hpR).2, (sgQ (sub_pos.2 hle) hp).2] at e3 e4
    rw [orient_along s h] at m2
    rw [orient_across s h] at m4
    rw [sub_pos, sub_pos] at e1 e2 e3 e4
    refine ⟨⟨sub_ne_zero.1 ((sg (sub_pos.2 hwdR) hpR).1 e1.1), e1.2⟩, ⟨sub_ne_zero.1 ((sg (sub_pos.2 hwdR) hpR).1 e2.1), e2.2⟩,
      ⟨sub_ne_zero.1 ((sg (sub_pos.2 hleR) hpR).1 e3.1), e3.2⟩, ⟨sub_ne_zero.1 ((sg (sub_pos.2 hleR) hpR).1 e4.1), e4.2⟩,
      sub_ne_zero.1 ((sgQ (sub_pos.2 hwd) hp).1 m2), sub_ne_zero.1 ((sgQ (sub_pos.2 hle) hp).1 m4)⟩
  constructor
  · rintro ⟨⟨e, he, h1, h2⟩, h3, h4⟩
    obtain ⟨al, nc, hzc⟩ := strip_coords s h z
    obtain ⟨k1, k2, k3, k4, -, -⟩ := key al nc hzc e he
    refine ⟨al, nc, (hpts al).2 ⟨e, he, (k1.2.1 h1).le, ?_⟩, (k3.2.1 h3).le, ?_, hzc⟩
    · exact lt_of_le_of_ne (not_lt.1 fun hc => absurd (k2.2.2 hc) (not_lt.2 h2.le)) k2.1
    · exact not_lt.1 fun hc => absurd (k4.2.2 hc) (not_lt.2 h4.le)
  · rintro ⟨al, nc, hv, h3, h4, hzc⟩
    obtain ⟨e, he, h1, h2⟩ := (hpts al).1 hv
    obtain ⟨k1, k2, k3, k4, k5, k6⟩ := key al nc hzc e he
    refine ⟨⟨e, he, k1.2.2 (lt_of_le_of_ne h1 (Ne.symm k1.1)), ?_⟩, k3.2.2 (lt_of_le_of_ne h3 (Ne.symm k3.1)), ?_⟩
    · exact lt_of_le_of_ne (not_lt.1 fun hc => absurd (k2.2.1 hc) (not_lt.2 h2.le)) k5
    · exact lt_of_le_of_ne (not_lt.1 fun hc => absurd (k4.2.1 hc) (not_lt.2 h4)) k6

/-- The linear part of the joint coordinates. -/
noncomputable def InterSide.lin (s : InterSide) : ℝ × ℝ →ₗ[ℝ] ℝ × ℝ :=
  Matrix.toLin (Module.Basis.finTwoProd ℝ) (Module.Basis.finTwoProd ℝ)
    !![(s.direction.1 : ℝ), (s.normal.1 : ℝ); (s.direction.2 : ℝ), (s.normal.2 : ℝ)]

/-- The area of a part of a joint side is its width times its length. -/
theorem strip_volume (s : InterSide) (h : s.Proper) (V : Set ℝ) :
    volume (s.strip V) = ENNReal.ofReal (((s.direction.1 : ℝ) ^ 2 + (s.direction.2 : ℝ) ^ 2) *
      (s.maxNormalOffset - s.minNormalOffset)) * volume V := by
  have e : s.strip V = (fun z => ((s.originOffset * s.direction.1 : ℝ), (s.originOffset * s.direction.2 : ℝ)) + z) ''
      (s.lin '' (V ×ˢ Icc (s.minNormalOffset : ℝ) s.maxNormalOffset)) := by
    ext z
    rw [image_image]
    constructor
    · rintro ⟨al, nc, hv, h1, h2, rfl⟩
      refine ⟨(al, nc), ⟨hv, h1, h2⟩, ?_⟩
      simp only [InterSide.lin, Matrix.toLin_finTwoProd_apply, Prod.mk_add_mk]
      ext <;> dsimp only <;> ring
    · rintro ⟨⟨al, nc⟩, ⟨hv, h1, h2⟩, rfl⟩
      refine ⟨al, nc, hv, h1, h2, ?_⟩
      simp only [InterSide.lin, Matrix.toLin_finTwoProd_apply, Prod.mk_add_mk]
      ext <;> dsimp only <;> ring
  have hp : (0 : ℝ) < (s.direction.1 : ℝ) ^ 2 + (s.direction.2 : ℝ) ^ 2 := by exact_mod_cast dir_sq_pos h.dir
  have hd : |LinearMap.det s.lin| = (s.direction.1 : ℝ) ^ 2 + (s.direction.2 : ℝ) ^ 2 := by
    unfold InterSide.lin
    rw [LinearMap.det_toLin, Matrix.det_fin_two_of, h.normal]
    push_cast
    rw [show (s.direction.1 : ℝ) * -s.direction.1 - s.direction.2 * s.direction.2 =
      -((s.direction.1 : ℝ) ^ 2 + (s.direction.2 : ℝ) ^ 2) by ring, abs_neg, abs_of_pos hp]
  have hH : (volume : Measure (ℝ × ℝ)).IsAddHaarMeasure := by
    rw [Measure.volume_eq_prod]
    exact Measure.prod.instIsAddHaarMeasure volume volume
  rw [e, image_add_left, measure_preimage_add, Measure.addHaar_image_linearMap, hd, Measure.volume_eq_prod,
    Measure.prod_prod, Real.volume_Icc, ENNReal.ofReal_mul hp.le]
  ring
/-- C37: the area of the fingers is the width of the joint side times the length along the joint. -/
theorem c37_measure (ch : Choices) (hch : ch.Valid) (s : InterSide) (h : s.Proper) (w : Geom1D) (hw : w.Made) (r : Geom2D)
    (hr : s.makeFingers (arrangementOp ch) w 0 1 = .ok r) (q : ℚ) (hq : Geom2D.area r = .ok q) :
    ENNReal.ofReal (q : ℝ) = ENNReal.ofReal (((s.direction.1 : ℝ) ^ 2 + (s.direction.2 : ℝ) ^ 2) *
      (s.maxNormalOffset - s.minNormalOffset)) * volume (pointsOf w.intervals) := by
  obtain ⟨r', hr', hfine, -⟩ := c37_fingers ch hch s h 0 1 one_pos w hw (fingers_bounded ch s h w hw r hr)
  rw [hr] at hr'
  cases hr'
  rw [← (proper_area r hfine.proper q hq).1, ← strip_volume s h]
  refine measure_congr ?_
  filter_upwards [c37_area ch hch s h w hw r hr] with z hz
  exact propext hz

end Ply
