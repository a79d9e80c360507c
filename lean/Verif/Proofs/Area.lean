import Mathlib.MeasureTheory.Measure.Lebesgue.Integral
import Mathlib.MeasureTheory.Integral.Bochner.Set
import Mathlib.Analysis.SpecialFunctions.Integrals.Basic
import Verif.Proofs.ArrProper
import Verif.Spec.RealPlane

/-!
# Areas are Lebesgue measures
-/

namespace Ply

open MeasureTheory Set Filter

theorem orientR_toR (a b p : Pt) : orientR a b (toR p) = ((orient a b p : ℚ) : ℝ) := by
  unfold orientR orient toR; push_cast; ring

theorem crossingR_toR (p a b : Pt) : crossingR (toR p) a b = crossing p a b := by
  unfold crossingR crossing
  rw [orientR_toR]
  unfold toR
  simp only [Rat.cast_le, Rat.cast_lt, Rat.cast_pos, Rat.cast_lt_zero]

theorem windingR_toR (poly : List Pt) (p : Pt) : windingR poly (toR p) = windingNumber poly p := by
  unfold windingR windingNumber
  simp only [crossingR_toR]

/-! ### Generic points -/

theorem line_null (α β γ : ℝ) (h : α ≠ 0 ∨ β ≠ 0) : ∀ᵐ z : ℝ × ℝ, α * z.1 + β * z.2 ≠ γ := by
  have hm : MeasurableSet {z : ℝ × ℝ | α * z.1 + β * z.2 = γ} := by
    apply measurableSet_eq_fun <;> fun_prop
  rw [ae_iff]
  simp only [not_not]
  rw [Measure.volume_eq_prod, Measure.measure_prod_null hm]
  by_cases hb : β = 0
  · have ha : α ≠ 0 := by tauto
    have : ∀ᵐ x : ℝ, x ≠ γ / α := by simp [ae_iff]
    filter_upwards [this] with x hx
    have : Prod.mk x ⁻¹' {z : ℝ × ℝ | α * z.1 + β * z.2 = γ} = ∅ := by
      ext y
      simp only [mem_preimage, mem_ofPred_eq, mem_empty_iff_false, iff_false, hb]
      intro hc
      apply hx
      field_simp
      linarith
    rw [this]; simp
  · filter_upwards with x
    have : Prod.mk x ⁻¹' {z : ℝ × ℝ | α * z.1 + β * z.2 = γ} ⊆ {(γ - α * x) / β} := by
      intro y hy
      simp only [mem_preimage, mem_ofPred_eq] at hy
      rw [mem_singleton_iff, eq_div_iff hb]
      linarith
    exact measure_mono_null this (by simp)

/-- Almost every point is off the horizontal lines through the end points and off the line of an edge. -/
theorem generic_edge (e : Seg) (h : e.1 ≠ e.2) :
    ∀ᵐ z : ℝ × ℝ, z.2 ≠ e.1.2 ∧ z.2 ≠ e.2.2 ∧ orientR e.1 e.2 z ≠ 0 := by
  have h1 := line_null 0 1 e.1.2 (by simp)
  have h2 := line_null 0 1 e.2.2 (by simp)
  have h3 := line_null (-((e.2.2 : ℝ) - e.1.2)) ((e.2.1 : ℝ) - e.1.1)
    (((e.2.1 : ℝ) - e.1.1) * e.1.2 - ((e.2.2 : ℝ) - e.1.2) * e.1.1) (by
      by_contra hc
      push Not at hc
      apply h
      refine Prod.ext ?_ ?_
      · have : (e.2.1 : ℝ) = e.1.1 := by linarith [hc.2]
        exact_mod_cast this.symm
      · have : (e.2.2 : ℝ) = e.1.2 := by linarith [hc.1]
        exact_mod_cast this.symm)
  filter_upwards [h1, h2, h3] with z a b c
  refine ⟨by simpa using a, by simpa using b, fun hc => c ?_⟩
  unfold orientR at hc
  linarith

/-- Close to such a point the crossing does not change. -/
theorem crossingR_near (e : Seg) (z : ℝ × ℝ) (h : z.2 ≠ e.1.2 ∧ z.2 ≠ e.2.2 ∧ orientR e.1 e.2 z ≠ 0) :
    ∀ᶠ w in nhds z, crossingR w e.1 e.2 = crossingR z e.1 e.2 ∧ orientR e.1 e.2 w ≠ 0 := by
  have c2 : Continuous fun w : ℝ × ℝ => w.2 := continuous_snd
  have co : Continuous fun w : ℝ × ℝ => orientR e.1 e.2 w := by unfold orientR; fun_prop
  have sgn : ∀ (f : ℝ × ℝ → ℝ) (k : ℝ), Continuous f → f z ≠ k →
      ∀ᶠ w in nhds z, (f w < k ↔ f z < k) ∧ (k < f w ↔ k < f z) ∧ (k ≤ f w ↔ k ≤ f z) ∧ f w ≠ k := by
    intro f k hf hne
    rcases lt_or_gt_of_ne hne with hl | hl
    · filter_upwards [hf.continuousAt.eventually_lt continuousAt_const hl] with w hw
      refine ⟨by simp [hw, hl], by simp [not_lt.2 hw.le, not_lt.2 hl.le], by simp [not_le.2 hw, not_le.2 hl], hw.ne⟩
    · filter_upwards [continuousAt_const.eventually_lt hf.continuousAt hl] with w hw
      refine ⟨by simp [not_lt.2 hw.le, not_lt.2 hl.le], by simp [hw, hl], by simp [hw.le, hl.le], hw.ne'⟩
  filter_upwards [sgn _ _ c2 h.1, sgn _ _ c2 h.2.1, sgn _ _ co h.2.2] with w a b c
  refine ⟨?_, c.2.2.2⟩
  unfold crossingR
  simp only [a.1, a.2.2.1, b.1, b.2.2.1, c.1, c.2.1]

/-- Almost every point has a rational point close by with the same crossings, off the lines of the edges. -/
theorem generic_rational (E : List Seg) (hE : ∀ e ∈ E, e.1 ≠ e.2) :
    ∀ᵐ z : ℝ × ℝ, ∃ p : Pt, ∀ e ∈ E, crossing p e.1 e.2 = crossingR z e.1 e.2 ∧ orient e.1 e.2 p ≠ 0 := by
  have : ∀ᵐ z : ℝ × ℝ, ∀ e ∈ E, z.2 ≠ e.1.2 ∧ z.2 ≠ e.2.2 ∧ orientR e.1 e.2 z ≠ 0 := by
    induction E with
    | nil => simp
    | cons a E ih =>
      filter_upwards [generic_edge a (hE a List.mem_cons_self), ih fun e he => hE e (List.mem_cons_of_mem _ he)] with z h1 h2 e he
      rcases List.mem_cons.1 he with rfl | he
      · exact h1
      · exact h2 e he
  filter_upwards [this] with z hz
  have ev : ∀ᶠ w in nhds z, ∀ e ∈ E, crossingR w e.1 e.2 = crossingR z e.1 e.2 ∧ orientR e.1 e.2 w ≠ 0 := by
    clear this hE
    induction E with
    | nil => simp
    | cons a E ih =>
      filter_upwards [crossingR_near a z (hz a List.mem_cons_self), ih fun e he => hz e (List.mem_cons_of_mem _ he)] with w h1 h2 e he
      rcases List.mem_cons.1 he with rfl | he
      · exact h1
      · exact h2 e he
  have hd : Dense (range toR) := by
    have : range toR = (range ((↑) : ℚ → ℝ)) ×ˢ (range ((↑) : ℚ → ℝ)) := by
      ext z
      simp only [mem_range, mem_prod, toR]
      constructor
      · rintro ⟨p, rfl⟩; exact ⟨⟨p.1, rfl⟩, ⟨p.2, rfl⟩⟩
      · rintro ⟨⟨a, ha⟩, ⟨b, hb⟩⟩; exact ⟨(a, b), Prod.ext ha hb⟩
    rw [this]
    exact Rat.denseRange_cast.prod Rat.denseRange_cast
  obtain ⟨w, ⟨p, rfl⟩, hw⟩ := (mem_closure_iff_frequently.1 (hd z)).and_eventually ev |>.exists
  refine ⟨p, fun e he => ?_⟩
  obtain ⟨h1, h2⟩ := hw e he
  rw [crossingR_toR] at h1
  rw [orientR_toR] at h2
  exact ⟨h1, by exact_mod_cast h2⟩

/-! ### Trapezoids -/

/-- Points right of `m` on the left of the edge, at a height between its end points. -/
def trap (m : ℝ) (a b : Pt) : Set (ℝ × ℝ) := {z | m < z.1 ∧ crossingR z a b ≠ 0}

theorem crossingR_swap (z : ℝ × ℝ) (a b : Pt) : crossingR z b a = -crossingR z a b := by
  have ho : orientR b a z = -orientR a b z := by unfold orientR; ring
  unfold crossingR
  rw [ho]
  simp only [Left.neg_pos_iff, Left.neg_neg_iff]
  split_ifs with h1 h2 h2 <;> first | rfl | (exfalso; linarith [h1.1, h1.2.1, h2.1, h2.2.1])

theorem crossingR_up (z : ℝ × ℝ) (a b : Pt) (h : a.2 ≤ b.2) :
    crossingR z a b = if (a.2 : ℝ) ≤ z.2 ∧ z.2 < b.2 ∧ 0 < orientR a b z then 1 else 0 := by
  unfold crossingR
  split_ifs with h1 h2
  · rfl
  · have : (a.2 : ℝ) ≤ b.2 := by exact_mod_cast h
    linarith [h2.1, h2.2.1]
  · rfl

theorem trap_up (m : ℚ) (a b : Pt) (hab : a.2 < b.2) (ha : m ≤ a.1) (hb : m ≤ b.1) :
    MeasurableSet (trap m a b) ∧
      volume (trap m a b) = ENNReal.ofReal (((b.2 : ℝ) - a.2) * (((a.1 : ℝ) + b.1) / 2 - m)) := by
  have hab' : (a.2 : ℝ) < b.2 := by exact_mod_cast hab
  have ha' : (m : ℝ) ≤ a.1 := by exact_mod_cast ha
  have hb' : (m : ℝ) ≤ b.1 := by exact_mod_cast hb
  set D : ℝ := (b.2 : ℝ) - a.2 with hD
  have hD0 : 0 < D := by rw [hD]; linarith
  set k : ℝ := ((b.1 : ℝ) - a.1) / D with hk
  have hkD : k * D = (b.1 : ℝ) - a.1 := div_mul_cancel₀ _ hD0.ne'
  set f : ℝ → ℝ := fun y => a.1 + k * (y - a.2) with hf
  have hreg : trap m a b = Prod.swap ⁻¹' regionBetween (fun _ => (m : ℝ)) f (Ico (a.2 : ℝ) b.2) := by
    ext z
    unfold trap regionBetween
    rw [mem_ofPred_eq, crossingR_up z a b hab.le]
    simp only [mem_preimage, mem_ofPred_eq, Prod.fst_swap, Prod.snd_swap, mem_Ico, mem_Ioo, ne_eq, ite_eq_right_iff,
      one_ne_zero, imp_false, not_not]
    have : 0 < orientR a b z ↔ z.1 < f z.2 := by
      have : orientR a b z = D * (f z.2 - z.1) := by
        unfold orientR
        rw [hf]
        dsimp only
        linear_combination -(z.2 - a.2) * hkD
      rw [this]
      constructor
      · intro h; have := (mul_pos_iff_of_pos_left hD0).1 h; linarith
      · intro h; exact mul_pos hD0 (by linarith)
    rw [this]
    tauto
  have hfc : Continuous f := by rw [hf]; fun_prop
  have hms : MeasurableSet (regionBetween (fun _ => (m : ℝ)) f (Ico (a.2 : ℝ) b.2)) :=
    measurableSet_regionBetween measurable_const hfc.measurable measurableSet_Ico
  refine ⟨by rw [hreg]; exact measurable_swap hms, ?_⟩
  have hsw : MeasurePreserving (Prod.swap : ℝ × ℝ → ℝ × ℝ) volume volume := Measure.measurePreserving_swap
  rw [hreg, hsw.measure_preimage hms.nullMeasurableSet, Measure.volume_eq_prod, volume_regionBetween_eq_integral]
  · congr 1
    have e : ∫ y in Ico (a.2 : ℝ) b.2, (f - (fun _ => (m : ℝ) : ℝ → ℝ)) y = ∫ y in (a.2 : ℝ)..b.2, (f y - m) := by
      rw [intervalIntegral.integral_of_le hab'.le, ← integral_Ico_eq_integral_Ioc]
      rfl
    rw [e, hf]
    have : ∀ y : ℝ, (a.1 : ℝ) + k * (y - a.2) - m = (a.1 - k * a.2 - m) + k * y := fun y => by ring
    simp only [this]
    rw [intervalIntegral.integral_add (by simp) (by apply Continuous.intervalIntegrable; fun_prop),
      intervalIntegral.integral_const, intervalIntegral.integral_const_mul, integral_id, smul_eq_mul]
    linear_combination (((b.2 : ℝ) - a.2) / 2) * hkD
  · exact continuous_const.integrableOn_Icc.mono_set Ico_subset_Icc_self
  · exact hfc.integrableOn_Icc.mono_set Ico_subset_Icc_self
  · exact measurableSet_Ico
  · intro y hy
    rw [hf]
    dsimp only
    have h1 : 0 ≤ y - a.2 := by linarith [hy.1]
    have h2 : 0 ≤ b.2 - y := by linarith [hy.2]
    have : D * (a.1 + k * (y - a.2) - m) = (b.2 - y) * (a.1 - m) + (y - a.2) * (b.1 - m) := by
      rw [hD] at hkD ⊢
      linear_combination (y - a.2) * hkD
    have h3 : 0 ≤ D * (a.1 + k * (y - a.2) - m) := by
      rw [this]
      exact add_nonneg (mul_nonneg h2 (by linarith)) (mul_nonneg h1 (by linarith))
    have := nonneg_of_mul_nonneg_right h3 hD0
    linarith

/-- The crossing of an edge, right of `m`. -/
noncomputable def cut (m : ℝ) (e : Seg) (z : ℝ × ℝ) : ℝ := if m < z.1 then (crossingR z e.1 e.2 : ℝ) else 0

theorem cut_up (m : ℚ) (a b : Pt) (hab : a.2 < b.2) (ha : m ≤ a.1) (hb : m ≤ b.1) :
    Integrable (cut m (a, b)) ∧ ∫ z, cut m (a, b) z = ((b.2 : ℝ) - a.2) * (((a.1 : ℝ) + b.1) / 2 - m) := by
  obtain ⟨hms, hv⟩ := trap_up m a b hab ha hb
  have hpos : 0 ≤ ((b.2 : ℝ) - a.2) * (((a.1 : ℝ) + b.1) / 2 - m) := by
    have hab' : (a.2 : ℝ) < b.2 := by exact_mod_cast hab
    have ha' : (m : ℝ) ≤ a.1 := by exact_mod_cast ha
    have hb' : (m : ℝ) ≤ b.1 := by exact_mod_cast hb
    exact mul_nonneg (by linarith) (by linarith)
  have he : cut m (a, b) = (trap m a b).indicator fun _ => (1 : ℝ) := by
    funext z
    unfold cut trap indicator
    simp only [mem_ofPred_eq]
    rw [crossingR_up z a b hab.le]
    by_cases h1 : (m : ℝ) < z.1 <;>
      by_cases h2 : (a.2 : ℝ) ≤ z.2 ∧ z.2 < b.2 ∧ 0 < orientR a b z <;> simp [h1, h2]
  rw [he]
  constructor
  · rw [integrable_indicator_iff hms]
    exact integrableOn_const (by rw [hv]; exact ENNReal.ofReal_ne_top)
  · rw [integral_indicator hms, setIntegral_const, smul_eq_mul, mul_one, Measure.real, hv, ENNReal.toReal_ofReal hpos]

theorem cut_integral (m : ℚ) (e : Seg) (ha : m ≤ e.1.1) (hb : m ≤ e.2.1) :
    Integrable (cut m e) ∧ ∫ z, cut m e z = ((e.2.2 : ℝ) - e.1.2) * (((e.1.1 : ℝ) + e.2.1) / 2 - m) := by
  obtain ⟨a, b⟩ := e
  rcases lt_trichotomy a.2 b.2 with h | h | h
  · exact cut_up m a b h ha hb
  · have : cut m (a, b) = fun _ => 0 := by
      funext z
      unfold cut
      have : crossingR z a b = 0 := by
        rw [crossingR_up z a b h.le, if_neg]
        rw [h]; intro hc; linarith [hc.1, hc.2.1]
      dsimp only
      rw [this]; simp
    rw [this]
    dsimp only
    rw [h]
    simp
  · obtain ⟨h1, h2⟩ := cut_up m b a h hb ha
    have : cut m (a, b) = fun z => -cut m (b, a) z := by
      funext z
      unfold cut
      dsimp only
      rw [crossingR_swap z b a]
      split_ifs <;> simp
    rw [this]
    refine ⟨h1.neg, ?_⟩
    rw [integral_neg, h2]
    dsimp only
    ring

/-- The winding number, right of `m`. -/
noncomputable def cutW (m : ℝ) (l : List Pt) (z : ℝ × ℝ) : ℝ := if m < z.1 then (windingR l z : ℝ) else 0

theorem cutW_eq (m : ℝ) (l : List Pt) (z : ℝ × ℝ) : cutW m l z = ((polyEdges l).map fun e => cut m e z).sum := by
  unfold cutW cut windingR
  generalize polyEdges l = E
  induction E with
  | nil => simp
  | cons e E ih =>
    rw [List.map_cons, List.map_cons, List.sum_cons, List.sum_cons, ← ih]
    split_ifs <;> simp

theorem cutW_integral (m : ℚ) (l : List Pt) (h : ∀ v ∈ l, m ≤ v.1) :
    Integrable (cutW m l) ∧ ∫ z, cutW m l z = ((shoelace l : ℚ) : ℝ) := by
  have hE : ∀ e ∈ polyEdges l, m ≤ e.1.1 ∧ m ≤ e.2.1 := fun e he =>
    ⟨h _ (polyEdges_mem he).1, h _ (polyEdges_mem he).2⟩
  have hW : cutW m l = fun z => ((polyEdges l).map fun e => cut m e z).sum := by
    funext z; exact cutW_eq m l z
  have key : ∀ E : List Seg, (∀ e ∈ E, m ≤ e.1.1 ∧ m ≤ e.2.1) →
      Integrable (fun z => (E.map fun e => cut m e z).sum) ∧
      ∫ z, (E.map fun e => cut m e z).sum =
        (E.map fun e => ((e.2.2 : ℝ) - e.1.2) * (((e.1.1 : ℝ) + e.2.1) / 2 - m)).sum := by
    intro E
    induction E with
    | nil => simp
    | cons e E ih =>
      intro hE
      obtain ⟨i1, i2⟩ := ih fun e he => hE e (List.mem_cons_of_mem _ he)
      obtain ⟨c1, c2⟩ := cut_integral m e (hE e List.mem_cons_self).1 (hE e List.mem_cons_self).2
      simp only [List.map_cons, List.sum_cons]
      refine ⟨c1.add i1, ?_⟩
      rw [integral_add c1 i1, i2, c2]
  obtain ⟨k1, k2⟩ := key _ hE
  rw [hW]
  refine ⟨k1, k2.trans ?_⟩
  have t := polyEdges_telescope (fun v : Pt => (v.1 : ℝ) * v.2 / 2 - m * v.2) l
  unfold shoelace
  generalize polyEdges l = E at t
  have : ∀ E : List Seg, (E.map fun e => ((e.2.2 : ℝ) - e.1.2) * (((e.1.1 : ℝ) + e.2.1) / 2 - m)).sum =
      (((E.map fun e => cross e.1 e.2).sum / 2 : ℚ) : ℝ) +
      (E.map fun e => ((e.2.1 : ℝ) * e.2.2 / 2 - m * e.2.2) - ((e.1.1 : ℝ) * e.1.2 / 2 - m * e.1.2)).sum := by
    intro E
    induction E with
    | nil => simp
    | cons e E ih =>
      simp only [List.map_cons, List.sum_cons, ih]
      unfold cross
      push_cast
      ring
  rw [this, t, add_zero]

theorem windingR_left (l : List Pt) (z : ℝ × ℝ) (h : ∀ v ∈ l, z.1 < v.1) : windingR l z = 0 := by
  classical
  unfold windingR
  have t := polyEdges_telescope (fun v : Pt => -(if (v.2 : ℝ) ≤ z.2 then (1 : ℤ) else 0)) l
  rw [← t]
  congr 1
  refine List.map_congr_left fun e he => ?_
  have h1 := h _ (polyEdges_mem he).1
  have h2 := h _ (polyEdges_mem he).2
  unfold crossingR orientR
  by_cases c1 : (e.1.2 : ℝ) ≤ z.2 <;> by_cases c2 : (e.2.2 : ℝ) ≤ z.2
  · rw [if_neg (fun hc => absurd hc.2.1 (not_lt.2 c2)), if_neg (fun hc => absurd hc.2.1 (not_lt.2 c1))]
    simp [c1, c2]
  · rw [if_pos ⟨c1, not_le.1 c2, by nlinarith [not_le.1 c2]⟩]
    simp [c1, c2]
  · rw [if_neg (fun hc => c1 hc.1), if_pos ⟨c2, not_le.1 c1, by nlinarith [not_le.1 c1]⟩]
    simp [c1, c2]
  · rw [if_neg (fun hc => c1 hc.1), if_neg (fun hc => c2 hc.1)]
    simp [c1, c2]

/-! ### Regions -/

/-- The points of the real plane inside a geom. -/
def Geom2D.region (g : Geom2D) : Set (ℝ × ℝ) := {z | ∃ s ∈ g, z ∈ regionR s.outer s.holes}

theorem measurable_windingR (l : List Pt) : Measurable (windingR l) := by
  have hc : ∀ a b : Pt, Measurable fun z => crossingR z a b := by
    intro a b
    have ho : Measurable fun z : ℝ × ℝ => orientR a b z := by unfold orientR; fun_prop
    unfold crossingR
    refine Measurable.ite ?_ measurable_const (Measurable.ite ?_ measurable_const measurable_const)
    · exact (measurableSet_le measurable_const measurable_snd).inter
        ((measurableSet_lt measurable_snd measurable_const).inter (measurableSet_lt measurable_const ho))
    · exact (measurableSet_le measurable_const measurable_snd).inter
        ((measurableSet_lt measurable_snd measurable_const).inter (measurableSet_lt ho measurable_const))
  unfold windingR
  generalize polyEdges l = E
  induction E with
  | nil => simp
  | cons e E ih =>
    simp only [List.map_cons, List.sum_cons]
    exact (hc _ _).add ih

theorem measurableSet_region (g : Geom2D) : MeasurableSet g.region := by
  have h1 : ∀ s : SPWH, MeasurableSet (regionR s.outer s.holes) := by
    intro s
    have : regionR s.outer s.holes = (windingR s.outer ⁻¹' {0}ᶜ) ∩ {z | ∀ h ∈ s.holes, windingR h z = 0} := by
      ext z; simp [regionR]
    rw [this]
    refine MeasurableSet.inter (measurable_windingR _ (MeasurableSet.of_discrete)) ?_
    generalize s.holes = L
    induction L with
    | nil => simp
    | cons h L ih =>
      have : {z | ∀ k ∈ h :: L, windingR k z = 0} = (windingR h ⁻¹' {0}) ∩ {z | ∀ k ∈ L, windingR k z = 0} := by
        ext z; simp
      rw [this]
      exact MeasurableSet.inter (measurable_windingR _ (MeasurableSet.of_discrete)) ih
  unfold Geom2D.region
  induction g with
  | nil => simp
  | cons s g ih =>
    have : {z | ∃ t ∈ s :: g, z ∈ regionR t.outer t.holes} = regionR s.outer s.holes ∪ {z | ∃ t ∈ g, z ∈ regionR t.outer t.holes} := by
      ext z; simp
    rw [this]
    exact (h1 s).union ih

theorem mem_edges {g : Geom2D} {s : SPWH} (hs : s ∈ g) :
    (∀ e ∈ polyEdges s.outer, e ∈ g.allSegments) ∧ ∀ h ∈ s.holes, ∀ e ∈ polyEdges h, e ∈ g.allSegments := by
  unfold Geom2D.allSegments SPWH.segments
  refine ⟨fun e he => List.mem_flatMap.2 ⟨s, hs, List.mem_append_left _ (by rw [edgesIter_eq]; exact he)⟩,
    fun h hh e he => List.mem_flatMap.2 ⟨s, hs, List.mem_append_right _ (List.mem_flatMap.2 ⟨h, hh, ?_⟩)⟩⟩
  rw [edgesIter_eq]; exact he

/-- The point of the real plane and the rational point are on the same side of all edges. -/
def Near (E : List Seg) (z : ℝ × ℝ) (p : Pt) : Prop :=
  ∀ e ∈ E, crossing p e.1 e.2 = crossingR z e.1 e.2 ∧ orient e.1 e.2 p ≠ 0

theorem Near.off {E : List Seg} {z : ℝ × ℝ} {p : Pt} (h : Near E z p) : ¬ OnAny E p := by
  rintro ⟨e, he, t, _, _, rfl⟩
  apply (h e he).2
  unfold orient along; ring

theorem Near.winding {E : List Seg} {z : ℝ × ℝ} {p : Pt} (h : Near E z p) {l : List Pt} (hl : ∀ e ∈ polyEdges l, e ∈ E) :
    windingR l z = windingNumber l p := by
  unfold windingR windingNumber
  congr 1
  exact List.map_congr_left fun e he => (h e (hl e he)).1.symm

theorem Near.region {E : List Seg} {z : ℝ × ℝ} {p : Pt} (h : Near E z p) {g : Geom2D} (hg : g.WellMade)
    (hE : ∀ e ∈ g.allSegments, e ∈ E) : z ∈ g.region ↔ Geom2D.locate g p = .ok 1 := by
  obtain ⟨v, e1, e2, _⟩ := c31_locate g hg p
  rw [e1, Except.ok.injEq, e2]
  unfold Geom2D.region regionR InRegion InPoly OutPoly
  simp only [mem_ofPred_eq]
  refine exists_congr fun s => and_congr_right fun hs => ?_
  obtain ⟨m1, m2⟩ := mem_edges hs
  have off : ∀ l, (∀ e ∈ polyEdges l, e ∈ g.allSegments) → ¬ OnBoundary l p := by
    rintro l hl ⟨e, he, ho⟩
    exact h.off ⟨e, hE e (hl e he), ho⟩
  refine and_congr ?_ (forall₂_congr fun k hk => ?_)
  · rw [h.winding fun e he => hE e (m1 e he)]
    simp only [off _ m1, not_false_iff, true_and]
  · rw [h.winding fun e he => hE e (m2 k hk e he)]
    simp only [off _ (m2 k hk), not_false_iff, true_and]

/-- Almost every point of the real plane has a rational point on the same side of all edges. -/
theorem near_ae (gs : List Geom2D) (hg : ∀ g ∈ gs, Geom2D.WellMade g) :
    ∀ᵐ z : ℝ × ℝ, ∃ p, Near (gs.flatMap Geom2D.allSegments) z p :=
  generic_rational _ (Arr.segments_ne gs hg)

/-- The area of a geom whose polygons do not overlap is the Lebesgue measure of its points. -/
theorem proper_area (g : Geom2D) (hg : g.Proper) (q : ℚ) (hq : Geom2D.area g = .ok q) :
    volume g.region = ENNReal.ofReal (q : ℝ) ∧ 0 ≤ q := by
  classical
  rw [c31_area g hg.made, Except.ok.injEq] at hq
  obtain ⟨m, hm⟩ : ∃ m : ℚ, ∀ e ∈ g.allSegments, m < e.1.1 := by
    generalize g.allSegments = E
    induction E with
    | nil => exact ⟨0, by simp⟩
    | cons a E ih =>
      obtain ⟨m, hm⟩ := ih
      refine ⟨min m (a.1.1 - 1), fun e he => ?_⟩
      rcases List.mem_cons.1 he with rfl | he
      · exact min_lt_of_right_lt (by linarith)
      · exact min_lt_of_left_lt (hm e he)
  have hv : ∀ s ∈ g, (∀ v ∈ s.outer, m < v.1) ∧ ∀ h ∈ s.holes, ∀ v ∈ h, m < v.1 := by
    intro s hs
    obtain ⟨m1, m2⟩ := mem_edges hs
    refine ⟨fun v hv => ?_, fun h hh v hv => ?_⟩
    · obtain ⟨e, he, rfl⟩ := polyEdges_fst hv; exact hm e (m1 e he)
    · obtain ⟨e, he, rfl⟩ := polyEdges_fst hv; exact hm e (m2 h hh e he)
  -- the sum of all winding numbers
  set F : ℝ × ℝ → ℝ := fun z => g.signed fun l => cutW m l z with hF
  have hFint : Integrable F ∧ ∫ z, F z = ((g.map fun s => regionArea s.outer s.holes).sum : ℚ) := by
    rw [hF]
    clear hF F hm hq hg
    unfold Geom2D.signed
    induction g with
    | nil => simp
    | cons s g ih =>
      obtain ⟨i1, i2⟩ := ih fun s hs => hv s (List.mem_cons_of_mem _ hs)
      obtain ⟨v1, v2⟩ := hv s List.mem_cons_self
      obtain ⟨o1, o2⟩ := cutW_integral m s.outer fun v hv => (v1 v hv).le
      have hh : Integrable (fun z => (s.holes.map fun l => cutW m l z).sum) ∧
          ∫ z, (s.holes.map fun l => cutW m l z).sum = ((s.holes.map shoelace).sum : ℚ) := by
        generalize s.holes = L at v2
        induction L with
        | nil => simp
        | cons h L ih =>
          obtain ⟨j1, j2⟩ := ih fun h hh => v2 h (List.mem_cons_of_mem _ hh)
          obtain ⟨k1, k2⟩ := cutW_integral m h fun v hv => (v2 h List.mem_cons_self v hv).le
          simp only [List.map_cons, List.sum_cons]
          refine ⟨k1.add j1, ?_⟩
          rw [integral_add k1 j1, k2, j2]
          push_cast
          rfl
      simp only [List.map_cons, List.sum_cons]
      refine ⟨(hh.1.sub o1).add i1, ?_⟩
      refine (integral_add (hh.1.sub o1) i1).trans ?_
      have e : ∫ z, ((fun z => (s.holes.map fun l => cutW m l z).sum) - cutW m s.outer) z =
          ((s.holes.map shoelace).sum : ℚ) - ((shoelace s.outer : ℚ) : ℝ) := by
        rw [← hh.2, ← o2]; exact integral_sub hh.1 o1
      rw [e, i2]
      unfold regionArea
      have : (s.holes.map fun h => -shoelace h).sum = -(s.holes.map shoelace).sum := by
        generalize s.holes = L
        induction L with
        | nil => simp
        | cons h L ih => simp only [List.map_cons, List.sum_cons, ih]; ring
      rw [this]
      push_cast
      ring
  have hae : F =ᵐ[volume] g.region.indicator fun _ => 1 := by
    have := near_ae [g] (by intro x hx; rw [List.mem_singleton] at hx; rw [hx]; exact hg.made)
    filter_upwards [this] with z hz
    obtain ⟨p, hp⟩ := hz
    have hp' : Near g.allSegments z p := by simpa using hp
    rw [hF]
    by_cases hx : (m : ℝ) < z.1
    · have e1 : (g.signed fun l => cutW m l z) = ((g.windSum p : ℤ) : ℝ) := by
        have e2 : (g.signed fun l => cutW m l z) = g.signed fun l => ((windingNumber l p : ℤ) : ℝ) := by
          refine Arr.signed_congr _ _ _ fun s hs => ?_
          obtain ⟨m1, m2⟩ := mem_edges hs
          refine ⟨?_, fun k hk => ?_⟩
          · unfold cutW; rw [if_pos hx, hp'.winding m1]
          · unfold cutW; rw [if_pos hx, hp'.winding (m2 k hk)]
        rw [e2]
        unfold Geom2D.windSum Geom2D.signed
        generalize g = L
        induction L with
        | nil => simp
        | cons s L ih =>
          simp only [List.map_cons, List.sum_cons, ih]
          push_cast
          congr 2
          generalize s.holes = K
          induction K with
          | nil => simp
          | cons k K ih => simp only [List.map_cons, List.sum_cons]; rw [ih]
      dsimp only
      rw [e1, hg.once p fun hc => hp'.off ((Arr.onEdge_iff g p).2 hc)]
      unfold indicator
      simp only [hp'.region hg.made fun e he => he]
      split_ifs <;> simp
    · have e1 : (g.signed fun l => cutW m l z) = 0 := by
        have : (g.signed fun l => cutW m l z) = g.signed fun _ => (0 : ℝ) :=
          Arr.signed_congr _ _ _ fun s _ => ⟨by unfold cutW; rw [if_neg hx], fun k _ => by unfold cutW; rw [if_neg hx]⟩
        rw [this]
        unfold Geom2D.signed
        simp
      dsimp only
      rw [e1, indicator_of_notMem]
      rintro ⟨s, hs, h1, _⟩
      refine h1 (windingR_left _ _ fun v hv' => ?_)
      have := (hv s hs).1 v hv'
      have : (m : ℝ) < v.1 := by exact_mod_cast this
      linarith [not_lt.1 hx]
  have hms := measurableSet_region g
  have hfin : volume g.region ≠ ⊤ := by
    have : Integrable (g.region.indicator fun _ => (1 : ℝ)) := hFint.1.congr hae
    rw [integrable_indicator_iff hms] at this
    have := integrableOn_const_iff (C := (1 : ℝ)) (by simp) |>.1 this
    rcases this with h | h
    · simp at h
    · exact h.ne
  have hval : ((q : ℚ) : ℝ) = (volume g.region).toReal := by
    rw [← hq, ← hFint.2, integral_congr_ae hae, integral_indicator hms, setIntegral_const, smul_eq_mul, mul_one]
    rfl
  refine ⟨by rw [hval, ENNReal.ofReal_toReal hfin], ?_⟩
  have : (0 : ℝ) ≤ q := by rw [hval]; exact ENNReal.toReal_nonneg
  exact_mod_cast this

end Ply
