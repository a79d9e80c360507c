import Verif.Props.Collision
import Mathlib.MeasureTheory.Measure.Haar.Disintegration

/-!
# Joints whose numbers are rounded (C92)
-/

namespace Ply

open Spec MeasureTheory Set Geom1D Arr

/-! ### Rounded numbers -/

/-- The place across the joint where a joint side begins: the least of the four corners of the joint
(create_sheetplex.py:374-377), computed exactly. -/
noncomputable def Plate.low (p : Plate) (l : Line3) : ℝ :=
  min (min (dotR (p.project l.origins.1) ((p.project l.direction).2, -(p.project l.direction).1))
      (dotR (p.project l.origins.2.1) ((p.project l.direction).2, -(p.project l.direction).1)))
    (min (dotR (p.project l.origins.2.2.1) ((p.project l.direction).2, -(p.project l.direction).1))
      (dotR (p.project l.origins.2.2.2) ((p.project l.direction).2, -(p.project l.direction).1)))

/-- The place across the joint where a joint side ends: the greatest of the four corners. -/
noncomputable def Plate.high (p : Plate) (l : Line3) : ℝ :=
  max (max (dotR (p.project l.origins.1) ((p.project l.direction).2, -(p.project l.direction).1))
      (dotR (p.project l.origins.2.1) ((p.project l.direction).2, -(p.project l.direction).1)))
    (max (dotR (p.project l.origins.2.2.1) ((p.project l.direction).2, -(p.project l.direction).1))
      (dotR (p.project l.origins.2.2.2) ((p.project l.direction).2, -(p.project l.direction).1)))

/-- `InterSide.Exact` but for errors: each number that `create_inter_side` (create_sheetplex.py:360-386) keeps is
within `ε` of the number of the line.  The normal is at right angles to the direction, as the program makes it. -/
structure InterSide.Within (s : InterSide) (p : Plate) (l : Line3) (ε : ℝ) : Prop where
  first : |(s.direction.1 : ℝ) - (p.project l.direction).1| ≤ ε
  second : |(s.direction.2 : ℝ) - (p.project l.direction).2| ≤ ε
  normal : s.normal = (s.direction.2, -s.direction.1)
  origin : |(s.originOffset : ℝ) - dotR (p.project l.direction) (p.project l.origins.1)| ≤ ε
  low : |(s.minNormalOffset : ℝ) - p.low l| ≤ ε
  high : |(s.maxNormalOffset : ℝ) - p.high l| ≤ ε

/-- Exact numbers are within any error. -/
theorem Exact.within {s : InterSide} {p : Plate} {l : Line3} (h : s.Exact p l) {ε : ℝ} (hε : 0 ≤ ε) : s.Within p l ε where
  first := by rw [← h.direction, sub_self, abs_zero]; exact hε
  second := by rw [← h.direction, sub_self, abs_zero]; exact hε
  normal := h.normal
  origin := by rw [h.origin, sub_self, abs_zero]; exact hε
  low := by rw [h.low, Plate.low, sub_self, abs_zero]; exact hε
  high := by rw [h.high, Plate.high, sub_self, abs_zero]; exact hε

theorem low_swap (p : Plate) (l : Line3) :
    p.low ⟨l.direction, l.origins.1, l.origins.2.2.1, l.origins.2.1, l.origins.2.2.2⟩ = p.low l := by
  unfold Plate.low
  rw [min_min_min_comm]

theorem high_swap (p : Plate) (l : Line3) :
    p.high ⟨l.direction, l.origins.1, l.origins.2.2.1, l.origins.2.1, l.origins.2.2.2⟩ = p.high l := by
  unfold Plate.high
  rw [max_max_max_comm]

theorem Within.symm' {s : InterSide} {p : Plate} {l : Line3} {ε : ℝ} (h : s.Within p l ε) :
    s.Within p ⟨l.direction, l.origins.1, l.origins.2.2.1, l.origins.2.1, l.origins.2.2.2⟩ ε where
  first := h.first
  second := h.second
  normal := h.normal
  origin := h.origin
  low := by rw [low_swap]; exact h.low
  high := by rw [high_swap]; exact h.high

section

variable {a b : Plate} (ha : a.Sound) (hb : b.Sound) {l : Line3} (h : Crossing a b l)
include ha hb h

/-- The points of both sheets lie across the joint. -/
theorem seen_across {x : V3} (hx : x ∈ a.slab) (hy : x ∈ b.slab) :
    a.low l ≤ dot3 (a.lean l.direction) x ∧ dot3 (a.lean l.direction) x ≤ a.high l := by
  have off := across_offsets ha h.unit h.first h.second
  have k0 := off l.origins.1
  have k1 := off l.origins.2.1
  have k2 := off l.origins.2.2.1
  have k3 := off l.origins.2.2.2
  rw [h.c00.first, h.c00.second] at k0
  rw [h.c01.first, h.c01.second] at k1
  rw [h.c10.first, h.c10.second] at k2
  rw [h.c11.first, h.c11.second] at k3
  have hx' : a.height - 1 * a.thickness ≤ dot3 a.plane x ∧ dot3 a.plane x ≤ a.height - 0 * a.thickness := by
    rw [one_mul, zero_mul, sub_zero]; exact hx
  have hy' : b.height - 1 * b.thickness ≤ dot3 b.plane x ∧ dot3 b.plane x ≤ b.height - 0 * b.thickness := by
    rw [one_mul, zero_mul, sub_zero]; exact hy
  unfold Plate.low Plate.high
  simp only [flat_across]
  refine ⟨four_ge (lean_ne ha hb h) (off x) k0 k1 k2 k3 hx' hy' ?_ ?_ ?_ ?_,
    four_le (lean_ne ha hb h) (off x) k0 k1 k2 k3 hx' hy' ?_ ?_ ?_ ?_⟩
  · exact (min_le_left _ _).trans (min_le_left _ _)
  · exact (min_le_left _ _).trans (min_le_right _ _)
  · exact (min_le_right _ _).trans (min_le_left _ _)
  · exact (min_le_right _ _).trans (min_le_right _ _)
  · exact (le_max_left _ _).trans (le_max_left _ _)
  · exact (le_max_right _ _).trans (le_max_left _ _)
  · exact (le_max_left _ _).trans (le_max_right _ _)
  · exact (le_max_right _ _).trans (le_max_right _ _)

/-- How wide the joint is. -/
theorem seen_wide : a.high l - a.low l =
    (b.thickness + |dot3 a.plane b.plane| * a.thickness) / norm3 (cross3 a.plane b.plane) := by
  have off := across_offsets ha h.unit h.first h.second
  have k0 := off l.origins.1
  have k1 := off l.origins.2.1
  have k2 := off l.origins.2.2.1
  have k3 := off l.origins.2.2.2
  rw [h.c00.first, h.c00.second, zero_mul, zero_mul, sub_zero, sub_zero] at k0
  rw [h.c01.first, h.c01.second, zero_mul, one_mul, sub_zero] at k1
  rw [h.c10.first, h.c10.second, zero_mul, one_mul, sub_zero] at k2
  rw [h.c11.first, h.c11.second, one_mul, one_mul] at k3
  unfold Plate.low Plate.high
  simp only [flat_across]
  rw [four_width (lean_ne ha hb h) ha.thick.le hb.thick.le k0 k1 k2 k3, lean_abs ha hb h]

end

/-! ### How far off the places are -/

/-- The place along a joint side that a point of the plane has. -/
noncomputable def InterSide.alongAt (s : InterSide) (z : ℝ × ℝ) : ℝ :=
  (s.direction.1 * z.1 + s.direction.2 * z.2) / s.scale - s.originOffset

/-- The place across a joint side that a point of the plane has. -/
noncomputable def InterSide.besideAt (s : InterSide) (z : ℝ × ℝ) : ℝ :=
  (s.direction.2 * z.1 - s.direction.1 * z.2) / s.scale

/-- The place along a joint side that `project_to_1d` gives a point. -/
noncomputable def InterSide.shadowAt (s : InterSide) (z : ℝ × ℝ) : ℝ :=
  s.direction.1 * z.1 + s.direction.2 * z.2 - s.originOffset

theorem place_at {s : InterSide} (h : s.Proper) (z : ℝ × ℝ) : s.place (s.alongAt z, s.besideAt z) = z := by
  have hp := h.scale_pos
  have e : s.scale = (s.direction.1 : ℝ) ^ 2 + (s.direction.2 : ℝ) ^ 2 := rfl
  unfold InterSide.place InterSide.alongAt InterSide.besideAt
  rw [h.normal]
  push_cast
  ext <;> dsimp only
  · field_simp
    rw [e]
    ring
  · field_simp
    rw [e]
    ring

theorem near_mul {e z ε R : ℝ} (he : |e| ≤ ε) (hz : |z| ≤ R) : |e * z| ≤ ε * R := by
  rw [abs_mul]
  exact mul_le_mul he hz (abs_nonneg _) ((abs_nonneg _).trans he)

/-- Dividing by the square of a length that is nearly one. -/
theorem near_div {y u q ε R : ℝ} (hq : |q - 1| ≤ 5 * ε) (hε : ε ≤ 1 / 100) (hu : |u| ≤ R) (hy : |y - u| ≤ 2 * (ε * R)) :
    |y / q - u| ≤ 8 * (ε * R) := by
  have q0 : 95 / 100 ≤ q := by linarith [(abs_le.1 hq).1]
  have h1 := near_mul hq hu
  have e : y / q - u = ((y - u) - (q - 1) * u) / q := by field_simp; ring
  rw [e, abs_div, abs_of_pos (by linarith : 0 < q), div_le_iff₀ (by linarith)]
  have := abs_sub (y - u) ((q - 1) * u)
  have h0 : 0 ≤ ε * R := by
    have := abs_nonneg (y - u)
    linarith
  nlinarith

section

variable {p : Plate} (hp : p.Sound) {l : Line3} (hd : dot3 l.direction l.direction = 1) (hn : dot3 p.plane l.direction = 0)
  (ho : dot3 l.direction l.origins.1 = 0) {s : InterSide} {ε R : ℝ} (hs : s.Within p l ε) (hε : ε ≤ 1 / 100) (hR : 1 ≤ R)

include hp hd hn hs hε

theorem within_scale : |s.scale - 1| ≤ 5 * ε := by
  have hu := flat_unit hp hd hn
  have h1 := hs.first
  have h2 := hs.second
  unfold Plate.project at h1 h2
  dsimp only at h1 h2
  set D := dot3 p.ex l.direction
  set E := dot3 p.ey l.direction
  have d1 : |D| ≤ 1 := abs_le_one_iff_mul_self_le_one.2 (by nlinarith)
  have d2 : |E| ≤ 1 := abs_le_one_iff_mul_self_le_one.2 (by nlinarith)
  have e : s.scale - 1 = (s.direction.1 - D) * (2 * D) + (s.direction.2 - E) * (2 * E) +
      ((s.direction.1 - D) * (s.direction.1 - D) + (s.direction.2 - E) * (s.direction.2 - E)) := by
    unfold InterSide.scale
    linear_combination hu
  have k1 := near_mul h1 (z := 2 * D) (R := 2) (by rw [abs_mul, abs_two]; linarith)
  have k2 := near_mul h2 (z := 2 * E) (R := 2) (by rw [abs_mul, abs_two]; linarith)
  have k3 := near_mul h1 h1
  have k4 := near_mul h2 h2
  have ε0 : 0 ≤ ε := (abs_nonneg _).trans h1
  rw [e, abs_le]
  have m : ε * ε ≤ 1 / 100 * ε := mul_le_mul_of_nonneg_right hε ε0
  constructor <;> linarith [(abs_le.1 k1).1, (abs_le.1 k1).2, (abs_le.1 k2).1, (abs_le.1 k2).2, (abs_le.1 k3).1, (abs_le.1 k3).2,
    (abs_le.1 k4).1, (abs_le.1 k4).2]

/-- Joint sides with small errors are fit for the later steps. -/
theorem within_proper (hw : 2 * ε < p.high l - p.low l) : s.Proper where
  dir h0 := by
    have := within_scale hp hd hn hs hε
    unfold InterSide.scale at this
    rw [h0] at this
    norm_num at this
    linarith
  normal := hs.normal
  width := by
    have h1 := (abs_le.1 hs.low).2
    have h2 := (abs_le.1 hs.high).1
    have : (s.minNormalOffset : ℝ) < s.maxNormalOffset := by linarith
    exact_mod_cast this

include ho hR

/-- C92: how far off the places of a point within `R` of the origin are. -/
theorem within_places {x : V3} (hx : dot3 x x ≤ R ^ 2) :
    |s.alongAt (p.project x) - dot3 l.direction x| ≤ 9 * (ε * R) ∧
    |s.besideAt (p.project x) - dot3 (p.lean l.direction) x| ≤ 8 * (ε * R) ∧
    |s.shadowAt (p.project x) - dot3 l.direction x| ≤ 3 * (ε * R) ∧ |dot3 l.direction x| ≤ R := by
  have R0 : 0 ≤ R := by linarith
  have f1 := frame_dot hp.frame' x x
  have f2 := frame_dot (lean_frame hp hd hn) x x
  have z1 : |dot3 p.ex x| ≤ R := abs_le_of_sq_le_sq (by nlinarith [sq_nonneg (dot3 p.ey x), sq_nonneg (dot3 p.plane x)]) R0
  have z2 : |dot3 p.ey x| ≤ R := abs_le_of_sq_le_sq (by nlinarith [sq_nonneg (dot3 p.ex x), sq_nonneg (dot3 p.plane x)]) R0
  have z3 : |dot3 l.direction x| ≤ R := abs_le_of_sq_le_sq
    (by nlinarith [sq_nonneg (dot3 (p.lean l.direction) x), sq_nonneg (dot3 p.plane x)]) R0
  have z4 : |dot3 (p.lean l.direction) x| ≤ R := abs_le_of_sq_le_sq
    (by nlinarith [sq_nonneg (dot3 l.direction x), sq_nonneg (dot3 p.plane x)]) R0
  have sc := within_scale hp hd hn hs hε
  have h1 := hs.first
  have h2 := hs.second
  have ε0 : 0 ≤ ε := (abs_nonneg _).trans h1
  have h3 := hs.origin
  rw [flat_along hp hn, ho, sub_zero] at h3
  have m : ε ≤ ε * R := by nlinarith
  have al : |((s.direction.1 : ℝ) * dot3 p.ex x + s.direction.2 * dot3 p.ey x) - dot3 l.direction x| ≤ 2 * (ε * R) := by
    have k1 := near_mul h1 z1
    have k2 := near_mul h2 z2
    have e : ((s.direction.1 : ℝ) * dot3 p.ex x + s.direction.2 * dot3 p.ey x) - dot3 l.direction x =
        (s.direction.1 - (p.project l.direction).1) * dot3 p.ex x + (s.direction.2 - (p.project l.direction).2) * dot3 p.ey x := by
      rw [← flat_along hp hn x]
      unfold dotR Plate.project
      ring
    rw [e]
    exact (abs_add_le _ _).trans (by linarith)
  have be : |((s.direction.2 : ℝ) * dot3 p.ex x - s.direction.1 * dot3 p.ey x) - dot3 (p.lean l.direction) x| ≤ 2 * (ε * R) := by
    have k1 := near_mul h2 z1
    have k2 := near_mul h1 z2
    have e : ((s.direction.2 : ℝ) * dot3 p.ex x - s.direction.1 * dot3 p.ey x) - dot3 (p.lean l.direction) x =
        (s.direction.2 - (p.project l.direction).2) * dot3 p.ex x - (s.direction.1 - (p.project l.direction).1) * dot3 p.ey x := by
      rw [lean_dot]
      unfold Plate.project
      ring
    rw [e]
    exact (abs_sub _ _).trans (by linarith)
  refine ⟨?_, near_div sc hε z4 be, ?_, z3⟩
  · have := near_div sc hε z3 al
    unfold InterSide.alongAt
    rw [abs_le] at this h3 ⊢
    unfold Plate.project
    constructor <;> dsimp only <;> linarith
  · unfold InterSide.shadowAt
    rw [abs_le] at al h3 ⊢
    unfold Plate.project
    constructor <;> dsimp only <;> linarith

end

/-! ### End points -/

/-- The end points of a list of intervals that are numbers. -/
def ends (l : List (Ext × Ext)) : Set ℝ := {x | ∃ iv ∈ l, ∃ q : ℚ, (iv.1 = Ext.fin q ∨ iv.2 = Ext.fin q) ∧ x = q}

/-- The places within `δ` of an end point. -/
def nearEnds (l : List (Ext × Ext)) (δ : ℝ) : Set ℝ := {x | ∃ y ∈ ends l, |x - y| ≤ δ}

theorem ext_between (e : Ext) (x y : ℝ) (h1 : (x : EReal) ≤ e.toE) (h2 : e.toE ≤ (y : EReal)) :
    ∃ q : ℚ, e = Ext.fin q ∧ x ≤ q ∧ (q : ℝ) ≤ y := by
  rcases Ext.cases3 e with rfl | rfl | ⟨q, rfl⟩
  · rw [Ext.toE_bot, le_bot_iff] at h1
    exact absurd h1 (EReal.coe_ne_bot _)
  · rw [Ext.toE_top, top_le_iff] at h2
    exact absurd h2 (EReal.coe_ne_top _)
  · rw [Ext.toE_fin] at h1 h2
    exact ⟨q, rfl, EReal.coe_le_coe_iff.1 h1, EReal.coe_le_coe_iff.1 h2⟩

/-- Between a point of the intervals and another point there is an end point. -/
theorem mem_of_near {l : List (Ext × Ext)} {δ x y : ℝ} (hx : x ∈ pointsOf l) (hxy : |x - y| ≤ δ)
    (hu : y ∉ nearEnds l δ ∨ x ∉ nearEnds l δ) : y ∈ pointsOf l := by
  obtain ⟨iv, hiv, h1, h2⟩ := hx
  by_contra hc
  have key : ∃ q : ℚ, (iv.1 = Ext.fin q ∨ iv.2 = Ext.fin q) ∧ |y - q| ≤ δ ∧ |x - q| ≤ δ := by
    by_cases k1 : iv.1.toE ≤ (y : EReal)
    · have k2 : iv.2.toE ≤ (y : EReal) := not_lt.1 fun k => hc ⟨iv, hiv, k1, k⟩
      obtain ⟨q, e, q1, q2⟩ := ext_between _ x y h2.le k2
      refine ⟨q, Or.inr e, ?_, ?_⟩ <;> rw [abs_le] at hxy ⊢ <;> constructor <;> linarith [hxy.1, hxy.2]
    · obtain ⟨q, e, q1, q2⟩ := ext_between _ y x (not_le.1 k1).le h1
      refine ⟨q, Or.inl e, ?_, ?_⟩ <;> rw [abs_le] at hxy ⊢ <;> constructor <;> linarith [hxy.1, hxy.2]
  obtain ⟨q, e, q1, q2⟩ := key
  rcases hu with hu | hu
  · exact hu ⟨q, ⟨iv, hiv, q, e, rfl⟩, q1⟩
  · exact hu ⟨q, ⟨iv, hiv, q, e, rfl⟩, q2⟩

theorem nearEnd_volume (e : Ext) (δ : ℝ) :
    volume {x : ℝ | ∃ q : ℚ, e = Ext.fin q ∧ |x - q| ≤ δ} ≤ ENNReal.ofReal (2 * δ) := by
  rcases Ext.cases3 e with rfl | rfl | ⟨q, rfl⟩
  · rw [show {x : ℝ | ∃ q : ℚ, (⊥ : Ext) = Ext.fin q ∧ |x - q| ≤ δ} = ∅ by
      ext x
      simp only [mem_ofPred_eq, mem_empty_iff_false, iff_false]
      rintro ⟨q, h, -⟩
      exact absurd h (Ext.bot_lt_fin q).ne, measure_empty]
    exact zero_le
  · rw [show {x : ℝ | ∃ q : ℚ, (⊤ : Ext) = Ext.fin q ∧ |x - q| ≤ δ} = ∅ by
      ext x
      simp only [mem_ofPred_eq, mem_empty_iff_false, iff_false]
      rintro ⟨q, h, -⟩
      exact absurd h (Ext.fin_lt_top q).ne', measure_empty]
    exact zero_le
  · refine le_trans (measure_mono (t := Icc ((q : ℝ) - δ) (q + δ)) ?_) ?_
    · rintro x ⟨q', h, hx⟩
      rw [Ext.fin_inj] at h
      subst h
      rw [abs_le] at hx
      exact ⟨by linarith, by linarith⟩
    · rw [Real.volume_Icc]
      exact ENNReal.ofReal_le_ofReal (by linarith)

theorem nearEnds_volume (l : List (Ext × Ext)) {δ : ℝ} (hδ : 0 ≤ δ) :
    volume (nearEnds l δ) ≤ ENNReal.ofReal (4 * δ * l.length) := by
  induction l with
  | nil =>
    rw [show nearEnds [] δ = ∅ by ext x; simp [nearEnds, ends], measure_empty]
    exact zero_le
  | cons iv l ih =>
    refine le_trans (measure_mono (t := ({x : ℝ | ∃ q : ℚ, iv.1 = Ext.fin q ∧ |x - q| ≤ δ} ∪
      {x : ℝ | ∃ q : ℚ, iv.2 = Ext.fin q ∧ |x - q| ≤ δ}) ∪ nearEnds l δ) ?_) ?_
    · rintro x ⟨y, ⟨jv, hj, q, e, rfl⟩, hx⟩
      rcases List.mem_cons.1 hj with rfl | hj
      · rcases e with e | e
        · exact Or.inl (Or.inl ⟨q, e, hx⟩)
        · exact Or.inl (Or.inr ⟨q, e, hx⟩)
      · exact Or.inr ⟨q, ⟨jv, hj, q, e, rfl⟩, hx⟩
    · refine le_trans (measure_union_le _ _) (le_trans (add_le_add (measure_union_le _ _) ih) ?_)
      refine le_trans (add_le_add_left (add_le_add (nearEnd_volume iv.1 δ) (nearEnd_volume iv.2 δ)) _) ?_
      rw [← ENNReal.ofReal_add (by positivity) (by positivity), ← ENNReal.ofReal_add (by positivity) (by positivity)]
      apply ENNReal.ofReal_le_ofReal
      rw [List.length_cons]
      push_cast
      linarith

/-! ### Almost everywhere in space -/

/-- `Plate.project` as a linear map. -/
def Plate.projectL (p : Plate) : V3 →ₗ[ℝ] ℝ × ℝ where
  toFun := p.project
  map_add' x y := by unfold Plate.project; rw [dot3_add, dot3_add]; rfl
  map_smul' r x := by unfold Plate.project; rw [dot3_smul, dot3_smul]; rfl

theorem ae_project {p : Plate} (hp : p.Sound) {P : ℝ × ℝ → Prop} (h : ∀ᵐ z, P z) : ∀ᵐ x : V3, P (p.project x) := by
  have := haar_space
  have := haar_prod
  have hsurj : Function.Surjective p.projectL := by
    intro z
    obtain ⟨h1, h2, -, h4, -, -⟩ := hp.frame'
    rw [inner_eq] at h1 h2 h4
    refine ⟨z.1 • p.ex + z.2 • p.ey, ?_⟩
    show (dot3 p.ex (z.1 • p.ex + z.2 • p.ey), dot3 p.ey (z.1 • p.ex + z.2 • p.ey)) = z
    rw [dot3_add, dot3_add, dot3_smul, dot3_smul, dot3_smul, dot3_smul, h1, h2, dot3_comm p.ey p.ex, h4]
    ext <;> simp
  have h0 : volume {z | ¬ P z} = 0 := h
  have hm : ∀ᵐ z : ℝ × ℝ, z ∈ (toMeasurable volume {z | ¬ P z})ᶜ := by
    rw [ae_iff]
    simp only [mem_compl_iff, not_not, ofPred_mem_eq, measure_toMeasurable]
    exact h0
  have := (ae_comp_linearMap_mem_iff p.projectL volume volume hsurj (measurableSet_toMeasurable _ _).compl).2 hm
  filter_upwards [this] with x hx
  by_contra hc
  exact hx (subset_toMeasurable volume _ hc)

/-! ### What the cut sheets share -/

/-- The volume of a box. -/
theorem box_volume (U V W : Set ℝ) : volume (U ×ˢ (V ×ˢ W)) = volume U * (volume V * volume W) := by
  rw [Measure.volume_eq_prod, Measure.prod_prod, Measure.volume_eq_prod, Measure.prod_prod]

section

variable {ch : Choices} {sq : ℚ → ℚ} (hch : ch.Valid) (hsq : RootLike sq)
  (sp : SheetPlex) (hsp : sp.Paired) (hsh : sp.Sheeted) (hpr : sp.SidesProper)
  (geoms : Name → SheetGeoms Geom2D) (hgm : ValidGeoms Geom2D.Fine geoms) (rad : ℚ) (sb0 sb : SheetBuild Geom2D)
  (h : createSheetbuild (codeOps ch sq) sp geoms rad = .ok sb0) (hc : CutFrom sb0 sb) (hrad : 1 ≤ rad)
  (hn : ∀ e ∈ sp.sheets, (geoms e.2.id).face0.NoIslands ∧ (geoms e.2.id).face1.NoIslands)
include hch hsq hsp hsh hpr hgm h hc hrad hn

/-- What the places of a point of a cut sheet tell, almost everywhere. -/
theorem cut_places (s t : InterSide) (hj : Joint sp s t) (v : Geom1D)
    (hv : freshInterOk (codeOps ch sq) geoms sb0.sheetOk s = .ok v) :
    ∀ᵐ z : ℝ × ℝ, z ∈ dens Geom2D.region sb.sheetChosen s.sheet \ otherFingers sb s → s.besideAt z ∈ s.across →
      (s.alongAt z ∈ Ico (-1000) 1000 → s.shadowAt z ∈ pointsOf v.intervals) ∧
      (s.alongAt z ∈ pts sb0.interOk s.id → s.alongAt z ∈ pts sb.interChosen s.id) := by
  obtain ⟨f1, -⟩ := c46_fresh (fine_lawful ch hch _) (code_buffer hch hsq) sp hsp hsh geoms hgm _ sb0 h
  have pl := hc.plex.trans f1
  have hps := hpr _ _ hj.1
  obtain ⟨e, he, hes⟩ := hsh.known s.id s hj.1
  have hw := fresh_within hch hsq sp hsp hsh geoms hgm _ hrad hn sb0 h e he
  rw [hes] at hw
  filter_upwards [hc.added s.sheet, hw, fresh_shadow hch hsq sp hsp hsh hpr geoms hgm _ sb0 h s t hj v hv,
    fresh_strip hch hsq sp hsp hsh hpr geoms hgm _ sb0 h s t hj] with z z1 z2 z3 z4 hz hb
  have mem : ∀ V : Set ℝ, s.alongAt z ∈ V → z ∈ s.strip V := fun V hV =>
    (mem_strip _ _ _).2 ⟨(s.alongAt z, s.besideAt z), hV, hb, (place_at hps z).symm⟩
  refine ⟨fun ha => ?_, fun ha => ?_⟩
  · have hk : z ∈ dens Geom2D.region sb0.sheetOk s.sheet := by
      rcases z1 hz.1 with hd | ⟨hd, -⟩
      · exact z2 hd
      · exact hd
    have := z3 hk (mem _ ha)
    unfold InterSide.shadowAt
    push_cast at this
    rw [← sub_eq_add_neg] at this
    exact this
  · rcases z1 hz.1 with hd | ⟨-, s', k1, k2, k3⟩
    · exact absurd ⟨hd, mem _ ha⟩ z4
    · by_cases hid : s'.id = s.id
      · rw [pl, hid, hj.1] at k1
        cases k1
        rw [← place_at hps z] at k3
        exact place_mem_strip hps k3
      · exact absurd ⟨s', k1, k2, hid, k3⟩ hz.2

/-- C92: the solids that a checked build cuts from two crossing sheets share next to no volume, even if the numbers of
the joint have errors. -/
theorem c92_made (hck : sb.check (codeOps ch sq) = .ok ()) (s t : InterSide) (hj : Joint sp s t)
    {a b : Plate} (ha : a.Sound) (hb : b.Sound) {l : Line3} (hl : Crossing a b l) {ε R : ℝ}
    (hs : s.Within a l ε) (ht : t.Within b l ε) (hε : ε ≤ 1 / 100) (hR : 1 ≤ R) (hR' : R + 9 * (ε * R) < 1000)
    (N : ℕ) (hN : ∀ vs vt cs ct, freshInterOk (codeOps ch sq) geoms sb0.sheetOk s = .ok vs →
      freshInterOk (codeOps ch sq) geoms sb0.sheetOk t = .ok vt → sb.interChosen.get? s.id = some cs →
      sb.interChosen.get? t.id = some ct →
      vs.intervals.length + vt.intervals.length + cs.intervals.length + ct.intervals.length ≤ N) :
    volume (a.solid (dens Geom2D.region sb.sheetChosen s.sheet \ otherFingers sb s) ∩
      b.solid (dens Geom2D.region sb.sheetChosen t.sheet \ otherFingers sb t) ∩ {x | dot3 x x ≤ R ^ 2}) ≤
    ENNReal.ofReal (norm3 (cross3 a.plane b.plane))⁻¹ * ENNReal.ofReal
      (tol7 * ((a.high l - a.low l) * (b.high l - b.low l)) +
        36 * ε * R * N * ((a.high l - a.low l) * (b.high l - b.low l)) +
        36 * ε * R ^ 2 * ((a.high l - a.low l) + (b.high l - b.low l))) := by
  obtain ⟨f1, -, -, -, f5, -⟩ := c46_fresh (fine_lawful ch hch _) (code_buffer hch hsq) sp hsp hsh geoms hgm _ sb0 h
  have pl := hc.plex.trans f1
  have hjt := (hj.symm hsp).1
  have hps := hpr _ _ hj.1
  have hpt := hpr _ _ hjt.1
  obtain ⟨⟨cs, -, ecs, -⟩, -, -, c5⟩ := c63_joint _ sb hc.base hck s t (by rw [pl]; exact hj)
  obtain ⟨⟨ct, -, ect, -⟩, -⟩ := c63_joint _ sb hc.base hck t s (by rw [pl]; exact hjt)
  have hst : pts sb0.interOk s.id = pts sb0.interOk t.id := by
    unfold pts
    rw [f5 s t hj]
  obtain ⟨vs, vt, q1, q2, q3⟩ := create_inter code_project sp hsp geoms _ sb0 h s t hj
  have hN' := hN vs vt cs ct q1 q2 ecs ect
  have hcs : pts sb.interChosen s.id = pointsOf cs.intervals := by unfold pts; rw [ecs]
  have hct : pts sb.interChosen t.id = pointsOf ct.intervals := by unfold pts; rw [ect]
  have ε0 : 0 ≤ ε := (abs_nonneg _).trans hs.first
  have m0 : 0 ≤ ε * R := by positivity
  have m1 : ε ≤ ε * R := by nlinarith
  have wa : 0 ≤ a.high l - a.low l := by
    rw [seen_wide ha hb hl]
    exact div_nonneg (add_nonneg hb.thick.le (mul_nonneg (abs_nonneg _) ha.thick.le)) hl.pos.le
  have wb : 0 ≤ b.high l - b.low l := by
    have := seen_wide hb ha hl.symm'
    rw [low_swap, high_swap] at this
    rw [this]
    exact div_nonneg (add_nonneg ha.thick.le (mul_nonneg (abs_nonneg _) hb.thick.le)) hl.symm'.pos.le
  set δ := 9 * (ε * R) with hδ
  set S := dens Geom2D.region sb.sheetChosen s.sheet \ otherFingers sb s
  set T := dens Geom2D.region sb.sheetChosen t.sheet \ otherFingers sb t
  set near := nearEnds vs.intervals δ ∪ nearEnds vt.intervals δ ∪ (nearEnds cs.intervals δ ∪ nearEnds ct.intervals δ)
  set A := Icc (a.low l) (a.high l)
  set B := Icc (b.low l) (b.high l)
  set A' := Icc (a.low l) (a.low l + δ) ∪ Icc (a.high l - δ) (a.high l)
  set B' := Icc (b.low l) (b.low l + δ) ∪ Icc (b.high l - δ) (b.high l)
  set K := ((pts sb.interChosen s.id ∩ pts sb.interChosen t.id) ×ˢ (A ×ˢ B) ∪ near ×ˢ (A ×ˢ B)) ∪
    (Icc (-R) R ×ˢ (A' ×ˢ B) ∪ Icc (-R) R ×ˢ (A ×ˢ B'))
  have key : ∀ᵐ x : V3, x ∈ a.solid S ∩ b.solid T ∩ {x | dot3 x x ≤ R ^ 2} →
      x ∈ coords l.direction (a.lean l.direction) (b.lean l.direction) ⁻¹' K := by
    filter_upwards [ae_project ha (cut_places hch hsq sp hsp hsh hpr geoms hgm rad sb0 sb h hc hrad hn s t hj vs q1),
      ae_project hb (cut_places hch hsq sp hsp hsh hpr geoms hgm rad sb0 sb h hc hrad hn t s hjt vt q2)] with x za zb hx
    obtain ⟨⟨hxa, hxb⟩, hxR⟩ := hx
    obtain ⟨a1, a2, a3, hu⟩ := within_places ha hl.unit hl.first hl.c00.along hs hε hR hxR
    obtain ⟨b1, b2, b3, -⟩ := within_places hb hl.unit hl.second hl.c00.along ht hε hR hxR
    have hv := seen_across ha hb hl hxa.1 hxb.1
    have hw : b.low l ≤ dot3 (b.lean l.direction) x ∧ dot3 (b.lean l.direction) x ≤ b.high l := by
      have := seen_across hb ha hl.symm' hxb.1 hxa.1
      rw [low_swap, high_swap] at this
      exact this
    show (dot3 l.direction x, dot3 (a.lean l.direction) x, dot3 (b.lean l.direction) x) ∈ K
    set u := dot3 l.direction x
    set v := dot3 (a.lean l.direction) x
    set w := dot3 (b.lean l.direction) x
    have hl1 := abs_le.1 hs.low
    have hl2 := abs_le.1 hs.high
    have hl3 := abs_le.1 ht.low
    have hl4 := abs_le.1 ht.high
    have hu' := abs_le.1 hu
    by_cases kv : v ∈ A'
    · exact Or.inr (Or.inl ⟨⟨hu'.1, hu'.2⟩, kv, hw⟩)
    by_cases kw : w ∈ B'
    · exact Or.inr (Or.inr ⟨⟨hu'.1, hu'.2⟩, hv, kw⟩)
    by_cases ku : u ∈ near
    · exact Or.inl (Or.inr ⟨ku, hv, hw⟩)
    refine Or.inl (Or.inl ⟨?_, hv, hw⟩)
    have v1 : a.low l + δ < v := not_le.1 fun hh => kv (Or.inl ⟨hv.1, hh⟩)
    have v2 : v < a.high l - δ := not_le.1 fun hh => kv (Or.inr ⟨hh, hv.2⟩)
    have w1 : b.low l + δ < w := not_le.1 fun hh => kw (Or.inl ⟨hw.1, hh⟩)
    have w2 : w < b.high l - δ := not_le.1 fun hh => kw (Or.inr ⟨hh, hw.2⟩)
    have a2' := abs_le.1 a2
    have b2' := abs_le.1 b2
    obtain ⟨za1, za2⟩ := za hxa.2 ⟨by linarith, by linarith⟩
    obtain ⟨zb1, zb2⟩ := zb hxb.2 ⟨by linarith, by linarith⟩
    have a1' := abs_le.1 a1
    have b1' := abs_le.1 b1
    have n1 : u ∉ nearEnds vs.intervals δ := fun hh => ku (Or.inl (Or.inl hh))
    have n2 : u ∉ nearEnds vt.intervals δ := fun hh => ku (Or.inl (Or.inr hh))
    have n3 : u ∉ nearEnds cs.intervals δ := fun hh => ku (Or.inr (Or.inl hh))
    have n4 : u ∉ nearEnds ct.intervals δ := fun hh => ku (Or.inr (Or.inr hh))
    have us : u ∈ pointsOf vs.intervals := mem_of_near (za1 ⟨by linarith, by linarith⟩) (a3.trans (by linarith)) (Or.inl n1)
    have ut : u ∈ pointsOf vt.intervals := mem_of_near (zb1 ⟨by linarith, by linarith⟩) (b3.trans (by linarith)) (Or.inl n2)
    rw [abs_sub_comm] at a1 b1
    have hs1 := za2 (by rw [q3]; exact ⟨mem_of_near us a1 (Or.inr n1), mem_of_near ut a1 (Or.inr n2)⟩)
    have ht1 := zb2 (by rw [← hst, q3]; exact ⟨mem_of_near us b1 (Or.inr n1), mem_of_near ut b1 (Or.inr n2)⟩)
    rw [abs_sub_comm] at a1 b1
    rw [hcs] at hs1 ⊢
    rw [hct] at ht1 ⊢
    exact ⟨mem_of_near hs1 a1 (Or.inl n3), mem_of_near ht1 b1 (Or.inl n4)⟩
  have hm : volume (a.solid S ∩ b.solid T ∩ {x | dot3 x x ≤ R ^ 2}) ≤
      volume (coords l.direction (a.lean l.direction) (b.lean l.direction) ⁻¹' K) := measure_mono_ae key
  refine hm.trans ?_
  rw [coords_volume ha hb hl]
  refine mul_le_mul_right ?_ _
  have t7 : (0 : ℝ) < (tol7 : ℚ) := by unfold tol7; norm_num
  have vA : volume A = ENNReal.ofReal (a.high l - a.low l) := Real.volume_Icc
  have vB : volume B = ENNReal.ofReal (b.high l - b.low l) := Real.volume_Icc
  have vA' : volume A' ≤ ENNReal.ofReal (2 * δ) := by
    refine (measure_union_le _ _).trans ?_
    rw [Real.volume_Icc, Real.volume_Icc, ← ENNReal.ofReal_add (by linarith) (by linarith)]
    exact ENNReal.ofReal_le_ofReal (by linarith)
  have vB' : volume B' ≤ ENNReal.ofReal (2 * δ) := by
    refine (measure_union_le _ _).trans ?_
    rw [Real.volume_Icc, Real.volume_Icc, ← ENNReal.ofReal_add (by linarith) (by linarith)]
    exact ENNReal.ofReal_le_ofReal (by linarith)
  have vN : volume near ≤ ENNReal.ofReal (4 * δ * N) := by
    have δ0 : 0 ≤ δ := by linarith
    refine (measure_union_le _ _).trans ((add_le_add (measure_union_le _ _) (measure_union_le _ _)).trans ?_)
    refine (add_le_add (add_le_add (nearEnds_volume _ δ0) (nearEnds_volume _ δ0))
      (add_le_add (nearEnds_volume _ δ0) (nearEnds_volume _ δ0))).trans ?_
    rw [← ENNReal.ofReal_add (by positivity) (by positivity), ← ENNReal.ofReal_add (by positivity) (by positivity),
      ← ENNReal.ofReal_add (by positivity) (by positivity)]
    apply ENNReal.ofReal_le_ofReal
    have : ((vs.intervals.length + vt.intervals.length + cs.intervals.length + ct.intervals.length : ℕ) : ℝ) ≤ N := by
      exact_mod_cast hN'
    push_cast at this
    nlinarith
  have vR : volume (Icc (-R) R) = ENNReal.ofReal (2 * R) := by rw [Real.volume_Icc]; congr 1; ring
  refine (measure_union_le _ _).trans ((add_le_add (measure_union_le _ _) (measure_union_le _ _)).trans ?_)
  rw [box_volume, box_volume, box_volume, box_volume, vA, vB, vR]
  refine (add_le_add (add_le_add (mul_le_mul_left c5.le _) (mul_le_mul_left vN _))
    (add_le_add (mul_le_mul_right (mul_le_mul_left vA' _) _) (mul_le_mul_right (mul_le_mul_right vB' _) _))).trans ?_
  have δ0 : 0 ≤ δ := by linarith
  rw [← ENNReal.ofReal_mul wa, ← ENNReal.ofReal_mul t7.le, ← ENNReal.ofReal_mul (by positivity), ← ENNReal.ofReal_mul (by positivity),
    ← ENNReal.ofReal_mul (by positivity), ← ENNReal.ofReal_mul wa, ← ENNReal.ofReal_mul (by positivity),
    ← ENNReal.ofReal_add (by positivity) (by positivity), ← ENNReal.ofReal_add (by positivity) (by positivity),
    ← ENNReal.ofReal_add (by positivity) (by positivity)]
  apply ENNReal.ofReal_le_ofReal
  rw [hδ]
  apply le_of_eq
  ring

end

/-! ### Sheetplexes -/

/-- Where the sheets of a sheetplex are in space: the numbers of each joint are within `ε` of those of a line where its
sheets cross. -/
structure NearlyPlaced (sp : SheetPlex) (plates : Name → Plate) (ε : ℝ) : Prop where
  sound : ∀ e ∈ sp.sheets, (plates e.2.id).Sound
  thick : ∀ e ∈ sp.sheets, 2 * ε < (plates e.2.id).thickness
  joint : ∀ s t, Joint sp s t → ∃ l, Crossing (plates s.sheet) (plates t.sheet) l ∧ s.Within (plates s.sheet) l ε ∧
    t.Within (plates t.sheet) l ε

/-- Exact numbers are within any error. -/
theorem Placed.nearly {sp : SheetPlex} {plates : Name → Plate} (h : Placed sp plates) (hsp : sp.Paired) (hsh : sp.Sheeted) {ε : ℝ}
    (h0 : 0 ≤ ε) (ht : ∀ e ∈ sp.sheets, 2 * ε < (plates e.2.id).thickness) : NearlyPlaced sp plates ε where
  sound := h.sound
  thick := ht
  joint s t hj := by
    obtain ⟨s1, s2⟩ := h.sounds hsp hsh hj
    obtain ⟨l, e1, e2, hl | hl⟩ := h.joint s t hj
    · exact ⟨l, (line_crossing s1 s2 hl).1, Exact.within e1 h0, Exact.within e2 h0⟩
    · exact ⟨_, (line_crossing s2 s1 hl).1.symm', Within.symm' (Exact.within e1 h0), Within.symm' (Exact.within e2 h0)⟩

theorem NearlyPlaced.sounds {sp : SheetPlex} {plates : Name → Plate} {ε : ℝ} (h : NearlyPlaced sp plates ε) (hsp : sp.Paired)
    (hsh : sp.Sheeted) {s t : InterSide} (hj : Joint sp s t) : ((plates s.sheet).Sound ∧ 2 * ε < (plates s.sheet).thickness) ∧
      (plates t.sheet).Sound ∧ 2 * ε < (plates t.sheet).thickness := by
  obtain ⟨e, he, h1⟩ := hsh.known _ s hj.1
  obtain ⟨f, hf, h2⟩ := hsh.known _ t (hj.symm hsp).1.1
  exact ⟨⟨h1 ▸ h.sound e he, h1 ▸ h.thick e he⟩, h2 ▸ h.sound f hf, h2 ▸ h.thick f hf⟩

theorem wide_ge {a b : Plate} (ha : a.Sound) (hb : b.Sound) {l : Line3} (h : Crossing a b l) :
    b.thickness ≤ a.high l - a.low l := by
  rw [seen_wide ha hb h, le_div_iff₀ h.pos]
  have := h.angle
  have h1 : norm3 (cross3 a.plane b.plane) ≤ 1 := by
    nlinarith [h.pos, sq_nonneg (dot3 a.plane b.plane)]
  have := mul_nonneg (abs_nonneg (dot3 a.plane b.plane)) ha.thick.le
  nlinarith [hb.thick]

/-- Joint sides with small errors are fit for the later steps. -/
theorem NearlyPlaced.proper {sp : SheetPlex} {plates : Name → Plate} {ε : ℝ} (h : NearlyPlaced sp plates ε) (hε : ε ≤ 1 / 100)
    (hsp : sp.Paired) (hsh : sp.Sheeted) : sp.SidesProper := by
  intro id s hs
  obtain ⟨hid, t, ht, -⟩ := interside_spec _ hsp id s hs
  have hj : Joint sp s t := ⟨by rw [hid]; exact hs, ht⟩
  obtain ⟨⟨s1, -⟩, s2, k2⟩ := h.sounds hsp hsh hj
  obtain ⟨l, hl, w, -⟩ := h.joint s t hj
  exact within_proper s1 hl.unit hl.first w hε (k2.trans_le (wide_ge s1 s2 hl))

/-- The numbers that `create_inter_side` turns into fractions are within `η` of those of the line. -/
def JointNums.Within (nums : JointNums) (p : Plate) (l : Line3) (idx : ℕ) (η : ℝ) : Prop :=
  let c := fun (q : Pt) (z : ℝ × ℝ) => |(q.1 : ℝ) - z.1| ≤ η ∧ |(q.2 : ℝ) - z.2| ≤ η
  c (nums.dir idx) (p.project l.direction) ∧ c (nums.origs idx).1 (p.project l.origins.1) ∧
    c (nums.origs idx).2.1 (p.project l.origins.2.1) ∧ c (nums.origs idx).2.2.1 (p.project l.origins.2.2.1) ∧
    c (nums.origs idx).2.2.2 (p.project l.origins.2.2.2)

/-- The corners of a joint are at most `M` from the origin, in each coordinate of the sheet. -/
def Plate.Corners (p : Plate) (l : Line3) (M : ℝ) : Prop :=
  let c := fun (z : ℝ × ℝ) => |z.1| ≤ M ∧ |z.2| ≤ M
  c (p.project l.origins.1) ∧ c (p.project l.origins.2.1) ∧ c (p.project l.origins.2.2.1) ∧ c (p.project l.origins.2.2.2)

theorem dot_near {u v : Pt} {x y : ℝ × ℝ} {η M : ℝ} (hη : η ≤ 1 / 100) (hM : 1 ≤ M) (h1 : |(u.1 : ℝ) - x.1| ≤ η)
    (h2 : |(u.2 : ℝ) - x.2| ≤ η) (k1 : |(v.1 : ℝ) - y.1| ≤ η) (k2 : |(v.2 : ℝ) - y.2| ≤ η) (x1 : |x.1| ≤ 1) (x2 : |x.2| ≤ 1)
    (y1 : |y.1| ≤ M) (y2 : |y.2| ≤ M) : |((dot u v : ℚ) : ℝ) - dotR x y| ≤ 5 * (η * M) := by
  have e : ((dot u v : ℚ) : ℝ) - dotR x y = (u.1 - x.1) * y.1 + (u.2 - x.2) * y.2 + ((v.1 - y.1) * x.1 + (v.2 - y.2) * x.2) +
      ((u.1 - x.1) * (v.1 - y.1) + (u.2 - x.2) * (v.2 - y.2)) := by
    unfold dot dotR
    push_cast
    ring
  have a1 := abs_le.1 (near_mul h1 y1)
  have a2 := abs_le.1 (near_mul h2 y2)
  have a3 := abs_le.1 (near_mul k1 x1)
  have a4 := abs_le.1 (near_mul k2 x2)
  have a5 := abs_le.1 (near_mul h1 k1)
  have a6 := abs_le.1 (near_mul h2 k2)
  have η0 : 0 ≤ η := (abs_nonneg _).trans h1
  have m1 : η ≤ η * M := by nlinarith
  have m2 : η * η ≤ 1 / 100 * η := mul_le_mul_of_nonneg_right hη η0
  rw [e, abs_le]
  constructor <;> linarith [a1.1, a1.2, a2.1, a2.2, a3.1, a3.2, a4.1, a4.2, a5.1, a5.2, a6.1, a6.2]

theorem min_near {a b c d ε : ℝ} (h1 : |a - c| ≤ ε) (h2 : |b - d| ≤ ε) : |min a b - min c d| ≤ ε :=
  (abs_min_sub_min_le_max _ _ _ _).trans (max_le h1 h2)

theorem max_near {a b c d ε : ℝ} (h1 : |a - c| ≤ ε) (h2 : |b - d| ≤ ε) : |max a b - max c d| ≤ ε :=
  (abs_max_sub_max_le_max _ _ _ _).trans (max_le h1 h2)

/-- A joint side that `create_inter_side` makes from numbers with errors. -/
theorem within_create {nums : JointNums} {p : Plate} (hp : p.Sound) {l : Line3} (hd : dot3 l.direction l.direction = 1)
    (hn : dot3 p.plane l.direction = 0) {idx : ℕ} {η M : ℝ} (hη : η ≤ 1 / 100) (hM : 1 ≤ M) (h : nums.Within p l idx η)
    (hc : p.Corners l M) (id : Name) (sheet : Sheet) : (createInterSide nums id sheet idx).Within p l (5 * (η * M)) := by
  obtain ⟨h0, h1, h2, h3, h4⟩ := h
  obtain ⟨c1, c2, c3, c4⟩ := hc
  have hu := flat_unit hp hd hn
  have η0 : 0 ≤ η := (abs_nonneg _).trans h0.1
  have m1 : η ≤ 5 * (η * M) := by nlinarith
  have d1 : |(p.project l.direction).1| ≤ 1 := by
    unfold Plate.project
    exact abs_le_one_iff_mul_self_le_one.2 (by nlinarith)
  have d2 : |(p.project l.direction).2| ≤ 1 := by
    unfold Plate.project
    exact abs_le_one_iff_mul_self_le_one.2 (by nlinarith)
  have mn : ∀ x y : ℚ, (if x < y then x else y) = min y x := fun x y => by
    split
    · next h => exact (min_eq_right h.le).symm
    · next h => exact (min_eq_left (not_lt.1 h)).symm
  have mx : ∀ x y : ℚ, (if x > y then x else y) = max y x := fun x y => by
    split
    · next h => exact (max_eq_right (le_of_lt h)).symm
    · next h => exact (max_eq_left (not_lt.1 h)).symm
  have key : ∀ (q : Pt) (z : ℝ × ℝ), |(q.1 : ℝ) - z.1| ≤ η ∧ |(q.2 : ℝ) - z.2| ≤ η → |z.1| ≤ M ∧ |z.2| ≤ M →
      |((dot q ((nums.dir idx).2 * 1, (nums.dir idx).1 * -1) : ℚ) : ℝ) -
        dotR z ((p.project l.direction).2, -(p.project l.direction).1)| ≤ 5 * (η * M) := by
    intro q z hq hz
    have e1 : dot q ((nums.dir idx).2 * 1, (nums.dir idx).1 * -1) = dot ((nums.dir idx).2 * 1, (nums.dir idx).1 * -1) q := by
      unfold dot
      ring
    have e2 : dotR z ((p.project l.direction).2, -(p.project l.direction).1) =
        dotR ((p.project l.direction).2, -(p.project l.direction).1) z := by
      unfold dotR
      ring
    rw [e1, e2]
    refine dot_near hη hM ?_ ?_ hq.1 hq.2 d2 ?_ hz.1 hz.2
    · push_cast
      rw [mul_one]
      exact h0.2
    · push_cast
      rw [mul_neg_one, ← neg_sub', abs_neg]
      exact h0.1
    · dsimp only
      rw [abs_neg]
      exact d1
  refine ⟨h0.1.trans m1, h0.2.trans m1, ?_, dot_near hη hM h0.1 h0.2 h1.1 h1.2 d1 d2 c1.1 c1.2, ?_, ?_⟩
  · unfold createInterSide
    simp
  · unfold createInterSide Plate.low
    simp only [Geom2D.minQ, mn]
    rw [min_assoc]
    push_cast
    exact min_near (min_near (key _ _ h1 c1) (key _ _ h2 c2)) (min_near (key _ _ h3 c3) (key _ _ h4 c4))
  · unfold createInterSide Plate.high
    simp only [Geom2D.maxQ, mx]
    rw [max_assoc]
    push_cast
    exact max_near (max_near (key _ _ h1 c1) (key _ _ h2 c2)) (max_near (key _ _ h3 c3) (key _ _ h4 c4))

/-- `create_sheetplex` gets numbers with errors: where it sees a joint the sheets cross, and the numbers are within `η`
of those of the line. -/
def GeoWithin (geo : Sheet → Sheet → Option JointNums) (plates : Name → Plate) (sheets : List Sheet) (η M : ℝ) : Prop :=
  ∀ x ∈ sheets, ∀ y ∈ sheets, ∀ nums, geo x y = some nums → ∃ l, Crossing (plates x.id) (plates y.id) l ∧
    nums.Within (plates x.id) l 0 η ∧ nums.Within (plates y.id) l 1 η ∧ (plates x.id).Corners l M ∧ (plates y.id).Corners l M

/-- The sheets of a created sheetplex are nearly where they were given. -/
theorem create_nearly {geo : Sheet → Sheet → Option JointNums} {plates : Name → Plate} {sheets : List Sheet} {η M : ℝ}
    (hd : (sheets.map Sheet.id).Nodup) (hg : GeoWithin geo plates sheets η M) (hη : η ≤ 1 / 100) (hM : 1 ≤ M)
    (hs : ∀ x ∈ sheets, (plates x.id).Sound ∧ 10 * (η * M) < (plates x.id).thickness) :
    (createSheetplex geo sheets).Paired ∧ (createSheetplex geo sheets).Sheeted ∧
      NearlyPlaced (createSheetplex geo sheets) plates (5 * (η * M)) := by
  obtain ⟨h1, h2, h3⟩ := create_paired geo sheets hd
  have hn : sheets.Nodup := hd.of_map _
  have key : ∀ e ∈ (createSheetplex geo sheets).intersections, ∃ x ∈ sheets, ∃ y ∈ sheets, ∃ nums l id,
      Crossing (plates x.id) (plates y.id) l ∧ nums.Within (plates x.id) l 0 η ∧ nums.Within (plates y.id) l 1 η ∧
      (plates x.id).Corners l M ∧ (plates y.id).Corners l M ∧
      e.2.sides = [createInterSide nums id x 0, createInterSide nums id y 1] := by
    unfold createSheetplex
    rw [createOuter_eq]
    refine fold_made geo _ _ _ (by simp) fun e he nums hnums => ?_
    obtain ⟨m1, m2, -⟩ := mem_pairs sheets hn e he
    obtain ⟨l, g1, g2, g3, g4, g5⟩ := hg _ m1 _ m2 nums hnums
    exact ⟨_, m1, _, m2, nums, l, _, g1, g2, g3, g4, g5, rfl⟩
  have hsp : (createSheetplex geo sheets).Paired := ⟨h2, h3⟩
  refine ⟨hsp, ⟨?_, fun id s h => ?_⟩, ⟨fun e he => ?_, fun e he => ?_, fun s t hj => ?_⟩⟩
  · rw [h1, List.map_map]
    exact hd
  · obtain ⟨hid, t, ht, -⟩ := interside_spec _ hsp id s h
    obtain ⟨e, he, hst⟩ := joint_sides hsp (s := s) (t := t) ⟨by rw [hid]; exact h, ht⟩
    obtain ⟨x, hx, y, hy, nums, l, i, -, -, -, -, -, hsd⟩ := key e he
    rw [hsd] at hst
    rw [h1]
    rcases hst with hst | hst <;> rw [List.cons.injEq, List.cons.injEq] at hst
    · exact ⟨(x.id, x), List.mem_map_of_mem hx, by rw [← hst.1]; rfl⟩
    · exact ⟨(y.id, y), List.mem_map_of_mem hy, by rw [← hst.2.1]; rfl⟩
  · rw [h1] at he
    obtain ⟨x, hx, rfl⟩ := List.mem_map.1 he
    exact (hs x hx).1
  · rw [h1] at he
    obtain ⟨x, hx, rfl⟩ := List.mem_map.1 he
    have := (hs x hx).2
    dsimp only
    linarith
  · obtain ⟨e, he, hst⟩ := joint_sides hsp hj
    obtain ⟨x, hx, y, hy, nums, l, i, hl, e1, e2, k1, k2, hsd⟩ := key e he
    rw [hsd] at hst
    have w1 := within_create (hs x hx).1 hl.unit hl.first hη hM e1 k1 i x
    have w2 := within_create (hs y hy).1 hl.unit hl.second hη hM e2 k2 i y
    rcases hst with hst | hst <;> rw [List.cons.injEq, List.cons.injEq] at hst <;> obtain ⟨rfl, rfl, -⟩ := hst
    · exact ⟨l, hl, w1, w2⟩
    · exact ⟨_, hl.symm', Within.symm' w2, Within.symm' w1⟩

/-! ### Successful runs -/

/-- The width of a joint seen in a sheet, for two sheets in space. -/
noncomputable def jointWide (a b : Plate) : ℝ :=
  (b.thickness + |Spec.inner a.plane b.plane| * a.thickness) / Real.sqrt (1 - Spec.inner a.plane b.plane ^ 2)

section

variable {ch : Choices} {sq : ℚ → ℚ} (hch : ch.Valid) (hsq : RootLike sq)
  (p : Canned.Params Geom2D) (ho : p.o = codeOps ch sq) (hp : p.Valid) (hgm : ValidGeoms Geom2D.Fine p.geoms)
  (sp : SheetPlex) (hsp : sp.Paired) (hsh : sp.Sheeted) (plates : Name → Plate) {ε : ℝ} (hε : ε ≤ 1 / 100)
  (hpl : NearlyPlaced sp plates ε) (rof : Option Bool)
  (r : Canned.Result Geom2D) (h : Canned.run p sp none rof = .ok r) (hr : r.ok = true)
include hch hsq ho hp hgm hsp hsh hε hpl h hr

/-- C92: the solids that a successful run cuts from two crossing sheets share next to no volume within `R` of the
origin, the fingers of their other joints left aside, even if each number of the joint has an error up to `ε`. -/
theorem c92_run (hrad : 1 ≤ p.supportRadius)
    (hn : ∀ e ∈ sp.sheets, (p.geoms e.2.id).face0.NoIslands ∧ (p.geoms e.2.id).face1.NoIslands)
    (s t : InterSide) (hj : Joint sp s t) {R : ℝ} (hR : 1 ≤ R) (hR' : R + 9 * (ε * R) < 1000)
    (N : ℕ) (hN : ∀ sb0 vs vt cs ct, r.history[0]? = some sb0 → freshInterOk (codeOps ch sq) p.geoms sb0.sheetOk s = .ok vs →
      freshInterOk (codeOps ch sq) p.geoms sb0.sheetOk t = .ok vt → r.sheetbuild.interChosen.get? s.id = some cs →
      r.sheetbuild.interChosen.get? t.id = some ct →
      vs.intervals.length + vt.intervals.length + cs.intervals.length + ct.intervals.length ≤ N) :
    volume ((plates s.sheet).solid (dens Geom2D.region r.sheetCuts s.sheet \ otherFingers r.sheetbuild s) ∩
      (plates t.sheet).solid (dens Geom2D.region r.sheetCuts t.sheet \ otherFingers r.sheetbuild t) ∩
      {x | Spec.inner x x ≤ R ^ 2}) ≤
    ENNReal.ofReal (((tol7 + 36 * ε * R * N) * (jointWide (plates s.sheet) (plates t.sheet) * jointWide (plates t.sheet) (plates s.sheet)) +
        36 * ε * R ^ 2 * (jointWide (plates s.sheet) (plates t.sheet) + jointWide (plates t.sheet) (plates s.sheet))) /
      Real.sqrt (1 - Spec.inner (plates s.sheet).plane (plates t.sheet).plane ^ 2)) := by
  obtain ⟨sb0, r1, r2, r3, r4, r5, r6⟩ := run_cuts hch hsq p ho hp hgm sp hsp hsh (hpl.proper hε hsp hsh) rof r h hr
  obtain ⟨⟨s1, -⟩, s2, -⟩ := hpl.sounds hsp hsh hj
  obtain ⟨l, hl, w1, w2⟩ := hpl.joint s t hj
  have := c92_made hch hsq sp hsp hsh (hpl.proper hε hsp hsh) p.geoms hgm p.supportRadius sb0 r.sheetbuild r1 r6 hrad hn r3 s t hj
    s1 s2 hl w1 w2 hε hR hR' N (fun vs vt cs ct => hN sb0 vs vt cs ct r2)
  rw [← r4] at this
  have e1 : norm3 (cross3 (plates s.sheet).plane (plates t.sheet).plane) =
      Real.sqrt (1 - Spec.inner (plates s.sheet).plane (plates t.sheet).plane ^ 2) := by
    rw [inner_eq, ← hl.angle, Real.sqrt_sq hl.pos.le]
  have e2 : norm3 (cross3 (plates t.sheet).plane (plates s.sheet).plane) =
      Real.sqrt (1 - Spec.inner (plates t.sheet).plane (plates s.sheet).plane ^ 2) := by
    rw [inner_eq, ← hl.symm'.angle, Real.sqrt_sq hl.symm'.pos.le]
  have g1 := seen_wide s1 s2 hl
  have g2 := seen_wide s2 s1 hl.symm'
  rw [low_swap, high_swap] at g2
  rw [e1] at g1
  rw [e2] at g2
  change _ = jointWide _ _ at g1
  change _ = jointWide _ _ at g2
  refine this.trans (le_of_eq ?_)
  rw [e1, ← ENNReal.ofReal_mul (inv_nonneg.2 (Real.sqrt_nonneg _)), g1, g2]
  congr 1
  rw [div_eq_inv_mul]
  ring

end

end Ply
