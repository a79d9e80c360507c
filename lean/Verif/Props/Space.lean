import Verif.Proofs.Space
import Verif.Props.Overlap

/-!
# The joint of two sheets in space (C89)
-/

namespace Ply

open Spec MeasureTheory Set

/-- A sheet as trimesh gives it: the slices are turned by a rotation that takes the z axis to the normal. -/
structure Plate.Sound (p : Plate) : Prop where
  frame : Frame p.ex p.ey p.ez
  up : p.ez = p.plane
  thick : 0 < p.thickness

/-- The points of space between the faces of a sheet. -/
def Plate.slab (p : Plate) : Set V3 := Spec.slab p.plane (p.height - p.thickness) p.height

/-- The solid cut from a sheet along the edge of `Z`. -/
def Plate.solid (p : Plate) (Z : Set (ℝ × ℝ)) : Set V3 :=
  Spec.solid p.ex p.ey p.plane (p.height - p.thickness) p.height Z

theorem Plate.Sound.frame' {p : Plate} (h : p.Sound) : Frame p.ex p.ey p.plane := h.up ▸ h.frame

/-! ### The line -/

/-- A corner of the joint: on the plane of one face of each sheet, and no farther along the joint than the origin. -/
structure Corner (a b : Plate) (d : V3) (i j : ℝ) (o : V3) : Prop where
  first : dot3 a.plane o = a.height - i * a.thickness
  second : dot3 b.plane o = b.height - j * b.thickness
  along : dot3 d o = 0

/-- A line where two sheets cross. -/
structure Crossing (a b : Plate) (l : Line3) : Prop where
  unit : dot3 l.direction l.direction = 1
  first : dot3 a.plane l.direction = 0
  second : dot3 b.plane l.direction = 0
  angle : norm3 (cross3 a.plane b.plane) ^ 2 = 1 - dot3 a.plane b.plane ^ 2
  pos : 0 < norm3 (cross3 a.plane b.plane)
  c00 : Corner a b l.direction 0 0 l.origins.1
  c01 : Corner a b l.direction 0 1 l.origins.2.1
  c10 : Corner a b l.direction 1 0 l.origins.2.2.1
  c11 : Corner a b l.direction 1 1 l.origins.2.2.2

theorem line_crossing {a b : Plate} (ha : a.Sound) (hb : b.Sound) {l : Line3} (h : createLine a b = some l) :
    Crossing a b l ∧ l.direction = (norm3 (cross3 a.plane b.plane))⁻¹ • cross3 a.plane b.plane ∧
      1 / 10000 ≤ norm3 (cross3 a.plane b.plane) := by
  have n1 : dot3 a.plane a.plane = 1 := ha.frame'.ww
  have n2 : dot3 b.plane b.plane = 1 := hb.frame'.ww
  unfold createLine at h
  simp only [Plate.normal, Plate.offset, if_true, if_false, one_ne_zero] at h
  split at h
  · cases h
  · next hl =>
    cases h
    have hl' := not_lt.1 hl
    have hp : 0 < norm3 (cross3 a.plane b.plane) := lt_of_lt_of_le (by norm_num) hl'
    have hsq := norm3_sq (cross3 a.plane b.plane)
    have hang : norm3 (cross3 a.plane b.plane) ^ 2 = 1 - dot3 a.plane b.plane ^ 2 := by
      rw [hsq, cross_cross, n1, n2]; ring
    have f1 : dot3 a.plane ((norm3 (cross3 a.plane b.plane))⁻¹ • cross3 a.plane b.plane) = 0 := by
      rw [dot3_smul, cross_left, mul_zero]
    have f2 : dot3 b.plane ((norm3 (cross3 a.plane b.plane))⁻¹ • cross3 a.plane b.plane) = 0 := by
      rw [dot3_smul, cross_right, mul_zero]
    have hne : (1 : ℝ) - dot3 a.plane b.plane * dot3 a.plane b.plane ≠ 0 := by
      have : (1 : ℝ) - dot3 a.plane b.plane * dot3 a.plane b.plane = norm3 (cross3 a.plane b.plane) ^ 2 := by
        rw [hang]; ring
      rw [this]
      positivity
    refine ⟨⟨?_, f1, f2, hang, hp, ?_, ?_, ?_, ?_⟩, rfl, hl'⟩
    · rw [dot3_smul, smul_dot3, ← hsq]
      field_simp
    all_goals
      dsimp only
    · obtain ⟨k1, k2⟩ := lstsq_solves a.plane b.plane a.height b.height (by rw [n1, n2, one_mul]; exact hne)
      exact ⟨by rw [k1]; ring, by rw [k2]; ring, lstsq_along _ _ _ _ _ f1 f2⟩
    · obtain ⟨k1, k2⟩ := lstsq_solves a.plane (-b.plane) a.height (-(b.height - b.thickness))
        (by simp only [dot3_neg, neg_dot3, n1, n2]; simpa using hne)
      rw [neg_dot3, neg_inj] at k2
      exact ⟨by rw [k1]; ring, by rw [k2]; ring, lstsq_along _ _ _ _ _ f1 (by rw [neg_dot3, f2, neg_zero])⟩
    · obtain ⟨k1, k2⟩ := lstsq_solves (-a.plane) b.plane (-(a.height - a.thickness)) b.height
        (by simp only [dot3_neg, neg_dot3, n1, n2]; simpa using hne)
      rw [neg_dot3, neg_inj] at k1
      exact ⟨by rw [k1]; ring, by rw [k2]; ring, lstsq_along _ _ _ _ _ (by rw [neg_dot3, f1, neg_zero]) f2⟩
    · obtain ⟨k1, k2⟩ := lstsq_solves (-a.plane) (-b.plane) (-(a.height - a.thickness)) (-(b.height - b.thickness))
        (by simp only [dot3_neg, neg_dot3, n1, n2]; simpa using hne)
      rw [neg_dot3, neg_inj] at k1 k2
      exact ⟨by rw [k1]; ring, by rw [k2]; ring,
        lstsq_along _ _ _ _ _ (by rw [neg_dot3, f1, neg_zero]) (by rw [neg_dot3, f2, neg_zero])⟩

/-- C89: there is a joint exactly when the sheets are not almost parallel, in whichever order they are given. -/
theorem c89_crosses {a b : Plate} (ha : a.Sound) (hb : b.Sound) :
    ((createLine a b).isSome ↔ dot3 a.plane b.plane ^ 2 ≤ 1 - (1 / 10000) ^ 2) ∧
    (createLine a b).isSome = (createLine b a).isSome := by
  have n1 : dot3 a.plane a.plane = 1 := ha.frame'.ww
  have n2 : dot3 b.plane b.plane = 1 := hb.frame'.ww
  have key : ∀ {a b : Plate}, dot3 a.plane a.plane = 1 → dot3 b.plane b.plane = 1 →
      ((createLine a b).isSome ↔ dot3 a.plane b.plane ^ 2 ≤ 1 - (1 / 10000) ^ 2) := by
    intro a b n1 n2
    have hsq := norm3_sq (cross3 a.plane b.plane)
    rw [cross_cross, n1, n2] at hsq
    have h0 : 0 ≤ norm3 (cross3 a.plane b.plane) := Real.sqrt_nonneg _
    unfold createLine
    simp only [Plate.normal, if_true]
    split
    · next h =>
      simp only [Option.isSome_none, Bool.false_eq_true, false_iff, not_le]
      nlinarith
    · next h =>
      simp only [Option.isSome_some, true_iff]
      nlinarith
  refine ⟨key n1 n2, ?_⟩
  rw [Bool.eq_iff_iff, key n1 n2, key n2 n1, dot3_comm]

/-! ### Coordinates -/

/-- The direction across the joint, in the plane of the sheet, in space. -/
def Plate.lean (p : Plate) (d : V3) : V3 := dot3 p.ey d • p.ex + -(dot3 p.ex d • p.ey)

theorem lean_dot (p : Plate) (d x : V3) :
    dot3 (p.lean d) x = dot3 p.ey d * dot3 p.ex x - dot3 p.ex d * dot3 p.ey x := by
  unfold Plate.lean
  rw [add_dot3, neg_dot3, smul_dot3, smul_dot3]
  ring

theorem flat_across (p : Plate) (d x : V3) : dotR (p.project x) ((p.project d).2, -(p.project d).1) = dot3 (p.lean d) x := by
  rw [lean_dot]
  unfold dotR Plate.project
  ring

section

variable {p : Plate} (hp : p.Sound) {d : V3} (hd : dot3 d d = 1) (hn : dot3 p.plane d = 0)

include hp hd hn

theorem flat_unit : dot3 p.ex d ^ 2 + dot3 p.ey d ^ 2 = 1 := by
  have := frame_dot hp.frame' d d
  rw [hd, hn] at this
  linarith

theorem lean_frame : Frame d (p.lean d) p.plane := by
  obtain ⟨h1, h2, h3, h4, h5, h6⟩ := hp.frame'
  rw [inner_eq] at *
  have hu := flat_unit hp hd hn
  have e1 : dot3 p.ex (p.lean d) = dot3 p.ey d := by
    rw [dot3_comm, lean_dot, h1, dot3_comm p.ey p.ex, h4]; ring
  have e2 : dot3 p.ey (p.lean d) = -dot3 p.ex d := by
    rw [dot3_comm, lean_dot, h2, h4]; ring
  refine ⟨hd, ?_, h3, ?_, ?_, ?_⟩ <;> rw [inner_eq]
  · rw [lean_dot, e1, e2]; linarith
  · rw [dot3_comm, lean_dot]; ring
  · rw [dot3_comm]; exact hn
  · rw [lean_dot, h5, h6]; ring

omit hd in
/-- Places along the joint do not depend on the sheet. -/
theorem flat_along (x : V3) : dotR (p.project d) (p.project x) = dot3 d x := by
  have := frame_dot hp.frame' d x
  rw [hn] at this
  unfold dotR Plate.project
  dsimp only
  linarith

/-- How far across the joint a point is follows from how far it is from the two sheets. -/
theorem across_offsets {m : V3} (hm : dot3 m d = 0) (x : V3) :
    dot3 (p.lean d) m * dot3 (p.lean d) x = dot3 m x - dot3 p.plane m * dot3 p.plane x := by
  have := frame_dot (lean_frame hp hd hn) m x
  rw [dot3_comm d m, hm] at this
  linarith

theorem lean_sq {m : V3} (hm : dot3 m d = 0) (h1 : dot3 m m = 1) :
    dot3 (p.lean d) m ^ 2 = 1 - dot3 p.plane m ^ 2 := by
  have := across_offsets hp hd hn hm m
  rw [h1] at this
  linear_combination this

end

theorem four_le {sg c v p q p0 p1 q0 q1 v00 v01 v10 v11 M : ℝ} (hs : sg ≠ 0) (hv : sg * v = q - c * p)
    (h00 : sg * v00 = q0 - c * p0) (h01 : sg * v01 = q1 - c * p0) (h10 : sg * v10 = q0 - c * p1)
    (h11 : sg * v11 = q1 - c * p1) (hp : p1 ≤ p ∧ p ≤ p0) (hq : q1 ≤ q ∧ q ≤ q0)
    (m00 : v00 ≤ M) (m01 : v01 ≤ M) (m10 : v10 ≤ M) (m11 : v11 ≤ M) : v ≤ M := by
  rcases lt_or_gt_of_ne hs with h | h
  · rcases le_total 0 c with hc | hc
    · refine le_trans ?_ m01
      nlinarith
    · refine le_trans ?_ m11
      nlinarith
  · rcases le_total 0 c with hc | hc
    · refine le_trans ?_ m10
      nlinarith
    · refine le_trans ?_ m00
      nlinarith

theorem four_ge {sg c v p q p0 p1 q0 q1 v00 v01 v10 v11 M : ℝ} (hs : sg ≠ 0) (hv : sg * v = q - c * p)
    (h00 : sg * v00 = q0 - c * p0) (h01 : sg * v01 = q1 - c * p0) (h10 : sg * v10 = q0 - c * p1)
    (h11 : sg * v11 = q1 - c * p1) (hp : p1 ≤ p ∧ p ≤ p0) (hq : q1 ≤ q ∧ q ≤ q0)
    (m00 : M ≤ v00) (m01 : M ≤ v01) (m10 : M ≤ v10) (m11 : M ≤ v11) : M ≤ v := by
  have := four_le (sg := -sg) (c := c) (v := -v) (p := p) (q := q) (v00 := -v00) (v01 := -v01) (v10 := -v10) (v11 := -v11)
    (M := -M) (neg_ne_zero.2 hs) (by rw [neg_mul_neg]; exact hv) (by rw [neg_mul_neg]; exact h00)
    (by rw [neg_mul_neg]; exact h01) (by rw [neg_mul_neg]; exact h10) (by rw [neg_mul_neg]; exact h11) hp hq
    (neg_le_neg m00) (neg_le_neg m01) (neg_le_neg m10) (neg_le_neg m11)
  exact neg_le_neg_iff.1 this

theorem four_width {sg c p0 q0 tp tq v00 v01 v10 v11 : ℝ} (hs : sg ≠ 0) (htp : 0 ≤ tp) (htq : 0 ≤ tq)
    (h00 : sg * v00 = q0 - c * p0) (h01 : sg * v01 = q0 - tq - c * p0) (h10 : sg * v10 = q0 - c * (p0 - tp))
    (h11 : sg * v11 = q0 - tq - c * (p0 - tp)) :
    max (max v00 v01) (max v10 v11) - min (min v00 v01) (min v10 v11) = (tq + |c| * tp) / |sg| := by
  have k : ∀ {v r}, sg * v = r → v = r / sg := fun {v r} h => by rw [← h]; field_simp
  rw [eq_div_iff (abs_ne_zero.2 hs)]
  rcases lt_or_gt_of_ne hs with h | h
  · have hm : ∀ {x y : ℝ}, sg * y ≤ sg * x → x ≤ y := fun {x y} hh => by nlinarith
    rcases le_total 0 c with hc | hc
    · have := mul_nonneg hc htp
      rw [abs_of_neg h, abs_of_nonneg hc, max_eq_right (hm (by linarith) : v00 ≤ v01),
        max_eq_right (hm (by linarith) : v10 ≤ v11), max_eq_left (hm (by linarith) : v11 ≤ v01),
        min_eq_left (hm (by linarith) : v00 ≤ v01), min_eq_left (hm (by linarith) : v10 ≤ v11),
        min_eq_right (hm (by linarith) : v10 ≤ v00)]
      linarith
    · have hcp : c * tp ≤ 0 := mul_nonpos_of_nonpos_of_nonneg hc htp
      rw [abs_of_neg h, abs_of_nonpos hc, max_eq_right (hm (by linarith) : v00 ≤ v01),
        max_eq_right (hm (by linarith) : v10 ≤ v11), max_eq_right (hm (by linarith) : v01 ≤ v11),
        min_eq_left (hm (by linarith) : v00 ≤ v01), min_eq_left (hm (by linarith) : v10 ≤ v11),
        min_eq_left (hm (by linarith) : v00 ≤ v10)]
      linarith
  · have hm : ∀ {x y : ℝ}, sg * x ≤ sg * y → x ≤ y := fun {x y} hh => by nlinarith
    rcases le_total 0 c with hc | hc
    · have := mul_nonneg hc htp
      rw [abs_of_pos h, abs_of_nonneg hc, max_eq_left (hm (by linarith) : v01 ≤ v00),
        max_eq_left (hm (by linarith) : v11 ≤ v10), max_eq_right (hm (by linarith) : v00 ≤ v10),
        min_eq_right (hm (by linarith) : v01 ≤ v00), min_eq_right (hm (by linarith) : v11 ≤ v10),
        min_eq_left (hm (by linarith) : v01 ≤ v11)]
      linarith
    · have hcp : c * tp ≤ 0 := mul_nonpos_of_nonpos_of_nonneg hc htp
      rw [abs_of_pos h, abs_of_nonpos hc, max_eq_left (hm (by linarith) : v01 ≤ v00),
        max_eq_left (hm (by linarith) : v11 ≤ v10), max_eq_left (hm (by linarith) : v10 ≤ v00),
        min_eq_right (hm (by linarith) : v01 ≤ v00), min_eq_right (hm (by linarith) : v11 ≤ v10),
        min_eq_right (hm (by linarith) : v11 ≤ v01)]
      linarith

/-! ### The sides -/

theorem Crossing.symm' {a b : Plate} {l : Line3} (h : Crossing a b l) :
    Crossing b a ⟨l.direction, l.origins.1, l.origins.2.2.1, l.origins.2.1, l.origins.2.2.2⟩ where
  unit := h.unit
  first := h.second
  second := h.first
  angle := by
    have : cross3 b.plane a.plane = -cross3 a.plane b.plane := by
      unfold cross3
      ext <;> simp <;> ring
    rw [this, norm3, neg_dot3, dot3_neg, neg_neg, dot3_comm b.plane]
    exact h.angle
  pos := by
    have : cross3 b.plane a.plane = -cross3 a.plane b.plane := by
      unfold cross3
      ext <;> simp <;> ring
    rw [this, norm3, neg_dot3, dot3_neg, neg_neg]
    exact h.pos
  c00 := ⟨h.c00.second, h.c00.first, h.c00.along⟩
  c01 := ⟨h.c10.second, h.c10.first, h.c10.along⟩
  c10 := ⟨h.c01.second, h.c01.first, h.c01.along⟩
  c11 := ⟨h.c11.second, h.c11.first, h.c11.along⟩

theorem Exact.symm' {s : InterSide} {p : Plate} {l : Line3} (h : s.Exact p l) :
    s.Exact p ⟨l.direction, l.origins.1, l.origins.2.2.1, l.origins.2.1, l.origins.2.2.2⟩ where
  direction := h.direction
  normal := h.normal
  origin := h.origin
  low := by rw [h.low, min_min_min_comm]
  high := by rw [h.high, max_max_max_comm]

section

variable {a b : Plate} (ha : a.Sound) (hb : b.Sound) {l : Line3} (h : Crossing a b l) {s : InterSide}
  (hs : s.Exact a l)

include ha h hs

/-- C89: the joint sides have directions of length one. -/
theorem exact_scale : s.scale = 1 := by
  unfold InterSide.scale
  have e := Prod.mk.inj hs.direction
  rw [e.1, e.2]
  exact flat_unit ha h.unit h.first

/-- C89: places along the joint are counted from the point nearest to the origin. -/
theorem exact_origin : s.originOffset = 0 := by
  have := hs.origin
  rw [flat_along ha h.first, h.c00.along] at this
  exact_mod_cast this

theorem exact_place (x : V3) : a.project x = s.place (dot3 l.direction x, dot3 (a.lean l.direction) x) := by
  have hu := flat_unit ha h.unit h.first
  have e := Prod.mk.inj hs.direction
  unfold InterSide.place
  rw [exact_origin ha h hs, hs.normal]
  push_cast
  rw [e.1, e.2, ← flat_along ha h.first, lean_dot]
  unfold dotR Plate.project
  ext <;> dsimp only
  · linear_combination (-dot3 a.ex x) * hu
  · linear_combination (-dot3 a.ey x) * hu

theorem exact_place_inj {x : V3} {y : ℝ × ℝ} (hxy : a.project x = s.place y) :
    y = (dot3 l.direction x, dot3 (a.lean l.direction) x) := by
  have hu := flat_unit ha h.unit h.first
  rw [exact_place ha h hs] at hxy
  have e := Prod.mk.inj hs.direction
  unfold InterSide.place at hxy
  rw [hs.normal] at hxy
  push_cast at hxy
  rw [e.1, e.2] at hxy
  obtain ⟨k1, k2⟩ := Prod.mk.inj hxy
  ext <;> dsimp only
  · linear_combination (-dot3 a.ex l.direction) * k1 - dot3 a.ey l.direction * k2 + (dot3 l.direction x - y.1) * hu
  · linear_combination (-dot3 a.ey l.direction) * k1 + dot3 a.ex l.direction * k2 +
      (dot3 (a.lean l.direction) x - y.2) * hu

include hb

omit hs in
theorem lean_ne : dot3 (a.lean l.direction) b.plane ≠ 0 := by
  intro h0
  have := lean_sq ha h.unit h.first h.second hb.frame'.ww
  rw [h0, ← h.angle] at this
  have := h.pos
  nlinarith

omit hs in
theorem lean_abs : |dot3 (a.lean l.direction) b.plane| = norm3 (cross3 a.plane b.plane) := by
  have := lean_sq ha h.unit h.first h.second hb.frame'.ww
  rw [← h.angle] at this
  rw [← abs_of_pos h.pos, ← sq_eq_sq_iff_abs_eq_abs]
  exact this

/-- The points of both sheets lie across the joint side. -/
theorem exact_across {x : V3} (hx : x ∈ a.slab) (hy : x ∈ b.slab) :
    dot3 (a.lean l.direction) x ∈ s.across := by
  have off := across_offsets ha h.unit h.first h.second
  have k0 := off l.origins.1
  have k1 := off l.origins.2.1
  have k2 := off l.origins.2.2.1
  have k3 := off l.origins.2.2.2
  rw [h.c00.first, h.c00.second] at k0
  rw [h.c01.first, h.c01.second] at k1
  rw [h.c10.first, h.c10.second] at k2
  rw [h.c11.first, h.c11.second] at k3
  have hx' : a.height - 1 * a.thickness ≤ dot3 a.plane x ∧ dot3 a.plane x ≤ a.height - 0 * a.thickness := by
    rw [one_mul, zero_mul, sub_zero]; exact hx
  have hy' : b.height - 1 * b.thickness ≤ dot3 b.plane x ∧ dot3 b.plane x ≤ b.height - 0 * b.thickness := by
    rw [one_mul, zero_mul, sub_zero]; exact hy
  unfold InterSide.across
  rw [hs.low, hs.high]
  simp only [flat_across]
  refine ⟨four_ge (lean_ne ha hb h) (off x) k0 k1 k2 k3 hx' hy' ?_ ?_ ?_ ?_,
    four_le (lean_ne ha hb h) (off x) k0 k1 k2 k3 hx' hy' ?_ ?_ ?_ ?_⟩
  · exact (min_le_left _ _).trans (min_le_left _ _)
  · exact (min_le_left _ _).trans (min_le_right _ _)
  · exact (min_le_right _ _).trans (min_le_left _ _)
  · exact (min_le_right _ _).trans (min_le_right _ _)
  · exact (le_max_left _ _).trans (le_max_left _ _)
  · exact (le_max_right _ _).trans (le_max_left _ _)
  · exact (le_max_left _ _).trans (le_max_right _ _)
  · exact (le_max_right _ _).trans (le_max_right _ _)

/-- C89: how wide a joint side is. -/
theorem exact_wide : s.wide =
    (b.thickness + |dot3 a.plane b.plane| * a.thickness) / norm3 (cross3 a.plane b.plane) := by
  have off := across_offsets ha h.unit h.first h.second
  have k0 := off l.origins.1
  have k1 := off l.origins.2.1
  have k2 := off l.origins.2.2.1
  have k3 := off l.origins.2.2.2
  rw [h.c00.first, h.c00.second, zero_mul, zero_mul, sub_zero, sub_zero] at k0
  rw [h.c01.first, h.c01.second, zero_mul, one_mul, sub_zero] at k1
  rw [h.c10.first, h.c10.second, zero_mul, one_mul, sub_zero] at k2
  rw [h.c11.first, h.c11.second, one_mul, one_mul] at k3
  unfold InterSide.wide
  rw [hs.low, hs.high]
  simp only [flat_across]
  rw [four_width (lean_ne ha hb h) ha.thick.le hb.thick.le k0 k1 k2 k3, lean_abs ha hb h]

/-- Across the joint of sheets at right angles. -/
theorem exact_across_square (hsq : dot3 a.plane b.plane = 0) {u : ℝ} (hu : u ∈ s.across) :
    dot3 (a.lean l.direction) b.plane ^ 2 = 1 ∧
    dot3 (a.lean l.direction) b.plane * u ∈ Icc (b.height - b.thickness) b.height := by
  have off := across_offsets ha h.unit h.first h.second
  have sq := lean_sq ha h.unit h.first h.second hb.frame'.ww
  rw [hsq] at sq
  have k0 := off l.origins.1
  have k1 := off l.origins.2.1
  have k2 := off l.origins.2.2.1
  have k3 := off l.origins.2.2.2
  rw [h.c00.second, hsq] at k0
  rw [h.c01.second, hsq] at k1
  rw [h.c10.second, hsq] at k2
  rw [h.c11.second, hsq] at k3
  have htk := hb.thick
  unfold InterSide.across at hu
  rw [hs.low, hs.high] at hu
  simp only [flat_across] at hu
  refine ⟨by linarith, ?_⟩
  generalize dot3 (a.lean l.direction) b.plane = sg at *
  generalize dot3 (a.lean l.direction) l.origins.1 = v0 at *
  generalize dot3 (a.lean l.direction) l.origins.2.1 = v1 at *
  generalize dot3 (a.lean l.direction) l.origins.2.2.1 = v2 at *
  generalize dot3 (a.lean l.direction) l.origins.2.2.2 = v3 at *
  have : sg = 1 ∨ sg = -1 := by
    have : (sg - 1) * (sg + 1) = 0 := by linear_combination sq
    rcases mul_eq_zero.1 this with h0 | h0
    · exact Or.inl (by linarith)
    · exact Or.inr (by linarith)
  rcases this with rfl | rfl
  · have l0 : b.height - b.thickness ≤ u := le_trans (le_min (le_min (by linarith) (by linarith)) (le_min (by linarith) (by linarith))) hu.1
    have l1 : u ≤ b.height := hu.2.trans (max_le (max_le (by linarith) (by linarith)) (max_le (by linarith) (by linarith)))
    exact ⟨by linarith, by linarith⟩
  · have l0 : -b.height ≤ u := le_trans (le_min (le_min (by linarith) (by linarith)) (le_min (by linarith) (by linarith))) hu.1
    have l1 : u ≤ -(b.height - b.thickness) := hu.2.trans (max_le (max_le (by linarith) (by linarith)) (max_le (by linarith) (by linarith)))
    exact ⟨by linarith, by linarith⟩

/-- C89: the sides of such a joint are fit for the later steps. -/
theorem exact_proper : s.Proper where
  dir h0 := by
    have := exact_scale ha h hs
    unfold InterSide.scale at this
    rw [h0] at this
    norm_num at this
  normal := hs.normal
  width := by
    have hw := exact_wide ha hb h hs
    have hp : 0 < s.wide := by
      rw [hw]
      exact div_pos (by have := hb.thick; have := mul_nonneg (abs_nonneg (dot3 a.plane b.plane)) ha.thick.le; linarith) h.pos
    unfold InterSide.wide at hp
    exact_mod_cast sub_pos.1 hp

end

/-- A joint side that `create_inter_side` makes from exact numbers. -/
theorem exact_create {nums : JointNums} {p : Plate} {l : Line3} {idx : ℕ} (h : nums.Exact p l idx) (id : Name) (sheet : Sheet) :
    (createInterSide nums id sheet idx).Exact p l := by
  obtain ⟨h0, h1, h2, h3, h4⟩ := h
  have hd : ∀ (p q : Pt) (u v : ℝ × ℝ), ((p.1 : ℝ), (p.2 : ℝ)) = u → ((q.1 : ℝ), (q.2 : ℝ)) = v →
      ((dot p q : ℚ) : ℝ) = dotR u v := by
    rintro p q _ _ rfl rfl
    unfold dot dotR
    push_cast
    rfl
  have hn : (((((nums.dir idx).2 * 1, (nums.dir idx).1 * -1) : Pt).1 : ℝ), ((((nums.dir idx).2 * 1, (nums.dir idx).1 * -1) : Pt).2 : ℝ)) =
      ((p.project l.direction).2, -(p.project l.direction).1) := by
    rw [← h0]
    push_cast
    simp
  have mn : ∀ x y : ℚ, (if x < y then x else y) = min y x := fun x y => by
    split
    · next h => exact (min_eq_right h.le).symm
    · next h => exact (min_eq_left (not_lt.1 h)).symm
  have mx : ∀ x y : ℚ, (if x > y then x else y) = max y x := fun x y => by
    split
    · next h => exact (max_eq_right (le_of_lt h)).symm
    · next h => exact (max_eq_left (not_lt.1 h)).symm
  refine ⟨h0, ?_, hd _ _ _ _ h0 h1, ?_, ?_⟩
  · unfold createInterSide
    simp
  · unfold createInterSide
    simp only [Geom2D.minQ, mn]
    push_cast
    rw [hd _ _ _ _ h1 hn, hd _ _ _ _ h2 hn, hd _ _ _ _ h3 hn, hd _ _ _ _ h4 hn, min_assoc]
  · unfold createInterSide
    simp only [Geom2D.maxQ, mx]
    push_cast
    rw [hd _ _ _ _ h1 hn, hd _ _ _ _ h2 hn, hd _ _ _ _ h3 hn, hd _ _ _ _ h4 hn, max_assoc]

section

variable {a b : Plate} (ha : a.Sound) (hb : b.Sound) {l : Line3} (hl : createLine a b = some l) {s t : InterSide}
  (hs : s.Exact a l) (ht : t.Exact b l)

include ha hb hl hs ht

/-- C89: the numbers of a joint.  Both sides have directions of length one, count places along the joint from zero,
and are as wide as the sheets are thick and askew. -/
theorem c89_numbers : s.Proper ∧ t.Proper ∧ s.scale = 1 ∧ t.scale = 1 ∧ s.originOffset = 0 ∧ t.originOffset = 0 ∧
    s.wide = (b.thickness + |dot3 a.plane b.plane| * a.thickness) / Real.sqrt (1 - dot3 a.plane b.plane ^ 2) ∧
    t.wide = (a.thickness + |dot3 a.plane b.plane| * b.thickness) / Real.sqrt (1 - dot3 a.plane b.plane ^ 2) := by
  obtain ⟨h, -⟩ := line_crossing ha hb hl
  have h' := h.symm'
  have ht' := Exact.symm' ht
  have e1 : norm3 (cross3 a.plane b.plane) = Real.sqrt (1 - dot3 a.plane b.plane ^ 2) := by
    rw [← h.angle, Real.sqrt_sq h.pos.le]
  have e2 : norm3 (cross3 b.plane a.plane) = Real.sqrt (1 - dot3 a.plane b.plane ^ 2) := by
    rw [dot3_comm a.plane, ← h'.angle, Real.sqrt_sq h'.pos.le]
  refine ⟨exact_proper ha hb h hs, exact_proper hb ha h' ht', exact_scale ha h hs, exact_scale hb h' ht', exact_origin ha h hs,
    exact_origin hb h' ht', ?_, ?_⟩
  · rw [exact_wide ha hb h hs, e1]
  · rw [exact_wide hb ha h' ht', e2, dot3_comm b.plane]

/-- C89: a point that lies between the faces of both sheets is seen from both at the same place along the joint, and
between the bounds across it. -/
theorem c89_seen {x : V3} (hx : x ∈ a.slab) (hy : x ∈ b.slab) : ∃ r u v, u ∈ s.across ∧ v ∈ t.across ∧
    a.project x = s.place (r, u) ∧ b.project x = t.place (r, v) := by
  obtain ⟨h, -⟩ := line_crossing ha hb hl
  exact ⟨_, _, _, exact_across ha hb h hs hx hy, exact_across hb ha h.symm' (Exact.symm' ht) hy hx, exact_place ha h hs x,
    exact_place hb h.symm' (Exact.symm' ht) x⟩

/-- C89: no two points of space are seen at the same place of the joint from both sheets. -/
theorem c89_unique {x y : V3} (h1 : a.project x = a.project y) (h2 : b.project x = b.project y) : x = y := by
  obtain ⟨h, -⟩ := line_crossing ha hb hl
  have e1 := exact_place_inj ha h hs (h1.trans (exact_place ha h hs y))
  have e2 := exact_place_inj hb h.symm' (Exact.symm' ht) (h2.trans (exact_place hb h.symm' (Exact.symm' ht) y))
  obtain ⟨k1, k2⟩ := Prod.mk.inj e1
  obtain ⟨-, k3⟩ := Prod.mk.inj e2
  have fa := lean_frame ha h.unit h.first
  have hn : dot3 a.plane x = dot3 a.plane y := by
    have ob := across_offsets hb h.unit h.second h.first
    have oa := across_offsets ha h.unit h.first h.second
    have a1 := oa x
    have a2 := oa y
    have b1 := ob x
    have b2 := ob y
    have hc := h.angle
    have hp := h.pos
    dsimp only at k3
    rw [k2] at a2
    rw [k3] at b2
    rw [dot3_comm b.plane a.plane] at b1 b2
    have : (dot3 a.plane x - dot3 a.plane y) * norm3 (cross3 a.plane b.plane) ^ 2 = 0 := by
      rw [hc]
      linear_combination dot3 a.plane b.plane * a2 - dot3 a.plane b.plane * a1 + b2 - b1
    rcases mul_eq_zero.1 this with h0 | h0
    · linarith
    · exact absurd h0 (by positivity)
  have key : ∀ z, dot3 z x = dot3 z y := fun z => by
    rw [frame_dot fa z x, frame_dot fa z y, k1, k2, hn]
  have i1 := key (1, 0, 0)
  have i2 := key (0, 1, 0)
  have i3 := key (0, 0, 1)
  unfold dot3 at i1 i2 i3
  simp only [one_mul, zero_mul, add_zero, zero_add] at i1 i2 i3
  exact Prod.ext i1 (Prod.ext i2 i3)

/-- C89 for sheets at right angles: every place of the joint is a point of space between the faces of both. -/
theorem c89_square (hsq : dot3 a.plane b.plane = 0) (r u v : ℝ) (hu : u ∈ s.across) (hv : v ∈ t.across) :
    ∃ x, x ∈ a.slab ∧ x ∈ b.slab ∧ a.project x = s.place (r, u) ∧ b.project x = t.place (r, v) := by
  obtain ⟨h, -⟩ := line_crossing ha hb hl
  have h' := h.symm'
  have ht' := Exact.symm' ht
  obtain ⟨sq1, in1⟩ := exact_across_square ha hb h hs hsq hu
  obtain ⟨sq2, in2⟩ := exact_across_square hb ha h' ht' (by rw [dot3_comm]; exact hsq) hv
  have fa := lean_frame ha h.unit h.first
  obtain ⟨f1, f2, f3, f4, f5, f6⟩ := fa
  simp only [inner_eq] at f1 f2 f3 f4 f5 f6
  let w := dot3 (b.lean l.direction) a.plane * v
  let x : V3 := r • l.direction + (u • a.lean l.direction + w • a.plane)
  have x1 : dot3 l.direction x = r := by
    simp only [x, dot3_add, dot3_smul, f1, f4, f5]; ring
  have x2 : dot3 (a.lean l.direction) x = u := by
    simp only [x, dot3_add, dot3_smul, dot3_comm (a.lean l.direction) l.direction, f2, f4, f6]; ring
  have x3 : dot3 a.plane x = w := by
    simp only [x, dot3_add, dot3_smul, dot3_comm a.plane l.direction, dot3_comm a.plane (a.lean l.direction), f3, f5, f6]; ring
  have oa := across_offsets ha h.unit h.first h.second x
  have ob := across_offsets hb h.unit h.second h.first x
  rw [hsq, x2, zero_mul, sub_zero] at oa
  rw [dot3_comm b.plane, hsq, x3, zero_mul, sub_zero] at ob
  have x4 : dot3 (b.lean l.direction) x = v := by
    have : dot3 (b.lean l.direction) a.plane * (dot3 (b.lean l.direction) a.plane * dot3 (b.lean l.direction) x) =
        dot3 (b.lean l.direction) a.plane * (dot3 (b.lean l.direction) a.plane * v) := by rw [ob]
    rw [← mul_assoc, ← mul_assoc, ← pow_two] at this
    rw [show dot3 (b.lean l.direction) a.plane ^ 2 = 1 from sq2, one_mul, one_mul] at this
    exact this
  refine ⟨x, ?_, ?_, ?_, ?_⟩
  · show _ ≤ dot3 a.plane x ∧ dot3 a.plane x ≤ _
    rw [x3]
    exact in2
  · show _ ≤ dot3 b.plane x ∧ dot3 b.plane x ≤ _
    rw [← oa]
    exact in1
  · rw [exact_place ha h hs, x1, x2]
  · rw [exact_place hb h' ht']
    dsimp only
    rw [x1, x4]

end

end Ply
