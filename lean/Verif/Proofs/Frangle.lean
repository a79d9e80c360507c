import Verif.Model.Frangle
import Verif.Spec.Plane
import Mathlib.Tactic.Linarith
import Mathlib.Tactic.Ring
import Mathlib.Tactic.FieldSimp
import Mathlib.Tactic.NormNum

/-! Helper lemmas for frangles. -/

namespace Ply

theorem pyMod_range (a : ℚ) {m : ℚ} (hm : 0 < m) : 0 ≤ pyMod a m ∧ pyMod a m < m := by
  unfold pyMod
  have h1 := Int.floor_le (a / m)
  have h2 := Int.lt_floor_add_one (a / m)
  rw [le_div_iff₀ hm] at h1
  rw [div_lt_iff₀ hm] at h2
  constructor <;> nlinarith

theorem pyMod_add_mul (a : ℚ) {m : ℚ} (hm : 0 < m) (z : ℤ) : pyMod (a + m * z) m = pyMod a m := by
  unfold pyMod
  have : (a + m * z) / m = a / m + z := by field_simp
  rw [this, Int.floor_add_intCast]
  push_cast
  ring

theorem pyMod_of_range {a m : ℚ} (h0 : 0 ≤ a) (h1 : a < m) : pyMod a m = a := by
  have hm : 0 < m := lt_of_le_of_lt h0 h1
  unfold pyMod
  have : ⌊a / m⌋ = 0 := by
    rw [Int.floor_eq_zero_iff]
    exact ⟨div_nonneg h0 hm.le, by rw [div_lt_one hm]; exact h1⟩
  rw [this]; simp

theorem pyMod_eq_iff {a b m : ℚ} (h0 : 0 ≤ b) (h1 : b < m) (z : ℤ) (h : a = b + m * z) :
    pyMod a m = b := by
  rw [h, pyMod_add_mul b (lt_of_le_of_lt h0 h1), pyMod_of_range h0 h1]

theorem pyMod_decomp (a m : ℚ) : ∃ z : ℤ, a = pyMod a m + m * z := ⟨⌊a / m⌋, by unfold pyMod; ring⟩

/-- The four sides of the unit square. -/
theorem gsv_side {f : ℚ} (h0 : 0 ≤ f) (h8 : f < 8) :
    (f ≤ 1 → frangleUnitSquareVector f = (1, -f)) ∧
    (1 ≤ f → f ≤ 3 → frangleUnitSquareVector f = (2 - f, -1)) ∧
    (3 ≤ f → f ≤ 5 → frangleUnitSquareVector f = (-1, f - 4)) ∧
    (5 ≤ f → f ≤ 7 → frangleUnitSquareVector f = (f - 6, 1)) ∧
    (7 ≤ f → frangleUnitSquareVector f = (1, 8 - f)) := by
  unfold frangleUnitSquareVector
  dsimp only
  rw [pyMod_of_range h0 h8]
  rcases lt_or_ge f 4 with h4 | h4
  · rw [pyMod_of_range h0 h4]
    have e : (f ≤ 2 → |2 - f| = 2 - f) ∧ (2 ≤ f → |2 - f| = f - 2) :=
      ⟨fun h => abs_of_nonneg (by linarith), fun h => by rw [abs_of_nonpos (by linarith)]; ring⟩
    rcases le_total f 2 with h2 | h2
    · rw [e.1 h2]
      refine ⟨?_, ?_, ?_, ?_, ?_⟩ <;> intros <;> (
        split_ifs <;> first | (exfalso; linarith) | (refine Prod.ext ?_ ?_ <;> dsimp only <;> linarith))
    · rw [e.2 h2]
      refine ⟨?_, ?_, ?_, ?_, ?_⟩ <;> intros <;> (
        split_ifs <;> first | (exfalso; linarith) | (refine Prod.ext ?_ ?_ <;> dsimp only <;> linarith))
  · rw [pyMod_eq_iff (a := f) (b := f - 4) (by linarith) (by linarith) 1 (by push_cast; ring)]
    have e : (f ≤ 6 → |2 - (f - 4)| = 6 - f) ∧ (6 ≤ f → |2 - (f - 4)| = f - 6) :=
      ⟨fun h => by rw [abs_of_nonneg (by linarith)]; ring,
       fun h => by rw [abs_of_nonpos (by linarith)]; ring⟩
    rcases le_total f 6 with h2 | h2
    · rw [e.1 h2]
      refine ⟨?_, ?_, ?_, ?_, ?_⟩ <;> intros <;> (
        split_ifs <;> first | (exfalso; linarith) | (refine Prod.ext ?_ ?_ <;> dsimp only <;> linarith))
    · rw [e.2 h2]
      refine ⟨?_, ?_, ?_, ?_, ?_⟩ <;> intros <;> (
        split_ifs <;> first | (exfalso; linarith) | (refine Prod.ext ?_ ?_ <;> dsimp only <;> linarith))

theorem gsv_mod (f : ℚ) : frangleUnitSquareVector (pyMod f 8) = frangleUnitSquareVector f := by
  have h := pyMod_range f (m := 8) (by norm_num)
  unfold frangleUnitSquareVector
  simp only [pyMod_of_range h.1 h.2]

/-- Case split into the sides. -/
theorem gsv_cases {f : ℚ} (h0 : 0 ≤ f) (h8 : f < 8) :
    (f ≤ 1 ∧ frangleUnitSquareVector f = (1, -f)) ∨
    (1 < f ∧ f ≤ 3 ∧ frangleUnitSquareVector f = (2 - f, -1)) ∨
    (3 < f ∧ f ≤ 5 ∧ frangleUnitSquareVector f = (-1, f - 4)) ∨
    (5 < f ∧ f ≤ 7 ∧ frangleUnitSquareVector f = (f - 6, 1)) ∨
    (7 < f ∧ frangleUnitSquareVector f = (1, 8 - f)) := by
  obtain ⟨a, b, c, d, e⟩ := gsv_side h0 h8
  rcases le_or_gt f 1 with h1 | h1
  · exact Or.inl ⟨h1, a h1⟩
  rcases le_or_gt f 3 with h3 | h3
  · exact Or.inr (Or.inl ⟨h1, h3, b h1.le h3⟩)
  rcases le_or_gt f 5 with h5 | h5
  · exact Or.inr (Or.inr (Or.inl ⟨h3, h5, c h3.le h5⟩))
  rcases le_or_gt f 7 with h7 | h7
  · exact Or.inr (Or.inr (Or.inr (Or.inl ⟨h5, h7, d h5.le h7⟩)))
  · exact Or.inr (Or.inr (Or.inr (Or.inr ⟨h7, e h7.le⟩)))

theorem vf_eq {x y o : ℚ} (h : x ≠ 0 ∨ y ≠ 0) (h1 : |x| > |y| → |y / x| = o)
    (h2 : |x| ≤ |y| → 2 - |x / y| = o) :
    vectorFrangle (x, y) = .ok (if x ≥ 0 then (if y ≤ 0 then o else 8 - o)
      else (if y ≤ 0 then 4 - o else 4 + o)) := by
  unfold vectorFrangle
  have e : (if |x| > |y| then |y / x| else 2 - |x / y|) = o := by
    split_ifs with hc
    · exact h1 hc
    · exact h2 (not_lt.1 hc)
  simp only
  rw [if_pos h, e]
  split_ifs <;> rfl

theorem frangle_gsv {f : ℚ} (h0 : 0 ≤ f) (h8 : f < 8) :
    vectorFrangle (frangleUnitSquareVector f) = .ok f := by
  rcases gsv_cases h0 h8 with ⟨h1, e⟩ | ⟨h1, h2, e⟩ | ⟨h1, h2, e⟩ | ⟨h1, h2, e⟩ | ⟨h1, e⟩ <;> rw [e]
  · have ha : |-f| = f := by rw [abs_neg, abs_of_nonneg h0]
    rw [vf_eq (o := f) (Or.inl one_ne_zero)]
    · rw [if_pos (by norm_num), if_pos (by linarith)]
    · intro _; rw [div_one, ha]
    · intro h
      rw [ha, abs_one] at h
      have : f = 1 := by linarith
      subst this; norm_num
  · rw [vf_eq (o := 2 - |2 - f|) (Or.inr (by norm_num))]
    · simp only [show ((-1 : ℚ) ≤ 0) by norm_num, if_true]
      split_ifs with ha
      · rw [abs_of_nonneg ha]; congr 1; ring
      · rw [abs_of_nonpos (by linarith)]; congr 1; ring
    · intro h
      rw [abs_neg, abs_one, gt_iff_lt, lt_abs] at h
      exfalso
      rcases h with h | h <;> linarith
    · intro _
      rw [div_neg, div_one, abs_neg]
  · rw [vf_eq (o := |f - 4|) (Or.inl (by norm_num))]
    · rw [if_neg (by norm_num)]
      split_ifs with ha
      · rw [abs_of_nonpos ha]; congr 1; ring
      · rw [abs_of_nonneg (by linarith)]; congr 1; ring
    · intro _
      rw [div_neg, div_one, abs_neg]
    · intro h
      rw [abs_neg, abs_one] at h
      have : |f - 4| = 1 := le_antisymm (by rw [abs_le]; constructor <;> linarith) h
      rw [abs_div, this]; norm_num
  · rw [vf_eq (o := 2 - |f - 6|) (Or.inr (by norm_num))]
    · simp only [show ¬ ((1 : ℚ) ≤ 0) by norm_num, if_false]
      split_ifs with ha
      · rw [abs_of_nonneg ha]; congr 1; ring
      · rw [abs_of_nonpos (by linarith)]; congr 1; ring
    · intro h
      rw [abs_one, gt_iff_lt, lt_abs] at h
      exfalso
      rcases h with h | h <;> linarith
    · intro _
      rw [div_one]
  · have ha : |8 - f| = 8 - f := abs_of_nonneg (by linarith)
    rw [vf_eq (o := 8 - f) (Or.inl one_ne_zero)]
    · rw [if_pos (by norm_num), if_neg (by linarith)]; congr 1; ring
    · intro _; rw [div_one, ha]
    · intro h
      rw [ha, abs_one] at h
      exfalso; linarith

theorem frangle_scale {k : ℚ} (hk : 0 < k) (v : Pt) :
    vectorFrangle (scale k v) = vectorFrangle v := by
  unfold vectorFrangle scale
  have e1 : (k * v.1 ≠ 0 ∨ k * v.2 ≠ 0) ↔ (v.1 ≠ 0 ∨ v.2 ≠ 0) := by
    simp [hk.ne']
  have e2 : |k * v.1| > |k * v.2| ↔ |v.1| > |v.2| := by
    rw [abs_mul, abs_mul, abs_of_pos hk, gt_iff_lt, mul_lt_mul_iff_right₀ hk]
  have e3 : k * v.2 / (k * v.1) = v.2 / v.1 := mul_div_mul_left _ _ hk.ne'
  have e4 : k * v.1 / (k * v.2) = v.1 / v.2 := mul_div_mul_left _ _ hk.ne'
  have e5 : k * v.1 ≥ 0 ↔ v.1 ≥ 0 := by rw [ge_iff_le, mul_nonneg_iff_of_pos_left hk]
  have e6 : k * v.2 ≤ 0 ↔ v.2 ≤ 0 := by
    rw [← not_lt, ← not_lt, mul_pos_iff_of_pos_left hk]
  simp only [e1, e2, e3, e4, e5, e6]

/-- Every non-zero vector is a positive multiple of a vector on the square. -/
theorem exists_gsv (v : Pt) (hv : v.1 ≠ 0 ∨ v.2 ≠ 0) :
    ∃ k f : ℚ, 0 < k ∧ 0 ≤ f ∧ f < 8 ∧ v = scale k (frangleUnitSquareVector f) := by
  obtain ⟨x, y⟩ := v
  simp only at hv
  by_cases hxy : |y| ≤ |x|
  · have hx : x ≠ 0 := by
      rintro rfl
      rw [abs_zero] at hxy
      have : y = 0 := abs_nonpos_iff.1 hxy
      simp [this] at hv
    rcases lt_or_gt_of_ne hx with h | h
    · -- left side
      have hq : y / (-x) ≤ 1 ∧ -1 ≤ y / (-x) := by
        rw [abs_of_neg h, abs_le] at hxy
        rw [div_le_iff₀ (by linarith), le_div_iff₀ (by linarith)]
        constructor <;> linarith
      refine ⟨-x, 4 + y / (-x), by linarith, by linarith, by linarith, ?_⟩
      rw [(gsv_side (by linarith) (by linarith)).2.2.1 (by linarith) (by linarith)]
      unfold scale
      ext
      · simp
      · have : -x ≠ 0 := by linarith
        simp only; field_simp; ring
    · have hq : y / x ≤ 1 ∧ -1 ≤ y / x := by
        rw [abs_of_pos h, abs_le] at hxy
        rw [div_le_iff₀ (by linarith), le_div_iff₀ (by linarith)]
        constructor <;> linarith
      rcases le_or_gt y 0 with hy | hy
      · have hn : y / x ≤ 0 := div_nonpos_of_nonpos_of_nonneg hy h.le
        refine ⟨x, -(y / x), h, by linarith, by linarith, ?_⟩
        rw [(gsv_side (by linarith) (by linarith)).1 (by linarith)]
        unfold scale
        ext
        · simp
        · simp only; field_simp
      · have hn : 0 < y / x := div_pos hy h
        refine ⟨x, 8 - y / x, h, by linarith, by linarith, ?_⟩
        rw [(gsv_side (by linarith) (by linarith)).2.2.2.2 (by linarith)]
        unfold scale
        ext
        · simp
        · simp only; field_simp; ring
  · rw [not_le] at hxy
    have hy : y ≠ 0 := by
      rintro rfl
      rw [abs_zero] at hxy
      exact absurd hxy (not_lt.2 (abs_nonneg _))
    rcases lt_or_gt_of_ne hy with h | h
    · have hq : x / (-y) ≤ 1 ∧ -1 ≤ x / (-y) := by
        rw [abs_of_neg h, abs_lt] at hxy
        rw [div_le_iff₀ (by linarith), le_div_iff₀ (by linarith)]
        constructor <;> linarith
      refine ⟨-y, 2 - x / (-y), by linarith, by linarith, by linarith, ?_⟩
      rw [(gsv_side (by linarith) (by linarith)).2.1 (by linarith) (by linarith)]
      unfold scale
      ext
      · have : -y ≠ 0 := by linarith
        simp only; field_simp; ring
      · simp
    · have hq : x / y ≤ 1 ∧ -1 ≤ x / y := by
        rw [abs_of_pos h, abs_lt] at hxy
        rw [div_le_iff₀ (by linarith), le_div_iff₀ (by linarith)]
        constructor <;> linarith
      refine ⟨y, 6 + x / y, h, by linarith, by linarith, ?_⟩
      rw [(gsv_side (by linarith) (by linarith)).2.2.2.1 (by linarith) (by linarith)]
      unfold scale
      ext
      · simp only; field_simp; ring
      · simp

theorem gsv_cross {f g : ℚ} (hf : 0 ≤ f) (hfg : f ≤ g) (hg : g < 8) :
    (g = f ∨ g = f + 4 → cross (frangleUnitSquareVector f) (frangleUnitSquareVector g) = 0) ∧
    (f < g → g < f + 4 → cross (frangleUnitSquareVector f) (frangleUnitSquareVector g) < 0) ∧
    (f + 4 < g → 0 < cross (frangleUnitSquareVector f) (frangleUnitSquareVector g)) := by
  unfold cross
  rcases gsv_cases hf (lt_of_le_of_lt hfg hg) with
    ⟨h1, e⟩ | ⟨h1, h2, e⟩ | ⟨h1, h2, e⟩ | ⟨h1, h2, e⟩ | ⟨h1, e⟩ <;>
  rcases gsv_cases (hf.trans hfg) hg with
    ⟨k1, e'⟩ | ⟨k1, k2, e'⟩ | ⟨k1, k2, e'⟩ | ⟨k1, k2, e'⟩ | ⟨k1, e'⟩ <;>
  rw [e, e'] <;> simp only <;>
  refine ⟨?_, ?_, ?_⟩ <;>
  first
    | (rintro (rfl | rfl) <;> first | (exfalso; linarith) | ring)
    | (intros; exfalso; linarith)
    | (intros; nlinarith)

end Ply
