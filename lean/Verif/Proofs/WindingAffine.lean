import Verif.Proofs.Primitive2D
import Mathlib.Data.Finset.Lattice.Fold
import Mathlib.Data.Set.Finite.Basic
import Mathlib.Algebra.CharZero.Infinite
import Mathlib.Tactic.Positivity

/-! Winding numbers: triangles, fans and affine maps. -/

namespace Ply

theorem orient_swap (a b p : Pt) : orient b a p = -orient a b p := by unfold orient; ring

theorem crossing_swap (p a b : Pt) : crossing p b a = -crossing p a b := by
  unfold crossing
  rw [orient_swap]
  by_cases h1 : a.2 ≤ p.2 ∧ p.2 < b.2 ∧ 0 < orient a b p
  · rw [if_pos h1, if_neg (by rintro ⟨h, _⟩; linarith [h1.2.1]), if_pos ⟨h1.1, h1.2.1, by linarith⟩]
  · rw [if_neg h1]
    by_cases h2 : b.2 ≤ p.2 ∧ p.2 < a.2 ∧ orient a b p < 0
    · rw [if_pos h2, if_pos ⟨h2.1, h2.2.1, by linarith⟩]; rfl
    · rw [if_neg h2, if_neg (by rintro ⟨x, y, z⟩; exact h2 ⟨x, y, by linarith⟩),
        if_neg (by rintro ⟨x, y, z⟩; exact h1 ⟨x, y, by linarith⟩)]; rfl

/-- Common strict sign of three numbers. -/
def sgn3 (x y z : ℚ) : ℤ :=
  if 0 < x ∧ 0 < y ∧ 0 < z then 1 else if x < 0 ∧ y < 0 ∧ z < 0 then -1 else 0

theorem sgn3_rot (x y z : ℚ) : sgn3 y z x = sgn3 x y z := by
  unfold sgn3
  have e1 : (0 < y ∧ 0 < z ∧ 0 < x) ↔ (0 < x ∧ 0 < y ∧ 0 < z) := by tauto
  have e2 : (y < 0 ∧ z < 0 ∧ x < 0) ↔ (x < 0 ∧ y < 0 ∧ z < 0) := by tauto
  simp only [e1, e2]

theorem bary_y (a b c p : Pt) :
    orient a b p * (c.2 - p.2) + orient b c p * (a.2 - p.2) + orient c a p * (b.2 - p.2) = 0 := by
  unfold orient; ring

theorem orient_ne_of_straddle {a b p : Pt} (h : ¬ OnSeg (a, b) p)
    (hs : (a.2 ≤ p.2 ∧ p.2 < b.2) ∨ (b.2 ≤ p.2 ∧ p.2 < a.2)) : orient a b p ≠ 0 := by
  intro ho
  have hne : a.2 ≠ b.2 := by rcases hs with ⟨x, y⟩ | ⟨x, y⟩ <;> intro hc <;> linarith
  apply h
  rw [onSeg_iff_of_y hne]
  refine ⟨ho, ?_⟩
  rcases hs with ⟨c1, c2⟩ | ⟨c1, c2⟩
  · exact ⟨(min_le_left _ _).trans c1, c2.le.trans (le_max_right _ _)⟩
  · exact ⟨(min_le_right _ _).trans c1, c2.le.trans (le_max_left _ _)⟩

theorem crossing_up {p a b : Pt} (h1 : a.2 ≤ p.2) (h2 : p.2 < b.2) :
    crossing p a b = if 0 < orient a b p then 1 else 0 := by
  unfold crossing
  by_cases h : 0 < orient a b p
  · rw [if_pos ⟨h1, h2, h⟩, if_pos h]
  · rw [if_neg (fun hc => h hc.2.2), if_neg (by rintro ⟨hc, _⟩; linarith), if_neg h]

theorem crossing_down {p a b : Pt} (h1 : b.2 ≤ p.2) (h2 : p.2 < a.2) :
    crossing p a b = if orient a b p < 0 then -1 else 0 := by
  unfold crossing
  rw [if_neg (by rintro ⟨hc, _⟩; linarith)]
  by_cases h : orient a b p < 0
  · rw [if_pos ⟨h1, h2, h⟩, if_pos h]
  · rw [if_neg (fun hc => h hc.2.2), if_neg h]

theorem crossing_above {p a b : Pt} (h1 : p.2 < a.2) (h2 : p.2 < b.2) : crossing p a b = 0 := by
  unfold crossing
  rw [if_neg (by rintro ⟨hc, _⟩; linarith), if_neg (by rintro ⟨hc, _⟩; linarith)]

theorem crossing_below {p a b : Pt} (h1 : a.2 ≤ p.2) (h2 : b.2 ≤ p.2) : crossing p a b = 0 := by
  unfold crossing
  rw [if_neg (by rintro ⟨_, hc, _⟩; linarith), if_neg (by rintro ⟨_, hc, _⟩; linarith)]

/-- Exactly `b` is above the level. -/
theorem tri_one_above {p a b c : Pt} (hab : ¬ OnSeg (a, b) p) (hbc : ¬ OnSeg (b, c) p)
    (hca : ¬ OnSeg (c, a) p) (ha : a.2 ≤ p.2) (hb : p.2 < b.2) (hc : c.2 ≤ p.2) :
    crossing p a b + crossing p b c + crossing p c a =
      sgn3 (orient a b p) (orient b c p) (orient c a p) := by
  rw [crossing_up ha hb, crossing_down hc hb, crossing_below hc ha]
  have n1 := orient_ne_of_straddle hab (Or.inl ⟨ha, hb⟩)
  have n2 := orient_ne_of_straddle hbc (Or.inr ⟨hc, hb⟩)
  have hbary := bary_y a b c p
  -- when both remaining vertices are level with the point
  have hlevel : a.2 = p.2 → c.2 = p.2 →
      ((0 < orient a b p ∧ 0 < orient b c p) ∨ (orient a b p < 0 ∧ orient b c p < 0)) → False := by
    intro e1 e2 hsign
    apply hca
    rw [onSeg_iff_of_horizontal (by rw [e1, e2])]
    refine ⟨e2.symm, ?_⟩
    have f1 : orient a b p = (b.2 - p.2) * (a.1 - p.1) := by unfold orient; rw [e1]; ring
    have f2 : orient b c p = (b.2 - p.2) * (p.1 - c.1) := by unfold orient; rw [e2]; ring
    have hbp : 0 < b.2 - p.2 := by linarith
    rw [f1, f2] at hsign
    rcases hsign with ⟨s1, s2⟩ | ⟨s1, s2⟩
    · have s1' := (mul_pos_iff_of_pos_left hbp).1 s1
      have s2' := (mul_pos_iff_of_pos_left hbp).1 s2
      exact ⟨(min_le_left _ _).trans (by linarith), (by linarith : p.1 ≤ a.1).trans (le_max_right _ _)⟩
    · have s1' : a.1 - p.1 < 0 := by
        by_contra hh; exact absurd (mul_nonneg hbp.le (not_lt.1 hh)) (not_le.2 s1)
      have s2' : p.1 - c.1 < 0 := by
        by_contra hh; exact absurd (mul_nonneg hbp.le (not_lt.1 hh)) (not_le.2 s2)
      exact ⟨(min_le_right _ _).trans (by linarith), (by linarith : p.1 ≤ c.1).trans (le_max_left _ _)⟩
  generalize orient a b p = α at *
  generalize orient b c p = β at *
  generalize orient c a p = γ at *
  unfold sgn3
  have hbp : 0 < b.2 - p.2 := by linarith
  rcases lt_or_gt_of_ne n1 with s1 | s1 <;> rcases lt_or_gt_of_ne n2 with s2 | s2
  · have hγ : γ < 0 := by
      by_contra hh
      rw [not_lt] at hh
      have t1 : 0 ≤ α * (c.2 - p.2) := mul_nonneg_of_nonpos_of_nonpos s1.le (by linarith)
      have t2 : 0 ≤ β * (a.2 - p.2) := mul_nonneg_of_nonpos_of_nonpos s2.le (by linarith)
      have t3 : 0 ≤ γ * (b.2 - p.2) := mul_nonneg hh hbp.le
      have z1 : α * (c.2 - p.2) = 0 := by linarith
      have z2 : β * (a.2 - p.2) = 0 := by linarith
      rcases mul_eq_zero.1 z1 with z | z
      · linarith
      rcases mul_eq_zero.1 z2 with z' | z'
      · linarith
      exact hlevel (by linarith) (by linarith) (Or.inr ⟨s1, s2⟩)
    rw [if_neg (by linarith), if_pos s2, if_neg (by rintro ⟨h, _⟩; linarith), if_pos ⟨s1, s2, hγ⟩]
    rfl
  · rw [if_neg (by linarith), if_neg (by linarith), if_neg (by rintro ⟨h, _⟩; linarith),
      if_neg (by rintro ⟨_, h, _⟩; linarith)]
    rfl
  · rw [if_pos s1, if_pos s2, if_neg (by rintro ⟨_, h, _⟩; linarith),
      if_neg (by rintro ⟨h, _⟩; linarith)]
    rfl
  · have hγ : 0 < γ := by
      by_contra hh
      rw [not_lt] at hh
      have t1 : α * (c.2 - p.2) ≤ 0 := mul_nonpos_of_nonneg_of_nonpos s1.le (by linarith)
      have t2 : β * (a.2 - p.2) ≤ 0 := mul_nonpos_of_nonneg_of_nonpos s2.le (by linarith)
      have t3 : γ * (b.2 - p.2) ≤ 0 := mul_nonpos_of_nonpos_of_nonneg hh hbp.le
      have z1 : α * (c.2 - p.2) = 0 := by linarith
      have z2 : β * (a.2 - p.2) = 0 := by linarith
      rcases mul_eq_zero.1 z1 with z | z
      · linarith
      rcases mul_eq_zero.1 z2 with z' | z'
      · linarith
      exact hlevel (by linarith) (by linarith) (Or.inl ⟨s1, s2⟩)
    rw [if_pos s1, if_neg (by linarith), if_pos ⟨s1, s2, hγ⟩]
    rfl

/-- Exactly `b` is not above the level. -/
theorem tri_two_above {p a b c : Pt} (hab : ¬ OnSeg (a, b) p) (hbc : ¬ OnSeg (b, c) p)
    (ha : p.2 < a.2) (hb : b.2 ≤ p.2) (hc : p.2 < c.2) :
    crossing p a b + crossing p b c + crossing p c a =
      sgn3 (orient a b p) (orient b c p) (orient c a p) := by
  rw [crossing_down hb ha, crossing_up hb hc, crossing_above hc ha]
  have n1 := orient_ne_of_straddle hab (Or.inr ⟨hb, ha⟩)
  have n2 := orient_ne_of_straddle hbc (Or.inl ⟨hb, hc⟩)
  have hbary := bary_y a b c p
  generalize orient a b p = α at *
  generalize orient b c p = β at *
  generalize orient c a p = γ at *
  unfold sgn3
  have hap : 0 < a.2 - p.2 := by linarith
  have hcp : 0 < c.2 - p.2 := by linarith
  rcases lt_or_gt_of_ne n1 with s1 | s1 <;> rcases lt_or_gt_of_ne n2 with s2 | s2
  · have hγ : γ < 0 := by
      by_contra hh
      rw [not_lt] at hh
      have t1 := mul_neg_of_neg_of_pos s1 hcp
      have t2 := mul_neg_of_neg_of_pos s2 hap
      have t3 : γ * (b.2 - p.2) ≤ 0 := mul_nonpos_of_nonneg_of_nonpos hh (by linarith)
      linarith
    rw [if_pos s1, if_neg (by linarith), if_neg (by rintro ⟨h, _⟩; linarith), if_pos ⟨s1, s2, hγ⟩]
    rfl
  · rw [if_pos s1, if_pos s2, if_neg (by rintro ⟨h, _⟩; linarith),
      if_neg (by rintro ⟨_, h, _⟩; linarith)]
    rfl
  · rw [if_neg (by linarith), if_neg (by linarith), if_neg (by rintro ⟨_, h, _⟩; linarith),
      if_neg (by rintro ⟨h, _⟩; linarith)]
    rfl
  · have hγ : 0 < γ := by
      by_contra hh
      rw [not_lt] at hh
      have t1 := mul_pos s1 hcp
      have t2 := mul_pos s2 hap
      have t3 : 0 ≤ γ * (b.2 - p.2) := mul_nonneg_of_nonpos_of_nonpos hh (by linarith)
      linarith
    rw [if_neg (by linarith), if_pos s2, if_pos ⟨s1, s2, hγ⟩]
    rfl

/-- Signed crossings of a triangle around a point off its edges. -/
theorem tri_crossing {p a b c : Pt} (hab : ¬ OnSeg (a, b) p) (hbc : ¬ OnSeg (b, c) p)
    (hca : ¬ OnSeg (c, a) p) :
    crossing p a b + crossing p b c + crossing p c a =
      sgn3 (orient a b p) (orient b c p) (orient c a p) := by
  have hbary := bary_y a b c p
  rcases lt_or_ge p.2 a.2 with ha | ha <;> rcases lt_or_ge p.2 b.2 with hb | hb <;>
    rcases lt_or_ge p.2 c.2 with hc | hc
  · rw [crossing_above ha hb, crossing_above hb hc, crossing_above hc ha]
    unfold sgn3
    rw [if_neg, if_neg]
    · rfl
    · rintro ⟨s1, s2, s3⟩
      have := mul_neg_of_neg_of_pos s1 (by linarith : 0 < c.2 - p.2)
      have := mul_neg_of_neg_of_pos s2 (by linarith : 0 < a.2 - p.2)
      have := mul_neg_of_neg_of_pos s3 (by linarith : 0 < b.2 - p.2)
      linarith
    · rintro ⟨s1, s2, s3⟩
      have := mul_pos s1 (by linarith : 0 < c.2 - p.2)
      have := mul_pos s2 (by linarith : 0 < a.2 - p.2)
      have := mul_pos s3 (by linarith : 0 < b.2 - p.2)
      linarith
  · -- a, b above; c not: rotate so that c is in the middle
    have := tri_two_above hbc hca hb hc ha
    rw [sgn3_rot] at this
    rw [← this]; ring
  · exact tri_two_above hab hbc ha hb hc
  · -- only a above
    have := tri_one_above hca hab hbc hc ha hb
    rw [← sgn3_rot] at this
    rw [← this]; ring
  · -- b, c above; a not
    have := tri_two_above hca hab hc ha hb
    rw [← sgn3_rot] at this
    rw [← this]; ring
  · exact tri_one_above hab hbc hca ha hb hc
  · -- only c above
    have := tri_one_above hbc hca hab hb hc ha
    rw [sgn3_rot] at this
    rw [← this]; ring
  · rw [crossing_below ha hb, crossing_below hb hc, crossing_below hc ha]
    have hzero : a.2 = p.2 → b.2 = p.2 → orient a b p = 0 := by
      intro e1 e2; unfold orient; rw [e1, e2]; ring
    unfold sgn3
    rw [if_neg, if_neg]
    · rfl
    · rintro ⟨s1, s2, s3⟩
      have t1 := mul_nonneg_of_nonpos_of_nonpos s1.le (by linarith : c.2 - p.2 ≤ 0)
      have t2 := mul_nonneg_of_nonpos_of_nonpos s2.le (by linarith : a.2 - p.2 ≤ 0)
      have t3 := mul_nonneg_of_nonpos_of_nonpos s3.le (by linarith : b.2 - p.2 ≤ 0)
      have z2 : orient b c p * (a.2 - p.2) = 0 := by linarith
      have z3 : orient c a p * (b.2 - p.2) = 0 := by linarith
      rcases mul_eq_zero.1 z2 with z | z
      · linarith
      rcases mul_eq_zero.1 z3 with z' | z'
      · linarith
      have := hzero (by linarith) (by linarith)
      linarith
    · rintro ⟨s1, s2, s3⟩
      have t1 := mul_nonpos_of_nonneg_of_nonpos s1.le (by linarith : c.2 - p.2 ≤ 0)
      have t2 := mul_nonpos_of_nonneg_of_nonpos s2.le (by linarith : a.2 - p.2 ≤ 0)
      have t3 := mul_nonpos_of_nonneg_of_nonpos s3.le (by linarith : b.2 - p.2 ≤ 0)
      have z2 : orient b c p * (a.2 - p.2) = 0 := by linarith
      have z3 : orient c a p * (b.2 - p.2) = 0 := by linarith
      rcases mul_eq_zero.1 z2 with z | z
      · linarith
      rcases mul_eq_zero.1 z3 with z' | z'
      · linarith
      have := hzero (by linarith) (by linarith)
      linarith

/-! ### Fans -/

theorem sum_map_add_int {α : Type*} (l : List α) (f g : α → ℤ) :
    (l.map fun e => f e + g e).sum = (l.map f).sum + (l.map g).sum := by
  induction l with
  | nil => simp
  | cons a l ih => simp only [List.map_cons, List.sum_cons, ih]; ring

/-- A point in general position with respect to `p` and a list of points other than `p`. -/
theorem exists_generic (p : Pt) (l : List Pt) (h : ∀ v ∈ l, v ≠ p) :
    ∃ q : Pt, ∀ v ∈ l, orient q v p ≠ 0 := by
  classical
  obtain ⟨t, ht⟩ := Infinite.exists_notMem_finset
    ((l.map fun v => (v.2 - p.2) / (v.1 - p.1)).toFinset : Finset ℚ)
  refine ⟨(p.1 + 1, p.2 + t), fun v hv ho => ?_⟩
  unfold orient at ho
  simp only at ho
  by_cases hx : v.1 = p.1
  · have : v.2 = p.2 := by rw [hx] at ho; linarith
    exact h v hv (Prod.ext hx this)
  · apply ht
    rw [List.mem_toFinset, List.mem_map]
    refine ⟨v, hv, ?_⟩
    have : v.1 - p.1 ≠ 0 := fun hc => hx (by linarith)
    rw [div_eq_iff this]
    linarith

/-- The winding number as a sum over the triangles of a fan with generic apex. -/
theorem windingNumber_fan (poly : List Pt) (p q : Pt) (hp : ¬ OnBoundary poly p)
    (hq : ∀ v ∈ poly, orient q v p ≠ 0) :
    windingNumber poly p =
      ((polyEdges poly).map fun e =>
        sgn3 (orient q e.1 p) (orient e.1 e.2 p) (orient e.2 q p)).sum := by
  have h1 : ((polyEdges poly).map fun e =>
        sgn3 (orient q e.1 p) (orient e.1 e.2 p) (orient e.2 q p)) =
      (polyEdges poly).map fun e => crossing p e.1 e.2 +
        ((fun v => -crossing p q v) e.2 - (fun v => -crossing p q v) e.1) := by
    apply List.map_congr_left
    intro e he
    obtain ⟨m1, m2⟩ := polyEdges_mem he
    rw [← tri_crossing, crossing_swap p q e.2]
    · ring
    · intro hc; exact hq _ m1 (onSeg_orient hc)
    · intro hc; exact hp ⟨e, he, hc⟩
    · intro hc
      have := onSeg_orient hc
      rw [orient_swap] at this
      exact hq _ m2 (by linarith)
  rw [h1, sum_map_add_int, polyEdges_telescope (fun v => -crossing p q v), add_zero]
  rfl

/-! ### Affine maps -/

theorem orient_affine (A : Affine) (a b p : Pt) :
    orient (A.app a) (A.app b) (A.app p) = A.det * orient a b p := by
  unfold orient Affine.app Affine.det; ring

theorem along_affine (A : Affine) (s : Seg) (t : ℚ) :
    A.app (along s t) = along (A.app s.1, A.app s.2) t := by
  unfold along Affine.app
  ext <;> simp only <;> ring

theorem affine_injective (A : Affine) (hA : A.det ≠ 0) {p q : Pt} (h : A.app p = A.app q) :
    p = q := by
  unfold Affine.app at h
  have h1 := congrArg Prod.fst h
  have h2 := congrArg Prod.snd h
  simp only at h1 h2
  unfold Affine.det at hA
  have e1 : (A.a * A.d - A.b * A.c) * (p.1 - q.1) = 0 := by linear_combination A.d * h1 - A.b * h2
  have e2 : (A.a * A.d - A.b * A.c) * (p.2 - q.2) = 0 := by linear_combination A.a * h2 - A.c * h1
  refine Prod.ext ?_ ?_
  · rcases mul_eq_zero.1 e1 with h | h
    · exact absurd h hA
    · linarith
  · rcases mul_eq_zero.1 e2 with h | h
    · exact absurd h hA
    · linarith

theorem onSeg_affine (A : Affine) (hA : A.det ≠ 0) (s : Seg) (p : Pt) :
    OnSeg (A.app s.1, A.app s.2) (A.app p) ↔ OnSeg s p := by
  constructor
  · rintro ⟨t, h0, h1, h⟩
    refine ⟨t, h0, h1, affine_injective A hA ?_⟩
    rw [along_affine]; exact h
  · rintro ⟨t, h0, h1, rfl⟩
    exact ⟨t, h0, h1, along_affine A s t⟩

theorem onBoundary_affine (A : Affine) (hA : A.det ≠ 0) (poly : List Pt) (p : Pt) :
    OnBoundary (poly.map A.app) (A.app p) ↔ OnBoundary poly p := by
  unfold OnBoundary
  rw [polyEdges_map]
  constructor
  · rintro ⟨e, he, ho⟩
    obtain ⟨e', he', rfl⟩ := List.mem_map.1 he
    exact ⟨e', he', (onSeg_affine A hA e' p).1 ho⟩
  · rintro ⟨e, he, ho⟩
    exact ⟨_, List.mem_map.2 ⟨e, he, rfl⟩, (onSeg_affine A hA e p).2 ho⟩

theorem sgn3_mul (k x y z : ℚ) (hk : k ≠ 0) :
    sgn3 (k * x) (k * y) (k * z) = (if 0 < k then 1 else -1) * sgn3 x y z := by
  unfold sgn3
  rcases lt_or_gt_of_ne hk with h | h
  · have p : ∀ w : ℚ, 0 < k * w ↔ w < 0 := fun w => by
      constructor
      · intro hh
        by_contra hc
        exact absurd (mul_nonpos_of_nonpos_of_nonneg h.le (not_lt.1 hc)) (not_le.2 hh)
      · intro hh; exact mul_pos_of_neg_of_neg h hh
    have n : ∀ w : ℚ, k * w < 0 ↔ 0 < w := fun w => by
      rw [mul_comm]
      constructor
      · intro hh
        by_contra hc
        exact absurd (mul_nonneg_of_nonpos_of_nonpos (not_lt.1 hc) h.le) (not_le.2 hh)
      · intro hh; exact mul_neg_of_pos_of_neg hh h
    simp only [p, n, if_neg (not_lt.2 h.le)]
    by_cases c1 : 0 < x ∧ 0 < y ∧ 0 < z
    · rw [if_neg (by rintro ⟨hh, _⟩; linarith [c1.1]), if_pos c1, if_pos c1]; rfl
    · rw [if_neg c1, if_neg c1]
      by_cases c2 : x < 0 ∧ y < 0 ∧ z < 0
      · rw [if_pos c2, if_pos c2]; rfl
      · rw [if_neg c2, if_neg c2]; rfl
  · have p : ∀ w : ℚ, 0 < k * w ↔ 0 < w := fun w => mul_pos_iff_of_pos_left h
    have n : ∀ w : ℚ, k * w < 0 ↔ w < 0 := fun w => by
      constructor
      · intro hh
        by_contra hc
        exact absurd (mul_nonneg h.le (not_lt.1 hc)) (not_le.2 hh)
      · intro hh; exact mul_neg_of_pos_of_neg h hh
    simp only [p, n, if_pos h, one_mul]

theorem sum_map_mul_int {α : Type*} (l : List α) (k : ℤ) (f : α → ℤ) :
    (l.map fun e => k * f e).sum = k * (l.map f).sum := by
  induction l with
  | nil => simp
  | cons a l ih => simp only [List.map_cons, List.sum_cons, ih]; ring

theorem windingNumber_affine (A : Affine) (hA : A.det ≠ 0) (poly : List Pt) (p : Pt)
    (hp : ¬ OnBoundary poly p) :
    windingNumber (poly.map A.app) (A.app p) = (if 0 < A.det then 1 else -1) * windingNumber poly p := by
  have hv : ∀ v ∈ poly, v ≠ p := by
    rintro v hv rfl
    obtain ⟨e, he, h1⟩ := polyEdges_fst hv
    exact hp ⟨e, he, by rw [← h1]; exact onSeg_start e⟩
  obtain ⟨q, hq⟩ := exists_generic p poly hv
  rw [windingNumber_fan poly p q hp hq,
    windingNumber_fan (poly.map A.app) (A.app p) (A.app q)
      (by rw [onBoundary_affine A hA]; exact hp)
      (by
        intro v hv
        obtain ⟨w, hw, rfl⟩ := List.mem_map.1 hv
        rw [orient_affine]
        exact mul_ne_zero hA (hq w hw)),
    polyEdges_map, List.map_map, ← sum_map_mul_int]
  congr 1
  apply List.map_congr_left
  intro e _
  simp only [Function.comp, Prod.map]
  rw [orient_affine, orient_affine, orient_affine, sgn3_mul _ _ _ _ hA]

theorem windingNumber_perm {l m : List Pt} (h : (polyEdges l).Perm (polyEdges m)) (p : Pt) :
    windingNumber l p = windingNumber m p := by
  unfold windingNumber
  exact (h.map _).sum_eq

theorem windingNumber_reverse (l : List Pt) (p : Pt) :
    windingNumber l.reverse p = -windingNumber l p := by
  unfold windingNumber
  rw [((polyEdges_reverse l).map _).sum_eq, List.map_map]
  have : ((fun e : Seg => crossing p e.1 e.2) ∘ Prod.swap) = fun e => (-1) * crossing p e.1 e.2 := by
    funext e; simp only [Function.comp, Prod.fst_swap, Prod.snd_swap, crossing_swap p e.1 e.2]; ring
  rw [this, sum_map_mul_int]; ring

theorem onBoundary_reverse (l : List Pt) (p : Pt) : OnBoundary l.reverse p ↔ OnBoundary l p := by
  have key : ∀ m : List Pt, OnBoundary m p → OnBoundary m.reverse p := by
    rintro m ⟨e, he, ho⟩
    refine ⟨e.swap, (polyEdges_reverse m).mem_iff.2 (List.mem_map.2 ⟨e, he, rfl⟩), onSeg_swap ho⟩
  refine ⟨fun h => ?_, key l⟩
  have := key _ h
  rwa [List.reverse_reverse] at this

end Ply
