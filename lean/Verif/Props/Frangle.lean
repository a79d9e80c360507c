import Verif.Proofs.Frangle

/-! # C12–C14: frangles -/

namespace Ply

/-- C12: the frangle of a non-zero vector is in `[0, 8)`; the zero vector is refused. -/
theorem c12_range (v : Pt) :
    (v ≠ (0, 0) → ∃ f, vectorFrangle v = .ok f ∧ 0 ≤ f ∧ f < 8) ∧
    (v = (0, 0) → vectorFrangle v = .error .assertion) := by
  constructor
  · intro hv
    have hv' : v.1 ≠ 0 ∨ v.2 ≠ 0 := by
      by_contra h
      push Not at h
      exact hv (Prod.ext h.1 h.2)
    obtain ⟨k, f, hk, h0, h8, rfl⟩ := exists_gsv v hv'
    exact ⟨f, by rw [frangle_scale hk, frangle_gsv h0 h8], h0, h8⟩
  · rintro rfl; simp [vectorFrangle]

/-- Decomposition used below: a non-zero vector in polar form. -/
theorem polar (v : Pt) (hv : v ≠ (0, 0)) :
    ∃ k f : ℚ, 0 < k ∧ 0 ≤ f ∧ f < 8 ∧ v = scale k (frangleUnitSquareVector f) ∧
      vectorFrangle v = .ok f := by
  have hv' : v.1 ≠ 0 ∨ v.2 ≠ 0 := by
    by_contra h
    push Not at h
    exact hv (Prod.ext h.1 h.2)
  obtain ⟨k, f, hk, h0, h8, rfl⟩ := exists_gsv v hv'
  exact ⟨k, f, hk, h0, h8, rfl, by rw [frangle_scale hk, frangle_gsv h0 h8]⟩

/-- C12: same frangle iff same direction. -/
theorem c12_same_direction (u v : Pt) (hu : u ≠ (0, 0)) (hv : v ≠ (0, 0)) :
    vectorFrangle u = vectorFrangle v ↔ ∃ k : ℚ, 0 < k ∧ v = scale k u := by
  constructor
  · intro h
    obtain ⟨k, f, hk, h0, h8, hu', hf⟩ := polar u hu
    obtain ⟨k', f', hk', h0', h8', hv', hf'⟩ := polar v hv
    rw [hf, hf', Except.ok.injEq] at h
    subst h
    refine ⟨k' / k, div_pos hk' hk, ?_⟩
    rw [hv', hu']
    unfold scale
    ext <;> simp only <;> field_simp
  · rintro ⟨k, hk, rfl⟩
    rw [frangle_scale hk]

example : vectorFrangle (3, -4) = vectorFrangle (6, -8) ∧
    vectorFrangle (3, -4) ≠ vectorFrangle (-3, 4) := by
  constructor
  · rw [c12_same_direction _ _ (by decide) (by decide)]
    exact ⟨2, by norm_num, by unfold scale; norm_num⟩
  · rw [Ne, c12_same_direction _ _ (by decide) (by decide)]
    rintro ⟨k, hk, h⟩
    have := congrArg Prod.fst h
    simp only [scale] at this
    linarith

/-- C13: the angular order, clockwise. -/
theorem c13_clockwise (u v : Pt) (hu : u ≠ (0, 0)) (hv : v ≠ (0, 0)) :
    ∃ fu fv, vectorFrangle u = .ok fu ∧ vectorFrangle v = .ok fv ∧
      (cross u v < 0 ↔ 0 < pyMod (fv - fu) 8 ∧ pyMod (fv - fu) 8 < 4) ∧
      (cross u v > 0 ↔ 4 < pyMod (fv - fu) 8) ∧
      (cross u v = 0 ↔ pyMod (fv - fu) 8 = 0 ∨ pyMod (fv - fu) 8 = 4) := by
  obtain ⟨k, f, hk, h0, h8, hu', hf⟩ := polar u hu
  obtain ⟨k', g, hk', h0', h8', hv', hg⟩ := polar v hv
  refine ⟨f, g, hf, hg, ?_⟩
  have hkk : 0 < k * k' := mul_pos hk hk'
  have hc : cross u v =
      (k * k') * cross (frangleUnitSquareVector f) (frangleUnitSquareVector g) := by
    rw [hu', hv']; unfold cross scale; ring
  have e1 : cross u v < 0 ↔ cross (frangleUnitSquareVector f) (frangleUnitSquareVector g) < 0 := by
    rw [hc]
    refine ⟨fun h => ?_, fun h => mul_neg_of_pos_of_neg hkk h⟩
    by_contra hn
    exact absurd (mul_nonneg hkk.le (not_lt.1 hn)) (not_le.2 h)
  have e2 : cross u v > 0 ↔ cross (frangleUnitSquareVector f) (frangleUnitSquareVector g) > 0 := by
    rw [hc, gt_iff_lt, mul_pos_iff_of_pos_left hkk]
  have e3 : cross u v = 0 ↔ cross (frangleUnitSquareVector f) (frangleUnitSquareVector g) = 0 := by
    rw [hc, mul_eq_zero]; simp [hkk.ne']
  rw [e1, e2, e3]
  rcases le_or_gt f g with h | h
  · rw [pyMod_of_range (by linarith) (by linarith)]
    obtain ⟨z, n, p⟩ := gsv_cross h0 h h8'
    generalize cross (frangleUnitSquareVector f) (frangleUnitSquareVector g) = c at *
    rcases lt_trichotomy g (f + 4) with hlt | heq | hgt
    · rcases h.eq_or_lt with he | hl
      · have hz := z (Or.inl he.symm)
        subst hz; subst he
        simp
      · have := n hl hlt
        refine ⟨⟨fun _ => ⟨by linarith, by linarith⟩, fun _ => this⟩,
          ⟨fun _ => by linarith, fun _ => by linarith⟩,
          ⟨fun _ => by linarith, fun hh => by rcases hh with hh | hh <;> linarith⟩⟩
    · have hz := z (Or.inr heq)
      subst hz
      refine ⟨⟨fun _ => by linarith, fun _ => by linarith⟩, ⟨fun _ => by linarith, fun _ => by linarith⟩,
        ⟨fun _ => Or.inr (by linarith), fun _ => rfl⟩⟩
    · have := p hgt
      refine ⟨⟨fun _ => by linarith, fun _ => by linarith⟩, ⟨fun _ => by linarith, fun _ => this⟩,
        ⟨fun _ => by linarith, fun hh => by rcases hh with hh | hh <;> linarith⟩⟩
  · rw [pyMod_eq_iff (b := g - f + 8) (by linarith) (by linarith) (-1) (by push_cast; ring)]
    obtain ⟨z, n, p⟩ := gsv_cross h0' h.le h8
    have hanti : cross (frangleUnitSquareVector f) (frangleUnitSquareVector g) =
      -cross (frangleUnitSquareVector g) (frangleUnitSquareVector f) := by unfold cross; ring
    rw [hanti]
    generalize cross (frangleUnitSquareVector g) (frangleUnitSquareVector f) = c at *
    rcases lt_trichotomy f (g + 4) with hlt | heq | hgt
    · have := n h hlt
      refine ⟨⟨fun _ => by linarith, fun _ => by linarith⟩, ⟨fun _ => by linarith, fun _ => by linarith⟩,
        ⟨fun _ => by linarith, fun hh => by rcases hh with hh | hh <;> linarith⟩⟩
    · have hz := z (Or.inr heq)
      subst hz
      refine ⟨⟨fun _ => by linarith, fun _ => by linarith⟩, ⟨fun _ => by linarith, fun _ => by linarith⟩,
        ⟨fun _ => Or.inr (by linarith), fun _ => by simp⟩⟩
    · have := p hgt
      refine ⟨⟨fun _ => ⟨by linarith, by linarith⟩, fun _ => by linarith⟩,
        ⟨fun _ => by linarith, fun _ => by linarith⟩,
        ⟨fun _ => by linarith, fun hh => by rcases hh with hh | hh <;> linarith⟩⟩

/-- C13: opposite vectors differ by exactly 4. -/
theorem c13_opposite (v : Pt) (hv : v ≠ (0, 0)) :
    ∃ f g, vectorFrangle v = .ok f ∧ vectorFrangle (-v.1, -v.2) = .ok g ∧ pyMod (g - f) 8 = 4 := by
  have hnv : (-v.1, -v.2) ≠ ((0, 0) : Pt) := by
    intro h
    apply hv
    have h1 := congrArg Prod.fst h
    have h2 := congrArg Prod.snd h
    simp only [neg_eq_zero] at h1 h2
    exact Prod.ext h1 h2
  obtain ⟨f, g, hf, hg, _, _, h0⟩ := c13_clockwise v (-v.1, -v.2) hv hnv
  refine ⟨f, g, hf, hg, ?_⟩
  rcases h0.1 (by unfold cross; ring) with h | h
  · exfalso
    obtain ⟨z, hz⟩ := pyMod_decomp (g - f) 8
    obtain ⟨f', hf', r0, r8⟩ := (c12_range v).1 hv
    obtain ⟨g', hg', s0, s8⟩ := (c12_range _).1 hnv
    rw [hf, Except.ok.injEq] at hf'
    rw [hg, Except.ok.injEq] at hg'
    subst hf'; subst hg'
    rw [h] at hz
    have hz0 : z = 0 := by
      have a1 : (z : ℚ) < 1 := by linarith
      have a2 : (-1 : ℚ) < z := by linarith
      have b1 : z < 1 := by exact_mod_cast a1
      have b2 : -1 < z := by exact_mod_cast a2
      omega
    have hgf : g = f := by rw [hz0] at hz; push_cast at hz; linarith
    have : vectorFrangle v = vectorFrangle (-v.1, -v.2) := by rw [hf, hg, hgf]
    obtain ⟨k, hk, he⟩ := (c12_same_direction _ _ hv hnv).1 this
    have e1 := congrArg Prod.fst he
    have e2 := congrArg Prod.snd he
    simp only [scale] at e1 e2
    apply hv
    have : (k + 1) ≠ 0 := by linarith
    refine Prod.ext ?_ ?_
    · have : (k + 1) * v.1 = 0 := by linarith
      rcases mul_eq_zero.1 this with h | h
      · linarith
      · exact h
    · have : (k + 1) * v.2 = 0 := by linarith
      rcases mul_eq_zero.1 this with h | h
      · linarith
      · exact h
  · exact h

/-- C13: a clockwise quarter turn `(x, y) ↦ (y, -x)` adds exactly 2. -/
theorem c13_quarter (v : Pt) (hv : v ≠ (0, 0)) :
    ∃ f g, vectorFrangle v = .ok f ∧ vectorFrangle (v.2, -v.1) = .ok g ∧ g = pyMod (f + 2) 8 := by
  obtain ⟨k, f, hk, h0, h8, hv', hf⟩ := polar v hv
  have key : ∃ g, 0 ≤ g ∧ g < 8 ∧ g = pyMod (f + 2) 8 ∧ frangleUnitSquareVector g =
      ((frangleUnitSquareVector f).2, -(frangleUnitSquareVector f).1) := by
    rcases lt_or_ge f 6 with h6 | h6
    · refine ⟨f + 2, by linarith, by linarith, (pyMod_of_range (by linarith) (by linarith)).symm, ?_⟩
      obtain ⟨a, b, c, d, e⟩ := gsv_side (f := f + 2) (by linarith) (by linarith)
      rcases gsv_cases h0 h8 with ⟨h1, e'⟩ | ⟨h1, h2, e'⟩ | ⟨h1, h2, e'⟩ | ⟨h1, h2, e'⟩ | ⟨h1, e'⟩ <;>
        rw [e']
      · rcases le_or_gt (f + 2) 3 with h | h
        · rw [b (by linarith) h]; ext <;> simp
        · linarith
      · rw [c (by linarith) (by linarith)]; ext <;> simp; ring
      · rw [d (by linarith) (by linarith)]; ext <;> simp; ring
      · rw [e (by linarith)]; ext <;> simp; ring
      · linarith
    · refine ⟨f - 6, by linarith, by linarith,
        (pyMod_eq_iff (by linarith) (by linarith) 1 (by push_cast; ring)).symm, ?_⟩
      obtain ⟨a, b, c, d, e⟩ := gsv_side (f := f - 6) (by linarith) (by linarith)
      rcases gsv_cases h0 h8 with ⟨h1, e'⟩ | ⟨h1, h2, e'⟩ | ⟨h1, h2, e'⟩ | ⟨h1, h2, e'⟩ | ⟨h1, e'⟩ <;>
        rw [e']
      · linarith
      · linarith
      · linarith
      · rw [a (by linarith)]
      · rw [b (by linarith) (by linarith)]; ext <;> simp; ring
  obtain ⟨g, g0, g8, hg, he⟩ := key
  refine ⟨f, g, hf, ?_, hg⟩
  have : (v.2, -v.1) = scale k (frangleUnitSquareVector g) := by
    rw [he, hv']; unfold scale; ext <;> simp
  rw [this, frangle_scale hk, frangle_gsv g0 g8]

example : vectorFrangle (1, 0) = .ok 0 ∧ vectorFrangle (0, -1) = .ok 2 ∧
    vectorFrangle (-1, 0) = .ok 4 ∧ vectorFrangle (0, 1) = .ok 6 := by
  refine ⟨?_, ?_, ?_, ?_⟩ <;> (simp [vectorFrangle]; try norm_num)

/-- C14: the vector of a frangle is on the boundary of the unit square. -/
theorem c14_on_square (f : ℚ) :
    max |(frangleUnitSquareVector f).1| |(frangleUnitSquareVector f).2| = 1 := by
  obtain ⟨h0, h8⟩ := pyMod_range f (m := 8) (by norm_num)
  rw [← gsv_mod]
  rcases gsv_cases h0 h8 with ⟨h1, e⟩ | ⟨h1, h2, e⟩ | ⟨h1, h2, e⟩ | ⟨h1, h2, e⟩ | ⟨h1, e⟩ <;>
    rw [e] <;> simp only [abs_neg, abs_one]
  · exact max_eq_left (by rw [abs_le]; constructor <;> linarith)
  · exact max_eq_right (by rw [abs_le]; constructor <;> linarith)
  · exact max_eq_left (by rw [abs_le]; constructor <;> linarith)
  · exact max_eq_right (by rw [abs_le]; constructor <;> linarith)
  · exact max_eq_left (by rw [abs_le]; constructor <;> linarith)

/-- C14: it depends on the frangle modulo 8 only. -/
theorem c14_periodic (f : ℚ) (z : ℤ) :
    frangleUnitSquareVector (f + 8 * z) = frangleUnitSquareVector f := by
  rw [← gsv_mod, ← gsv_mod f, pyMod_add_mul f (by norm_num)]

/-- C14: its frangle is the given one modulo 8. -/
theorem c14_right_inverse (f : ℚ) : vectorFrangle (frangleUnitSquareVector f) = .ok (pyMod f 8) := by
  obtain ⟨h0, h8⟩ := pyMod_range f (m := 8) (by norm_num)
  rw [← gsv_mod, frangle_gsv h0 h8]

/-- C14: going from a vector to its frangle and back scales it onto the unit square. -/
theorem c14_left_inverse (v : Pt) (hv : v ≠ (0, 0)) :
    ∃ f, vectorFrangle v = .ok f ∧
      frangleUnitSquareVector f = scale (1 / max |v.1| |v.2|) v := by
  obtain ⟨k, f, hk, h0, h8, hv', hf⟩ := polar v hv
  refine ⟨f, hf, ?_⟩
  have hm : max |v.1| |v.2| = k := by
    have e1 : |v.1| = k * |(frangleUnitSquareVector f).1| := by
      rw [hv']; simp [scale, abs_mul, abs_of_pos hk]
    have e2 : |v.2| = k * |(frangleUnitSquareVector f).2| := by
      rw [hv']; simp [scale, abs_mul, abs_of_pos hk]
    rw [e1, e2, ← mul_max_of_nonneg _ _ hk.le, c14_on_square, mul_one]
  rw [hm, hv']
  unfold scale
  ext <;> simp only <;> field_simp

example : frangleUnitSquareVector (-1) = (1, 1) ∧ frangleUnitSquareVector (5/2) = (-1/2, -1) := by
  constructor
  · rw [← gsv_mod, pyMod_eq_iff (b := 7) (by norm_num) (by norm_num) (-1) (by norm_num),
      (gsv_side (by norm_num) (by norm_num)).2.2.2.2 (by norm_num)]
    norm_num
  · rw [(gsv_side (by norm_num) (by norm_num)).2.1 (by norm_num) (by norm_num)]
    norm_num

end Ply
