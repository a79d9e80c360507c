import Verif.Props.BufferExact

/-!
# C71, C72: how far `buffer` goes

`sq 1` is exactly 1, and `sq 2` is the rational the code takes for the root of 2; gmpy2 rounds it to 41/29.
-/

namespace Ply

open Arr

/-- The square of the distance. -/
def dist2 (p q : Pt) : ℚ := (p.1 - q.1) ^ 2 + (p.2 - q.2) ^ 2

theorem octagon_scaled {m s : ℚ} (hm : 0 < m) (h1 : 1 < s) (h2 : s < 2) (w : Pt) :
    InConvex (octagon m (m / s)) w ↔ |w.1| + (s - 1) * |w.2| ≤ m ∧ (s - 1) * |w.1| + |w.2| ≤ m := by
  have s0 : 0 < s := by linarith
  rw [in_octagon (div_pos hm s0) (by rw [div_lt_iff₀ s0]; nlinarith) (by
    rw [mul_div_assoc', lt_div_iff₀ s0]; nlinarith)]
  have k : 0 < m / s := div_pos hm s0
  have e1 : m / s * |w.1| + (m - m / s) * |w.2| = m / s * (|w.1| + (s - 1) * |w.2|) := by field_simp
  have e2 : (m - m / s) * |w.1| + m / s * |w.2| = m / s * ((s - 1) * |w.1| + |w.2|) := by field_simp
  rw [e1, e2, mul_comm m (m / s), mul_le_mul_iff_right₀ k, mul_le_mul_iff_right₀ k]

theorem oct_far {m s X Y : ℚ} (hm : 0 < m) (h1 : 1 < s) (hX : 0 ≤ X) (hY : 0 ≤ Y) (hXY : Y ≤ X)
    (h : X + (s - 1) * Y ≤ m) : X ^ 2 + Y ^ 2 ≤ m ^ 2 * max 1 (2 / s ^ 2) := by
  have s0 : 0 < s := by linarith
  have hYs : Y * s ≤ m := by nlinarith
  have hX2 : X ^ 2 ≤ (m - (s - 1) * Y) ^ 2 := by
    apply pow_le_pow_left₀ hX; linarith
  -- on the line between (m, 0) and the corner
  have key : ((m - (s - 1) * Y) ^ 2 + Y ^ 2) * s ≤ m ^ 2 * s + Y * m * (2 - s ^ 2) := by nlinarith [mul_nonneg hY (sub_nonneg.2 hYs), mul_nonneg (mul_nonneg hY (sub_nonneg.2 hYs)) (sq_nonneg (s - 1))]
  rcases le_or_gt (s ^ 2) 2 with hs | hs
  · have h3 : Y * m * (2 - s ^ 2) * s ≤ m ^ 2 * (2 - s ^ 2) := by
      have := mul_le_mul_of_nonneg_right hYs (mul_nonneg hm.le (sub_nonneg.2 hs))
      nlinarith
    have h4 : (X ^ 2 + Y ^ 2) * s ^ 2 ≤ m ^ 2 * 2 := by nlinarith
    calc X ^ 2 + Y ^ 2 ≤ m ^ 2 * (2 / s ^ 2) := by
          rw [← mul_div_assoc, le_div_iff₀ (by positivity)]; exact h4
      _ ≤ _ := mul_le_mul_of_nonneg_left (le_max_right _ _) (by positivity)
  · have h3 : Y * m * (2 - s ^ 2) ≤ 0 := mul_nonpos_of_nonneg_of_nonpos (mul_nonneg hY hm.le) (by linarith)
    have h4 : X ^ 2 + Y ^ 2 ≤ m ^ 2 := by nlinarith
    calc X ^ 2 + Y ^ 2 ≤ m ^ 2 * 1 := by linarith
      _ ≤ _ := mul_le_mul_of_nonneg_left (le_max_left _ _) (by positivity)

theorem octagon_far {m s : ℚ} (hm : 0 < m) (h1 : 1 < s) (h2 : s < 2) {w : Pt} (h : InConvex (octagon m (m / s)) w) :
    w.1 ^ 2 + w.2 ^ 2 ≤ m ^ 2 * max 1 (2 / s ^ 2) := by
  rw [octagon_scaled hm h1 h2] at h
  rw [← sq_abs w.1, ← sq_abs w.2]
  rcases le_total |w.2| |w.1| with hc | hc
  · exact oct_far hm h1 (abs_nonneg _) (abs_nonneg _) hc h.1
  · rw [add_comm]
    exact oct_far hm h1 (abs_nonneg _) (abs_nonneg _) hc (by linarith [h.2])

theorem octagon_near {m s : ℚ} (hm : 0 < m) (h1 : 1 < s) (h2 : s < 2) {w : Pt}
    (h : (w.1 ^ 2 + w.2 ^ 2) * (1 + (s - 1) ^ 2) ≤ m ^ 2) : InConvex (octagon m (m / s)) w := by
  rw [octagon_scaled hm h1 h2]
  rw [← sq_abs w.1, ← sq_abs w.2] at h
  constructor
  · refine le_of_sq_le_sq ?_ hm.le
    nlinarith [sq_nonneg ((s - 1) * |w.1| - |w.2|)]
  · refine le_of_sq_le_sq ?_ hm.le
    nlinarith [sq_nonneg (|w.1| - (s - 1) * |w.2|)]

section

variable (ch : Choices) (hch : ch.Valid) {sq : ℚ → ℚ} (hsq : RootLike sq) {g : Geom2D} (hg : g.Fine) {amount : ℚ} {r : Geom2D}
  (h : Geom2D.bufferBy (arrangementOp ch) sq g amount = .ok r)
include hch hsq hg h

/-- C71: growing by `amount` gives exactly the points `p` for which a point `y` of the geom is at a distance
within an octagon. -/
theorem c71_grow (hone : sq 1 = 1) (h0 : 0 < amount) (hn : g.NoIslands) (p : Pt) :
    r.Has p ↔ ∃ y, g.Has y ∧ |p.1 - y.1| + (sq 2 - 1) * |p.2 - y.2| ≤ amount ∧
      (sq 2 - 1) * |p.1 - y.1| + |p.2 - y.2| ≤ amount := by
  rw [buffer_grow ch hch hsq hg h h0 hn]
  refine exists_congr fun y => and_congr_right fun _ => ?_
  have := hsq.lt
  have := hsq.lt2
  unfold bufOct
  rw [hone, div_one, abs_of_pos h0, octagon_scaled h0 (by linarith) (by linarith)]
  rfl

/-- C72: shrinking leaves inside exactly the points around which an octagon is inside. -/
theorem c72_shrink (hone : sq 1 = 1) (h0 : amount < 0) (hn : g.NoIslands) (p : Pt) :
    Geom2D.locate r p = .ok 1 ↔ ∀ y : Pt, |y.1 - p.1| + (sq 2 - 1) * |y.2 - p.2| ≤ -amount →
      (sq 2 - 1) * |y.1 - p.1| + |y.2 - p.2| ≤ -amount → Geom2D.locate g y = .ok 1 := by
  rw [buffer_shrink ch hch hsq hg h h0 hn]
  refine forall_congr' fun y => ?_
  have := hsq.lt
  have := hsq.lt2
  unfold bufOct
  rw [hone, div_one, abs_of_neg h0, octagon_scaled (by linarith) (by linarith) (by linarith), and_imp]
  rfl

/-- C71: no point of the grown geom is farther from the geom than the amount (up to the error of `sq 2`), with
or without islands. -/
theorem c71_far (hone : sq 1 = 1) (h0 : 0 < amount) {p : Pt} (hp : r.Has p) :
    ∃ y, g.Has y ∧ dist2 p y ≤ amount ^ 2 * max 1 (2 / sq 2 ^ 2) := by
  obtain ⟨y, h1, h2⟩ := buffer_has ch hch hsq hg h h0 hp
  have := hsq.lt
  have := hsq.lt2
  unfold bufOct at h2
  rw [hone, div_one, abs_of_pos h0] at h2
  exact ⟨y, h1, octagon_far h0 (by linarith) (by linarith) h2⟩

/-- C71: every point within the inner radius of the octagon is in the grown geom. -/
theorem c71_near (hone : sq 1 = 1) (h0 : 0 < amount) (hn : g.NoIslands) {p y : Pt} (hy : g.Has y)
    (hd : dist2 p y * (1 + (sq 2 - 1) ^ 2) ≤ amount ^ 2) : r.Has p := by
  rw [buffer_grow ch hch hsq hg h h0 hn]
  have := hsq.lt
  have := hsq.lt2
  refine ⟨y, hy, ?_⟩
  unfold bufOct
  rw [hone, div_one, abs_of_pos h0]
  exact octagon_near h0 (by linarith) (by linarith) hd

/-- C72: every point within the inner radius of a point inside the shrunk geom is inside the geom, with or
without islands. -/
theorem c72_near (hone : sq 1 = 1) (h0 : amount < 0) {p y : Pt} (hp : Geom2D.locate r p = .ok 1)
    (hd : dist2 y p * (1 + (sq 2 - 1) ^ 2) ≤ amount ^ 2) : Geom2D.locate g y = .ok 1 := by
  refine buffer_inside ch hch hsq hg h h0 hp ?_
  have := hsq.lt
  have := hsq.lt2
  unfold bufOct
  rw [hone, div_one, abs_of_neg h0]
  exact octagon_near (by linarith) (by linarith) (by linarith) (by rw [neg_sq]; exact hd)

/-- C72: a point deeper inside than the amount (up to the error of `sq 2`) is inside the shrunk geom. -/
theorem c72_far (hone : sq 1 = 1) (h0 : amount < 0) (hn : g.NoIslands) {p : Pt}
    (hall : ∀ y, dist2 y p ≤ amount ^ 2 * max 1 (2 / sq 2 ^ 2) → Geom2D.locate g y = .ok 1) : Geom2D.locate r p = .ok 1 := by
  rw [buffer_shrink ch hch hsq hg h h0 hn]
  intro y hy
  have := hsq.lt
  have := hsq.lt2
  apply hall
  unfold bufOct at hy
  rw [hone, div_one, abs_of_neg h0] at hy
  have := octagon_far (by linarith) (by linarith) (by linarith) hy
  rwa [neg_sq] at this

end

/-- For the value of gmpy2: at most a 3000th beyond the amount, and at least 0.924 of it. -/
example : max 1 (2 / (41 / 29 : ℚ) ^ 2) = 1682 / 1681 ∧ (924 / 1000 : ℚ) ^ 2 * (1 + (41 / 29 - 1) ^ 2) ≤ 1 := by norm_num

end Ply
