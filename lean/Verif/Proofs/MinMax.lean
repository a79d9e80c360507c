import Mathlib.Algebra.Order.Field.Rat
import Mathlib.Data.Finset.Max
import Mathlib.Data.Finset.Image
import Mathlib.Data.Finset.Prod
import Mathlib.Data.Finset.Lattice.Fold
import Mathlib.Tactic.Linarith
import Mathlib.Tactic.FieldSimp

/-! # The least value of the largest of finitely many affine functions on an interval -/

namespace Ply

theorem exists_min_max (n : ℕ) (hn : 0 < n) (A B : ℕ → ℚ) :
    ∃ s m : ℚ, 0 ≤ s ∧ s ≤ 1 ∧ (∀ k < n, A k + s * B k ≤ m) ∧ (∃ k < n, A k + s * B k = m) ∧
      ∀ s', 0 ≤ s' → s' ≤ 1 → ∃ k < n, m ≤ A k + s' * B k := by
  classical
  have hne : (Finset.range n).Nonempty := ⟨0, Finset.mem_range.2 hn⟩
  set h : ℚ → ℚ := fun s => (Finset.range n).sup' hne fun k => A k + s * B k with hh
  have hle : ∀ s, ∀ k < n, A k + s * B k ≤ h s := fun s k hk =>
    Finset.le_sup' (fun k => A k + s * B k) (Finset.mem_range.2 hk)
  have hat : ∀ s, ∃ k < n, h s = A k + s * B k := by
    intro s
    obtain ⟨k, hk, e⟩ := Finset.exists_mem_eq_sup' hne fun k => A k + s * B k
    exact ⟨k, Finset.mem_range.1 hk, e⟩
  set S : Finset ℚ := (insert 0 (insert 1 ((Finset.range n ×ˢ Finset.range n).image fun x =>
    (A x.2 - A x.1) / (B x.1 - B x.2)))).filter fun s => 0 ≤ s ∧ s ≤ 1 with hS
  have hS0 : (0 : ℚ) ∈ S := by rw [hS, Finset.mem_filter]; exact ⟨by simp, by norm_num⟩
  have hS1 : (1 : ℚ) ∈ S := by rw [hS, Finset.mem_filter]; exact ⟨by simp, by norm_num⟩
  have hmem : ∀ i < n, ∀ k < n, ∀ x, 0 ≤ x → x ≤ 1 → B i ≠ B k → A i + x * B i = A k + x * B k → x ∈ S := by
    intro i hi k hk x x0 x1 hb he
    rw [hS, Finset.mem_filter]
    refine ⟨Finset.mem_insert_of_mem (Finset.mem_insert_of_mem (Finset.mem_image.2 ⟨(i, k), ?_, ?_⟩)), x0, x1⟩
    · rw [Finset.mem_product]; exact ⟨Finset.mem_range.2 hi, Finset.mem_range.2 hk⟩
    · have : B i - B k ≠ 0 := sub_ne_zero.2 hb
      dsimp only
      rw [div_eq_iff this]
      linarith
  -- crossing of two affine functions
  have hcross : ∀ i < n, ∀ k < n, ∀ x y : ℚ, 0 ≤ x → x ≤ 1 → 0 ≤ y → y ≤ 1 → A i + x * B i < A k + x * B k →
      A k + y * B k ≤ A i + y * B i → ∃ z ∈ S, (x < z ∧ z ≤ y ∨ y ≤ z ∧ z < x) := by
    intro i hi k hk x y x0 x1 y0 y1 h1 h2
    have hb : B i ≠ B k := by
      intro hb
      rw [hb] at h1 h2
      linarith
    have hd : B i - B k ≠ 0 := sub_ne_zero.2 hb
    set z := (A k - A i) / (B i - B k) with hz
    have hz' : z * (B i - B k) = A k - A i := div_mul_cancel₀ _ hd
    have ex : x * (B i - B k) < z * (B i - B k) := by linarith
    have ey : z * (B i - B k) ≤ y * (B i - B k) := by linarith
    rcases lt_or_gt_of_ne hd with hlt | hgt
    · have c1 : z < x := (mul_lt_mul_right_of_neg hlt).1 ex
      have c2 : y ≤ z := (mul_le_mul_right_of_neg hlt).1 ey
      exact ⟨z, hmem i hi k hk z (by linarith) (by linarith) hb (by linarith), Or.inr ⟨c2, c1⟩⟩
    · have c1 : x < z := (mul_lt_mul_iff_left₀ hgt).1 ex
      have c2 : z ≤ y := (mul_le_mul_iff_left₀ hgt).1 ey
      exact ⟨z, hmem i hi k hk z (by linarith) (by linarith) hb (by linarith), Or.inl ⟨c1, c2⟩⟩
  obtain ⟨s, hs, hmin⟩ := Finset.exists_min_image S h ⟨0, hS0⟩
  have hs01 : 0 ≤ s ∧ s ≤ 1 := (Finset.mem_filter.1 hs).2
  obtain ⟨k, hk, e⟩ := hat s
  refine ⟨s, h s, hs01.1, hs01.2, hle s, ⟨k, hk, e.symm⟩, fun s' h0 h1 => ?_⟩
  obtain ⟨i, hi, e'⟩ := hat s'
  refine ⟨i, hi, ?_⟩
  have fin : ∀ x ∈ S, (∀ k < n, A k + x * B k ≤ A i + x * B i) → A i + x * B i ≤ A i + s' * B i →
      h s ≤ A i + s' * B i := by
    intro x hx hk hi'
    obtain ⟨j, hj, ej⟩ := hat x
    have := hmin x hx
    have := hk j hj
    linarith
  rcases le_total 0 (B i) with hB | hB
  · obtain ⟨x, hx, hmax⟩ := Finset.exists_max_image (S.filter fun x => x ≤ s') id ⟨0, Finset.mem_filter.2 ⟨hS0, h0⟩⟩
    rw [Finset.mem_filter] at hx
    have x01 := (Finset.mem_filter.1 hx.1).2
    refine fin x hx.1 (fun k hk => ?_) (by nlinarith [hx.2])
    by_contra hc
    push Not at hc
    obtain ⟨z, hz, h | h⟩ := hcross i hi k hk x s' x01.1 x01.2 h0 h1 hc (by rw [← e']; exact hle s' k hk)
    · have := hmax z (Finset.mem_filter.2 ⟨hz, h.2⟩)
      simp only [id] at this
      linarith
    · linarith [hx.2]
  · obtain ⟨x, hx, hmax⟩ := Finset.exists_min_image (S.filter fun x => s' ≤ x) id ⟨1, Finset.mem_filter.2 ⟨hS1, h1⟩⟩
    rw [Finset.mem_filter] at hx
    have x01 := (Finset.mem_filter.1 hx.1).2
    refine fin x hx.1 (fun k hk => ?_) (by nlinarith [hx.2])
    by_contra hc
    push Not at hc
    obtain ⟨z, hz, h | h⟩ := hcross i hi k hk x s' x01.1 x01.2 h0 h1 hc (by rw [← e']; exact hle s' k hk)
    · linarith [hx.2]
    · have := hmax z (Finset.mem_filter.2 ⟨hz, h.1⟩)
      simp only [id] at this
      linarith

end Ply
