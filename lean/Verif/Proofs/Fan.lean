import Verif.Proofs.WindingAffine
import Verif.Proofs.Convex

/-! # Polygons made of triangles of the same orientation with a common corner -/

namespace Ply

/-- `p` is strictly inside the triangle. -/
def InTri (q x y p : Pt) : Prop := ∃ α β : ℚ, 0 < α ∧ 0 < β ∧ α + β < 1 ∧ p = q + α • (x - q) + β • (y - q)

theorem orient_sum (q x y p : Pt) : orient q x p + orient x y p + orient y q p = orient q x y := by
  unfold orient; ring

theorem sgn3_ne {q x y p : Pt} (h : sgn3 (orient q x p) (orient x y p) (orient y q p) ≠ 0) : InTri q x y p := by
  have hs := orient_sum q x y p
  have key : ∀ D : ℚ, D ≠ 0 → orient q x y = D → p = q + (orient y q p / D) • (x - q) + (orient q x p / D) • (y - q) := by
    intro D hD he
    have h1 : orient y q p * (x.1 - q.1) + orient q x p * (y.1 - q.1) = D * (p.1 - q.1) := by
      rw [← he]; unfold orient; ring
    have h2 : orient y q p * (x.2 - q.2) + orient q x p * (y.2 - q.2) = D * (p.2 - q.2) := by
      rw [← he]; unfold orient; ring
    ext
    · simp only [Prod.fst_add, Prod.smul_fst, smul_eq_mul, Prod.fst_sub]
      field_simp
      linarith
    · simp only [Prod.snd_add, Prod.smul_snd, smul_eq_mul, Prod.snd_sub]
      field_simp
      linarith
  unfold sgn3 at h
  split_ifs at h with h1 h2
  · have hD : 0 < orient q x y := by linarith [h1.1, h1.2.1, h1.2.2]
    exact ⟨_, _, div_pos h1.2.2 hD, div_pos h1.1 hD, by rw [← add_div, div_lt_one hD]; linarith [h1.2.1], key _ hD.ne' rfl⟩
  · have hD : orient q x y < 0 := by linarith [h2.1, h2.2.1, h2.2.2]
    refine ⟨_, _, div_pos_of_neg_of_neg h2.2.2 hD, div_pos_of_neg_of_neg h2.1 hD, ?_, key _ hD.ne rfl⟩
    rw [← add_div, div_lt_one_of_neg hD]; linarith [h2.2.1]
  · exact absurd rfl h

/-- A point of the closed triangle on none of its edges. -/
theorem inTri_sgn3 {q x y p : Pt} (hD : orient q x y ≠ 0) {α β : ℚ} (ha : 0 ≤ α) (hb : 0 ≤ β) (hab : α + β ≤ 1)
    (hp : p = q + α • (x - q) + β • (y - q)) (h1 : ¬ OnSeg (q, x) p) (h2 : ¬ OnSeg (x, y) p) (h3 : ¬ OnSeg (q, y) p) :
    sgn3 (orient q x p) (orient x y p) (orient y q p) = if 0 < orient q x y then 1 else -1 := by
  have hb' : 0 < β := by
    refine hb.lt_of_ne fun h => h1 ⟨α, ha, by linarith, ?_⟩
    rw [hp, ← h]; unfold along; ext <;> simp
  have ha' : 0 < α := by
    refine ha.lt_of_ne fun h => h3 ⟨β, hb, by linarith, ?_⟩
    rw [hp, ← h]; unfold along; ext <;> simp
  have hab' : α + β < 1 := by
    refine hab.lt_of_ne fun h => h2 ⟨β, hb, by linarith, ?_⟩
    rw [hp, show α = 1 - β by linarith]; unfold along; ext <;> simp <;> ring
  have e1 : orient q x p = β * orient q x y := by
    rw [hp]; unfold orient; simp; ring
  have e2 : orient y q p = α * orient q x y := by
    rw [hp]; unfold orient; simp; ring
  have e3 : orient x y p = (1 - α - β) * orient q x y := by
    rw [hp]; unfold orient; simp; ring
  rw [e1, e2, e3]
  unfold sgn3
  rcases lt_or_gt_of_ne hD with h | h
  · rw [if_neg (by rintro ⟨x1, _⟩; nlinarith), if_pos ⟨by nlinarith, by nlinarith, by nlinarith⟩, if_neg (by linarith)]
  · rw [if_pos ⟨by nlinarith, by nlinarith, by nlinarith⟩, if_pos h]

theorem sgn3_sign {q x y p : Pt} {σ : ℤ} (hσ : 0 ≤ (σ : ℚ) * orient q x y) :
    0 ≤ σ * sgn3 (orient q x p) (orient x y p) (orient y q p) := by
  have hs := orient_sum q x y p
  unfold sgn3
  split_ifs with h1 h2
  · have : (0 : ℚ) < orient q x y := by linarith [h1.1, h1.2.1, h1.2.2]
    have h : (0 : ℚ) ≤ σ := by by_contra hc; push Not at hc; nlinarith
    have : 0 ≤ σ := by exact_mod_cast h
    linarith
  · have : orient q x y < 0 := by linarith [h2.1, h2.2.1, h2.2.2]
    have h : (σ : ℚ) ≤ 0 := by by_contra hc; push Not at hc; nlinarith
    have : σ ≤ 0 := by exact_mod_cast h
    linarith
  · simp

theorem winding_apex (poly : List Pt) (p q : Pt) (hp : ¬ OnBoundary poly p) (hq : ∀ v ∈ poly, ¬ OnSeg (q, v) p) :
    windingNumber poly p =
      ((polyEdges poly).map fun e => sgn3 (orient q e.1 p) (orient e.1 e.2 p) (orient e.2 q p)).sum := by
  have h1 : ((polyEdges poly).map fun e => sgn3 (orient q e.1 p) (orient e.1 e.2 p) (orient e.2 q p)) =
      (polyEdges poly).map fun e => crossing p e.1 e.2 + (crossing p e.2 q - crossing p e.1 q) := by
    refine List.map_congr_left fun e he => ?_
    have hm := polyEdges_mem he
    rw [← tri_crossing (hq _ hm.1) (fun h => hp ⟨e, he, h⟩) (fun h => hq _ hm.2 (onSeg_swap h)), crossing_swap p e.1 q]
    ring
  rw [h1, sum_map_add_int, polyEdges_telescope (fun v => crossing p v q) poly]
  unfold windingNumber
  simp

/-- All triangles turn the same way: the polygon winds around `p` iff one of them contains it. -/
theorem winding_fan_iff {poly : List Pt} {p q : Pt} (hp : ¬ OnBoundary poly p) (hq : ∀ v ∈ poly, ¬ OnSeg (q, v) p)
    {σ : ℤ} (hσ : σ = 1 ∨ σ = -1) (ho : ∀ e ∈ polyEdges poly, 0 ≤ (σ : ℚ) * orient q e.1 e.2) :
    windingNumber poly p ≠ 0 ↔
      ∃ e ∈ polyEdges poly, sgn3 (orient q e.1 p) (orient e.1 e.2 p) (orient e.2 q p) ≠ 0 := by
  rw [winding_apex poly p q hp hq]
  have hnn : ∀ e ∈ polyEdges poly, 0 ≤ σ * sgn3 (orient q e.1 p) (orient e.1 e.2 p) (orient e.2 q p) :=
    fun e he => sgn3_sign (ho e he)
  have hσ0 : σ ≠ 0 := by rcases hσ with h | h <;> rw [h] <;> decide
  generalize polyEdges poly = E at *
  clear hp hq ho
  have hsum : 0 ≤ σ * (E.map fun e => sgn3 (orient q e.1 p) (orient e.1 e.2 p) (orient e.2 q p)).sum ∧
      ((E.map fun e => sgn3 (orient q e.1 p) (orient e.1 e.2 p) (orient e.2 q p)).sum ≠ 0 ↔
        ∃ e ∈ E, sgn3 (orient q e.1 p) (orient e.1 e.2 p) (orient e.2 q p) ≠ 0) := by
    induction E with
    | nil => simp
    | cons e E ih =>
      obtain ⟨i1, i2⟩ := ih fun x hx => hnn x (by simp [hx])
      have he := hnn e (by simp)
      rw [List.map_cons, List.sum_cons]
      simp only [List.mem_cons, exists_eq_or_imp]
      rw [← i2]
      generalize (E.map fun e => sgn3 (orient q e.1 p) (orient e.1 e.2 p) (orient e.2 q p)).sum = S at *
      generalize sgn3 (orient q e.1 p) (orient e.1 e.2 p) (orient e.2 q p) = x at *
      rcases hσ with rfl | rfl
      · refine ⟨by linarith, ?_⟩
        omega
      · refine ⟨by linarith, ?_⟩
        omega
  exact hsum.2

end Ply
