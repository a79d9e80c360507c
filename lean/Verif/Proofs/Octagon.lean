import Verif.Proofs.RibbonLoop
import Verif.Props.Geom2D

/-! # The buffer octagon -/

namespace Ply

/-- The angles of the octagon's edges. -/
def octAngles (q : ℚ) : List ℚ := [2 + q, 4 - q, 4 + q, 6 - q, 6 + q, 8 - q, q, 2 - q]

theorem ang_of_gsv {u : Pt} {f k : ℚ} (h0 : 0 ≤ f) (h8 : f < 8) (hk : 0 < k)
    (h : u = k • frangleUnitSquareVector f) : ang u = f := by
  rw [h, ang_smul hk, (ang_gsv h0 h8).1]

theorem octagon_ang {a b : ℚ} (hb : 0 < b) (h1 : b < a) (h2 : a < 2 * b) (k : ℕ) (hk : k < 8) :
    ang (ce (octagon a b) k) = (octAngles ((a - b) / b)).getD k 0 := by
  have q0 : 0 < (a - b) / b := div_pos (by linarith) hb
  have q1 : (a - b) / b < 1 := by rw [div_lt_one hb]; linarith
  have hq : a = b + b * ((a - b) / b) := by field_simp; ring
  generalize (a - b) / b = q at *
  subst hq
  have A : ∀ {f : ℚ} {u w : Pt}, 0 ≤ f → f < 8 → frangleUnitSquareVector f = w → u = b • w → ang u = f :=
    fun h0 h8 hw h => ang_of_gsv h0 h8 hb (hw ▸ h)
  have g0 := (gsv_side (f := 2 + q) (by linarith) (by linarith)).2.1 (by linarith) (by linarith)
  have g1 := (gsv_side (f := 4 - q) (by linarith) (by linarith)).2.2.1 (by linarith) (by linarith)
  have g2 := (gsv_side (f := 4 + q) (by linarith) (by linarith)).2.2.1 (by linarith) (by linarith)
  have g3 := (gsv_side (f := 6 - q) (by linarith) (by linarith)).2.2.2.1 (by linarith) (by linarith)
  have g4 := (gsv_side (f := 6 + q) (by linarith) (by linarith)).2.2.2.1 (by linarith) (by linarith)
  have g5 := (gsv_side (f := 8 - q) (by linarith) (by linarith)).2.2.2.2 (by linarith)
  have g6 := (gsv_side (f := q) (by linarith) (by linarith)).1 (by linarith)
  have g7 := (gsv_side (f := 2 - q) (by linarith) (by linarith)).2.1 (by linarith) (by linarith)
  interval_cases k
  · exact A (f := 2 + q) (by linarith) (by linarith) g0 (by ext <;> simp [ce, cycGet, octagon])
  · exact A (f := 4 - q) (by linarith) (by linarith) g1 (by ext <;> simp [ce, cycGet, octagon])
  · exact A (f := 4 + q) (by linarith) (by linarith) g2 (by ext <;> simp [ce, cycGet, octagon])
  · exact A (f := 6 - q) (by linarith) (by linarith) g3 (by ext <;> simp [ce, cycGet, octagon])
  · exact A (f := 6 + q) (by linarith) (by linarith) g4 (by ext <;> simp [ce, cycGet, octagon])
  · exact A (f := 8 - q) (by linarith) (by linarith) g5 (by ext <;> simp [ce, cycGet, octagon])
  · exact A (f := q) (by linarith) (by linarith) g6 (by ext <;> simp [ce, cycGet, octagon])
  · exact A (f := 2 - q) (by linarith) (by linarith) g7 (by ext <;> simp [ce, cycGet, octagon])

/-- The angles counted on past 8. -/
def octLift (q : ℚ) (k : ℕ) : ℚ := k + (if k % 2 = 0 then 2 + q else 3 - q)

theorem octLift_lt {q : ℚ} (q0 : 0 < q) (q1 : q < 1) {i j : ℕ} (h : i < j) : octLift q i < octLift q j := by
  unfold octLift
  rcases Nat.lt_or_ge (i + 1) j with h' | h'
  · have : ((i + 2 : ℕ) : ℚ) ≤ j := by exact_mod_cast h'
    push_cast at this
    split_ifs <;> linarith
  · have : j = i + 1 := by omega
    subst this
    push_cast
    split_ifs <;> linarith

theorem octAngles_cw {q : ℚ} (q0 : 0 < q) (q1 : q < 1) (k i : ℕ) (hk : k < 8) (hi : i < 8) :
    cw ((octAngles q).getD k 0) ((octAngles q).getD ((k + i) % 8) 0) = octLift q (k + i) - octLift q k := by
  unfold cw octLift
  interval_cases k <;> interval_cases i <;>
    (simp only [octAngles, List.getD_cons_zero, List.getD_cons_succ, Nat.reduceAdd, Nat.reduceMod]
     norm_num
     try (split_ifs <;> linarith))

theorem octagon_conv {a b : ℚ} (hb : 0 < b) (h1 : b < a) (h2 : a < 2 * b) : Conv (octagon a b) := by
  have len : (octagon a b).length = 8 := rfl
  have hpos : 0 < (octagon a b).length := by rw [len]; norm_num
  refine ⟨by rw [len]; norm_num, fun k => ?_, fun k => ?_, fun k => ?_⟩
  · revert k
    refine per_nat (P := fun k => cross (cv (octagon a b) k) (cv (octagon a b) (k + 1)) < 0) hpos
      (fun k => by simp only [add_right_comm k _ (1 : ℤ), cv_per]) 0 fun k hk => ?_
    rw [len] at hk
    interval_cases k <;> simp [cv, cycGet, octagon, cross] <;> nlinarith
  · revert k
    refine per_nat (P := fun k => ∀ j : ℕ, 2 ≤ j → j < (octagon a b).length →
      cross (ce (octagon a b) k) (cv (octagon a b) (k + j) - cv (octagon a b) k) < 0) hpos
      (fun k => by simp only [fun j : ℕ => add_right_comm k (((octagon a b).length : ℕ) : ℤ) (j : ℤ), cv_per, ce_per]) 0
      fun k hk j hj hj' => ?_
    rw [len] at hk hj'
    interval_cases k <;> interval_cases j <;> simp [ce, cv, cycGet, octagon, cross] <;> nlinarith
  · revert k
    refine per_nat (P := fun k => ∀ i j : ℕ, i < j → j < (octagon a b).length →
      cw (ang (ce (octagon a b) k)) (ang (ce (octagon a b) (k + i))) <
        cw (ang (ce (octagon a b) k)) (ang (ce (octagon a b) (k + j)))) hpos
      (fun k => by simp only [fun j : ℕ => add_right_comm k (((octagon a b).length : ℕ) : ℤ) (j : ℤ), ce_per]) 0
      fun k hk i j hij hj => ?_
    rw [len] at hk hj
    have hm : ∀ i : ℕ, ce (octagon a b) ((0 : ℤ) + k + i) = ce (octagon a b) ((k + i) % 8 : ℕ) := fun i => by
      apply ce_congr
      rw [len]; push_cast; omega
    rw [hm, hm, zero_add, octagon_ang hb h1 h2 k hk, octagon_ang hb h1 h2 _ (Nat.mod_lt _ (by norm_num)),
      octagon_ang hb h1 h2 _ (Nat.mod_lt _ (by norm_num))]
    have q0 : 0 < (a - b) / b := div_pos (by linarith) hb
    have q1 : (a - b) / b < 1 := by rw [div_lt_one hb]; linarith
    rw [octAngles_cw q0 q1 k i hk (by omega), octAngles_cw q0 q1 k j hk hj]
    exact sub_lt_sub_right (octLift_lt q0 q1 (by omega)) _

/-- The octagon is symmetric about the origin. -/
theorem octagon_symm {a b : ℚ} (hb : 0 < b) (h1 : b < a) (h2 : a < 2 * b) (w : Pt) :
    InConvex (octagon a b) (-w) ↔ InConvex (octagon a b) w := by
  have hC := octagon_conv hb h1 h2
  have : negC (octagon a b) = (octagon a b).rotate 4 := by
    simp [negC, octagon]
  rw [← inConvex_neg hC, this]
  unfold InConvex
  exact ⟨fun h e he => h e ((polyEdges_rotate _ 4).mem_iff.2 he), fun h e he => h e ((polyEdges_rotate _ 4).mem_iff.1 he)⟩

theorem octagon_shift {a b : ℚ} (hb : 0 < b) (h1 : b < a) {σ : ℤ} (hσ : σ ≠ 0) :
    minkowskiShift (octagon a b) σ = .ok ((0, 0), octagon a b) := by
  obtain ⟨l, hl, _, _, _, _, hp, _⟩ := c59_buffer (fun x => if x = 1 then 1 else a / b) a (by linarith) (by norm_num)
    (by simp; exact div_pos (by linarith) hb)
  rw [buffer_octagon _ _ (by linarith) (by norm_num) (by simp; constructor <;> linarith)] at hl
  have e : a / (if (2 : ℚ) = 1 then 1 else a / b) = b := by
    have ha : a ≠ 0 := by linarith
    rw [if_neg (by norm_num), div_div_eq_mul_div, mul_comm, mul_div_assoc, div_self ha, mul_one]
  rw [if_pos rfl, div_one, e] at hl
  cases hl
  have := ((locateWinding_spec (octagon a b) (by simp [octagon]) (0, 0)).2 hp.1)
  rw [if_pos hp.2] at this
  unfold minkowskiShift
  rw [if_pos hσ, this]
  rfl

end Ply
