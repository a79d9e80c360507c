import Verif.Model.Space
import Verif.Spec.Space
import Mathlib.LinearAlgebra.Matrix.NonsingularInverse
import Mathlib.LinearAlgebra.Matrix.Notation
import Mathlib.Tactic.LinearCombination
import Mathlib.Tactic.FieldSimp

/-!
# Vectors of space
-/

namespace Ply

open Spec

theorem inner_eq (a b : V3) : inner a b = dot3 a b := rfl

theorem dot3_comm (a b : V3) : dot3 a b = dot3 b a := by unfold dot3; ring

theorem dot3_add (a b c : V3) : dot3 a (b + c) = dot3 a b + dot3 a c := by
  simp only [dot3, Prod.fst_add, Prod.snd_add]; ring

theorem dot3_smul (a b : V3) (r : ℝ) : dot3 a (r • b) = r * dot3 a b := by
  simp only [dot3, Prod.smul_fst, Prod.smul_snd, smul_eq_mul]; ring

theorem dot3_neg (a b : V3) : dot3 a (-b) = -dot3 a b := by
  simp only [dot3, Prod.fst_neg, Prod.snd_neg]; ring

theorem neg_dot3 (a b : V3) : dot3 (-a) b = -dot3 a b := by rw [dot3_comm, dot3_neg, dot3_comm]

theorem add_dot3 (a b c : V3) : dot3 (a + b) c = dot3 a c + dot3 b c := by
  rw [dot3_comm, dot3_add, dot3_comm c, dot3_comm c]

theorem smul_dot3 (a b : V3) (r : ℝ) : dot3 (r • a) b = r * dot3 a b := by rw [dot3_comm, dot3_smul, dot3_comm]

theorem cross_left (a b : V3) : dot3 a (cross3 a b) = 0 := by unfold dot3 cross3; ring

theorem cross_right (a b : V3) : dot3 b (cross3 a b) = 0 := by unfold dot3 cross3; ring

/-- The identity of Lagrange. -/
theorem cross_cross (a b : V3) :
    dot3 (cross3 a b) (cross3 a b) = dot3 a a * dot3 b b - dot3 a b * dot3 a b := by unfold dot3 cross3; ring

theorem dot3_self (a : V3) : 0 ≤ dot3 a a := by
  unfold dot3
  nlinarith [mul_self_nonneg a.1, mul_self_nonneg a.2.1, mul_self_nonneg a.2.2]

theorem norm3_sq (a : V3) : norm3 a ^ 2 = dot3 a a := Real.sq_sqrt (dot3_self a)

/-- A frame gives all there is to know of a vector. -/
theorem frame_dot {u v w : V3} (h : Frame u v w) (x y : V3) :
    dot3 x y = dot3 u x * dot3 u y + dot3 v x * dot3 v y + dot3 w x * dot3 w y := by
  obtain ⟨h1, h2, h3, h4, h5, h6⟩ := h
  unfold inner at *
  have hm : (!![u.1, u.2.1, u.2.2; v.1, v.2.1, v.2.2; w.1, w.2.1, w.2.2] : Matrix (Fin 3) (Fin 3) ℝ) *
      !![u.1, v.1, w.1; u.2.1, v.2.1, w.2.1; u.2.2, v.2.2, w.2.2] = 1 := by
    ext i j
    fin_cases i <;> fin_cases j <;> simp [Matrix.mul_apply, Fin.sum_univ_three] <;> linarith
  have hm' := mul_eq_one_comm.1 hm
  have e := fun i j => congrFun (congrFun hm' i) j
  have e00 := e 0 0
  have e01 := e 0 1
  have e02 := e 0 2
  have e11 := e 1 1
  have e12 := e 1 2
  have e22 := e 2 2
  simp [Matrix.mul_apply, Fin.sum_univ_three] at e00 e01 e02 e11 e12 e22
  unfold dot3
  linear_combination (-x.1 * y.1) * e00 - (x.1 * y.2.1 + x.2.1 * y.1) * e01 - (x.1 * y.2.2 + x.2.2 * y.1) * e02
    - x.2.1 * y.2.1 * e11 - (x.2.1 * y.2.2 + x.2.2 * y.2.1) * e12 - x.2.2 * y.2.2 * e22

/-- What `lstsq` promises: the point solves both equations, and none that does is nearer to the origin. -/
theorem lstsq_solves (n m : V3) (d e : ℝ) (h : dot3 n n * dot3 m m - dot3 n m * dot3 n m ≠ 0) :
    dot3 n (lstsq n m d e) = d ∧ dot3 m (lstsq n m d e) = e := by
  unfold lstsq
  simp only [dot3_add, dot3_smul]
  rw [dot3_comm m n]
  constructor
  · rw [div_mul_eq_mul_div, div_mul_eq_mul_div, ← add_div, div_eq_iff h]; ring
  · rw [div_mul_eq_mul_div, div_mul_eq_mul_div, ← add_div, div_eq_iff h]; ring

theorem lstsq_least (n m : V3) (d e : ℝ) (h : dot3 n n * dot3 m m - dot3 n m * dot3 n m ≠ 0) (x : V3)
    (h1 : dot3 n x = d) (h2 : dot3 m x = e) : dot3 (lstsq n m d e) (lstsq n m d e) ≤ dot3 x x := by
  obtain ⟨k1, k2⟩ := lstsq_solves n m d e h
  have key : dot3 (lstsq n m d e) (x + -lstsq n m d e) = 0 := by
    have : ∀ y, dot3 (lstsq n m d e) y = ((d * dot3 m m - e * dot3 n m) / (dot3 n n * dot3 m m - dot3 n m * dot3 n m)) * dot3 n y +
        ((e * dot3 n n - d * dot3 n m) / (dot3 n n * dot3 m m - dot3 n m * dot3 n m)) * dot3 m y := fun y => by
      unfold lstsq
      simp only [add_dot3, smul_dot3]
    rw [this, dot3_add, dot3_add, dot3_neg, dot3_neg, h1, h2, k1, k2]
    ring
  have e1 : dot3 x x = dot3 (lstsq n m d e) (lstsq n m d e) + 2 * dot3 (lstsq n m d e) (x + -lstsq n m d e) +
      dot3 (x + -lstsq n m d e) (x + -lstsq n m d e) := by
    simp only [dot3_add, add_dot3, dot3_neg, neg_dot3, dot3_comm x]
    ring
  rw [e1, key]
  have := dot3_self (x + -lstsq n m d e)
  linarith

theorem lstsq_along (n m u : V3) (d e : ℝ) (h1 : dot3 n u = 0) (h2 : dot3 m u = 0) : dot3 u (lstsq n m d e) = 0 := by
  unfold lstsq
  rw [dot3_add, dot3_smul, dot3_smul, dot3_comm u, dot3_comm u, h1, h2]
  ring

end Ply
