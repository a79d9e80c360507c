import Verif.Proofs.Bulge
import Mathlib.Tactic.FinCases

/-!
# The pieces around a box that `buffer` unites

The box from `(x, y)` to `(x + w, y + h)`; the octagon has its corners at `(2 * p + q, 0)` and `(p + q, p + q)`.
-/

namespace Ply

/-- The corners of the box and of the pieces around it. -/
def boxPt (x y w h p q : ℚ) : Fin 16 → Pt
  | 0 => (x, y)
  | 1 => (x, y + h)
  | 2 => (x + w, y + h)
  | 3 => (x + w, y)
  | 4 => (x - (2 * p + q), y + h)
  | 5 => (x - (p + q), y + h + (p + q))
  | 6 => (x, y + h + (2 * p + q))
  | 7 => (x + w, y + h + (2 * p + q))
  | 8 => (x + w + (p + q), y + h + (p + q))
  | 9 => (x + w + (2 * p + q), y + h)
  | 10 => (x + w + (2 * p + q), y)
  | 11 => (x + w + (p + q), y - (p + q))
  | 12 => (x + w, y - (2 * p + q))
  | 13 => (x, y - (2 * p + q))
  | 14 => (x - (p + q), y - (p + q))
  | 15 => (x - (2 * p + q), y)
  | ⟨_ + 16, _⟩ => (x, y)

def outerIdx : List (Fin 16 × Fin 16) :=
  [(4, 5), (5, 6), (6, 7), (7, 8), (8, 9), (9, 10), (10, 11), (11, 12), (12, 13), (13, 14), (14, 15), (15, 4)]

/-- The sides of the box, each lengthened up to the end of the piece along it. -/
def innerIdx : List (Fin 16 × Fin 16) := [(1, 13), (2, 4), (3, 7), (0, 10)]

/-- The box and the pieces at its corners. -/
def pieceIdx : List (List (Fin 16)) :=
  [[0, 1, 2, 3], [13, 14, 15, 4, 1], [4, 5, 6, 7, 2], [7, 8, 9, 10, 3], [10, 11, 12, 13, 0]]

section

variable {x y w h p q : ℚ} (hw : 0 < w) (hh : 0 < h) (hp : 0 < p) (hq : 0 < q)
include hw hh hp hq

theorem boxPt_outer : ∀ o ∈ outerIdx, ∀ k : Fin 16, k = o.1 ∨ k = o.2 ∨
    orient (boxPt x y w h p q o.1) (boxPt x y w h p q o.2) (boxPt x y w h p q k) < 0 := by
  have h1 := mul_pos hw hh
  have h2 := mul_pos hw hp
  have h3 := mul_pos hw hq
  have h4 := mul_pos hh hp
  have h5 := mul_pos hh hq
  have h6 := mul_pos hp hp
  have h7 := mul_pos hp hq
  have h8 := mul_pos hq hq
  intro o ho k
  simp only [outerIdx, List.mem_cons, List.not_mem_nil, or_false] at ho
  rcases ho with rfl | rfl | rfl | rfl | rfl | rfl | rfl | rfl | rfl | rfl | rfl | rfl <;> fin_cases k
  all_goals
    first
    | exact Or.inl rfl
    | exact Or.inr (Or.inl rfl)
    | (refine Or.inr (Or.inr ?_); simp only [boxPt, orient]; ring_nf; linarith)

theorem boxPt_pieces : ∀ l ∈ pieceIdx, ∀ e ∈ polyEdges l, ∀ k ∈ l, k = e.1 ∨ k = e.2 ∨
    orient (boxPt x y w h p q e.1) (boxPt x y w h p q e.2) (boxPt x y w h p q k) < 0 := by
  have h1 := mul_pos hw hh
  have h2 := mul_pos hw hp
  have h3 := mul_pos hw hq
  have h4 := mul_pos hh hp
  have h5 := mul_pos hh hq
  have h6 := mul_pos hp hp
  have h7 := mul_pos hp hq
  have h8 := mul_pos hq hq
  intro l hl e he k hk
  simp only [pieceIdx, List.mem_cons, List.not_mem_nil, or_false] at hl
  rcases hl with rfl | hl
  · simp only [polyEdges, List.cons_append, List.nil_append, List.zip_cons_cons, List.zip_nil_right, List.mem_cons,
      List.not_mem_nil, or_false] at he hk
    rcases he with rfl | rfl | rfl | rfl <;> rcases hk with rfl | rfl | rfl | rfl
    all_goals
      first
      | exact Or.inl rfl
      | exact Or.inr (Or.inl rfl)
      | (refine Or.inr (Or.inr ?_); simp only [boxPt, orient]; ring_nf; linarith)
  rcases hl with rfl | rfl | rfl | rfl
  all_goals
    simp only [polyEdges, List.cons_append, List.nil_append, List.zip_cons_cons, List.zip_nil_right, List.mem_cons,
      List.not_mem_nil, or_false] at he hk
    rcases he with rfl | rfl | rfl | rfl | rfl <;> rcases hk with rfl | rfl | rfl | rfl | rfl
  all_goals
    first
    | exact Or.inl rfl
    | exact Or.inr (Or.inl rfl)
    | (refine Or.inr (Or.inr ?_); simp only [boxPt, orient]; ring_nf; linarith)

theorem boxPt_inj : Function.Injective (boxPt x y w h p q) := by
  intro i j hij
  by_contra hne
  revert hij
  rw [imp_false, Prod.ext_iff]
  fin_cases i <;> fin_cases j <;> first | exact absurd rfl hne | (simp only [boxPt]; rintro ⟨e1, e2⟩; linarith)

end

end Ply
