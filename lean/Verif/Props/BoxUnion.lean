import Verif.Props.Corners
import Verif.Props.TouchRings

/-!
# C111: the union of two rectangles
-/

namespace Ply

open Arr

/-- The points of a rectangle, with its border. -/
def InRect (x0 y0 x1 y1 : ℚ) (p : Pt) : Prop := x0 ≤ p.1 ∧ p.1 ≤ x1 ∧ y0 ≤ p.2 ∧ p.2 ≤ y1

theorem box_border {x0 y0 x1 y1 : ℚ} (hx : x0 < x1) (hy : y0 < y1) (k : ℕ) (p : Pt) :
    OnBoundary ((boxLoop x0 y0 x1 y1).rotate k) p ↔ InRect x0 y0 x1 y1 p ∧ ¬ (x0 < p.1 ∧ p.1 < x1 ∧ y0 < p.2 ∧ p.2 < y1) := by
  rw [onBoundary_rotate, boxLoop_boundary x0 y0 x1 y1 hy.ne, min_eq_left hx.le, max_eq_right hx.le, min_eq_left hy.le,
    max_eq_right hy.le, InRect]

theorem box_interior {x0 y0 x1 y1 : ℚ} (hx : x0 < x1) (hy : y0 < y1) (k : ℕ) (p : Pt) :
    InPoly ((boxLoop x0 y0 x1 y1).rotate k) p ↔ x0 < p.1 ∧ p.1 < x1 ∧ y0 < p.2 ∧ p.2 < y1 := by
  rw [inPoly_turn, boxLoop_in x0 y0 x1 y1 hx.ne hy.ne, min_eq_left hx.le, max_eq_right hx.le, min_eq_left hy.le, max_eq_right hy.le]

theorem box_has {x0 y0 x1 y1 : ℚ} (hx : x0 < x1) (hy : y0 < y1) (k : ℕ) (p : Pt) :
    Geom2D.Has [⟨(boxLoop x0 y0 x1 y1).rotate k, []⟩] p ↔ InRect x0 y0 x1 y1 p := by
  obtain ⟨v, h1, h2, h3, h4⟩ := locate_single ((boxLoop x0 y0 x1 y1).rotate k) (by unfold boxLoop; simp) p
  unfold Geom2D.Has
  rw [h1, Except.ok.injEq, Except.ok.injEq, h2, h3, box_interior hx hy, box_border hx hy]
  constructor
  · rintro (h | h)
    · exact ⟨h.1.le, h.2.1.le, h.2.2.1.le, h.2.2.2.le⟩
    · exact h.1
  · exact fun h => or_iff_not_imp_left.2 fun hn => ⟨h, hn⟩

/-- The common points of the borders of rectangles that do not overlap are the common points of the rectangles. -/
theorem box_common {a0 b0 a1 b1 c0 d0 c1 d1 : ℚ} (ha : a0 < a1) (hb : b0 < b1) (hc : c0 < c1) (hd : d0 < d1)
    (h : min a1 c1 ≤ max a0 c0 ∨ min b1 d1 ≤ max b0 d0) (i j : ℕ) (p : Pt) :
    OnBoundary ((boxLoop a0 b0 a1 b1).rotate i) p ∧ OnBoundary ((boxLoop c0 d0 c1 d1).rotate j) p ↔
      InRect (max a0 c0) (max b0 d0) (min a1 c1) (min b1 d1) p := by
  rw [box_border ha hb, box_border hc hd]
  unfold InRect
  rw [max_le_iff, max_le_iff, le_min_iff, le_min_iff]
  constructor
  · rintro ⟨⟨⟨h1, h2, h3, h4⟩, -⟩, ⟨h5, h6, h7, h8⟩, -⟩
    exact ⟨⟨h1, h5⟩, ⟨h2, h6⟩, ⟨h3, h7⟩, h4, h8⟩
  · rintro ⟨⟨h1, h5⟩, ⟨h2, h6⟩, ⟨h3, h7⟩, h4, h8⟩
    refine ⟨⟨⟨h1, h2, h3, h4⟩, ?_⟩, ⟨h5, h6, h7, h8⟩, ?_⟩ <;> rintro ⟨k1, k2, k3, k4⟩ <;> rcases h with h | h <;>
      rcases min_choice a1 c1 with e1 | e1 <;> rcases max_choice a0 c0 with e2 | e2 <;>
      rcases min_choice b1 d1 with e3 | e3 <;> rcases max_choice b0 d0 with e4 | e4 <;>
      simp only [e1, e2, e3, e4] at h <;> linarith

theorem box_seam (x0 y0 x1 y1 : ℚ) (h : x1 ≤ x0 ∨ y1 ≤ y0) :
    (∀ p q, InRect x0 y0 x1 y1 p → InRect x0 y0 x1 y1 q → p = q) ∨ ∃ x y : Pt, x ≠ y ∧ ∀ p, InRect x0 y0 x1 y1 p ↔ OnSeg (x, y) p := by
  rcases lt_or_ge x0 x1 with hx | hx <;> rcases lt_or_ge y0 y1 with hy | hy
  · rcases h with h | h <;> linarith
  · rcases hy.lt_or_eq with hy | hy
    · exact Or.inl fun p q hp => by have := hp.2.2; linarith
    · refine Or.inr ⟨(x0, y0), (x1, y0), by simp [hx.ne], fun p => ?_⟩
      rw [onSeg_iff_of_horizontal (a := (x0, y0)) (b := (x1, y0)) rfl]
      simp only [min_eq_left hx.le, max_eq_right hx.le, InRect, hy]
      exact ⟨fun h => ⟨le_antisymm h.2.2.2 h.2.2.1, h.1, h.2.1⟩, fun h => ⟨h.2.1, h.2.2, h.1.ge, h.1.le⟩⟩
  · rcases hx.lt_or_eq with hx | hx
    · exact Or.inl fun p q hp => by have := hp.1; have := hp.2.1; linarith
    · refine Or.inr ⟨(x0, y0), (x0, y1), by simp [hy.ne], fun p => ?_⟩
      rw [onSeg_iff_of_vertical (a := (x0, y0)) (b := (x0, y1)) rfl]
      simp only [min_eq_left hy.le, max_eq_right hy.le, InRect, hx]
      exact ⟨fun h => ⟨le_antisymm h.2.1 h.1, h.2.2⟩, fun h => ⟨h.1.ge, h.1.le, h.2⟩⟩
  · refine Or.inl fun p q hp hq => ?_
    obtain ⟨h1, h2, h3, h4⟩ := hp
    obtain ⟨k1, k2, k3, k4⟩ := hq
    exact Prod.ext (by linarith) (by linarith)

/-- Two rings whose insides are apart, and that have at most one common point or one common straight stretch. -/
theorem touching_pair {P Q : List Pt} (hP : SimpleRing P) (hQ : SimpleRing Q) (cP : shoelace P < 0) (cQ : shoelace Q < 0)
    (ha : ∀ p, InPoly P p → ¬ InPoly Q p)
    (hs : (∀ p q, OnBoundary P p ∧ OnBoundary Q p → OnBoundary P q ∧ OnBoundary Q q → p = q) ∨
      ∃ x y, x ≠ y ∧ ∀ p, OnBoundary P p ∧ OnBoundary Q p ↔ OnSeg (x, y) p) : Touching [P, Q] where
  clear := {
    simple := by simp [hP, hQ]
    cw := by simp [cP, cQ]
    apart := fun L hL M hM p h1 h2 => by
      simp only [List.mem_cons, List.not_mem_nil, or_false] at hL hM
      rcases hL with rfl | rfl <;> rcases hM with rfl | rfl
      · rfl
      · exact absurd h2 (ha p h1)
      · exact absurd h1 (ha p h2)
      · rfl }
  seam L hL M hM hn := by
    simp only [List.mem_cons, List.not_mem_nil, or_false] at hL hM
    rcases hL with rfl | rfl <;> rcases hM with rfl | rfl
    · exact absurd rfl hn
    · exact hs
    · simpa only [and_comm] using hs
    · exact absurd rfl hn
  forest F hF _ hs := by
    obtain ⟨L, hL⟩ := List.exists_mem_of_ne_nil F hF
    refine ⟨L, hL, fun M hM N hN h1 h2 _ _ => ?_⟩
    have a := hs L hL
    have b := hs M hM
    have c := hs N hN
    simp only [List.mem_cons, List.not_mem_nil, or_false] at a b c
    rcases a with rfl | rfl <;> rcases b with rfl | rfl <;> rcases c with rfl | rfl <;> first | rfl | exact absurd rfl h1 | exact absurd rfl h2

/-- C111: the union of two rectangles never raises, however they lie to each other, and it holds exactly their points. -/
theorem c111_or (ch : Choices) (hch : ch.Valid) {a0 b0 a1 b1 c0 d0 c1 d1 : ℚ} (ha : a0 < a1) (hb : b0 < b1) (hc : c0 < c1)
    (hd : d0 < d1) (i j : ℕ) :
    ∃ r, Geom2D.or (arrangementOp ch) [⟨(boxLoop a0 b0 a1 b1).rotate i, []⟩] [⟨(boxLoop c0 d0 c1 d1).rotate j, []⟩] = .ok r ∧ r.Fine ∧
      ∀ p, r.Has p ↔ InRect a0 b0 a1 b1 p ∨ InRect c0 d0 c1 d1 p := by
  have fa := box_fine ha hb i
  have fb := box_fine hc hd j
  suffices h : ∃ r, Geom2D.or (arrangementOp ch) [⟨(boxLoop a0 b0 a1 b1).rotate i, []⟩] [⟨(boxLoop c0 d0 c1 d1).rotate j, []⟩] = .ok r by
    obtain ⟨r, hr⟩ := h
    exact ⟨r, hr, or_fine ch hch fa fb hr, fun p => by rw [c78_or ch hch fa fb hr, box_has ha hb, box_has hc hd]⟩
  by_cases h : max a0 c0 < min a1 c1 ∧ max b0 d0 < min b1 d1
  · obtain ⟨x, h1, h2⟩ := exists_between h.1
    obtain ⟨y, h3, h4⟩ := exists_between h.2
    rw [max_lt_iff] at h1 h3
    rw [lt_min_iff] at h2 h4
    obtain ⟨⟨R, hR, -⟩, -⟩ := c104_step ch hch (o := (x, y)) (boxLoop_rotate_star h1.1 h2.1 h3.1 h4.1 i)
      (boxLoop_rotate_star h1.2 h2.2 h3.2 h4.2 j)
    exact ⟨_, hR⟩
  · have h' : min a1 c1 ≤ max a0 c0 ∨ min b1 d1 ≤ max b0 d0 := by
      rw [not_and_or, not_lt, not_lt] at h
      exact h
    have hT := touching_pair ((boxLoop_simple ha hb).rotate i) ((boxLoop_simple hc hd).rotate j)
      (by rw [shoelace_rotate, boxLoop_shoelace]; nlinarith) (by rw [shoelace_rotate, boxLoop_shoelace]; nlinarith)
      (fun p h1 h2 => by
        rw [box_interior ha hb] at h1
        rw [box_interior hc hd] at h2
        exact h ⟨(max_lt h1.1 h2.1).trans (lt_min h1.2.1 h2.2.1), (max_lt h1.2.2.1 h2.2.2.1).trans (lt_min h1.2.2.2 h2.2.2.2)⟩)
      (by simpa only [box_common ha hb hc hd h' i j] using box_seam _ _ _ _ h')
    obtain ⟨r, hr, -⟩ := c96_or ch hch hT _ _ fa fb (by intro s hs; simp only [List.mem_singleton] at hs; subst hs; simp)
      (by intro s hs; simp only [List.mem_singleton] at hs; subst hs; simp)
    exact ⟨r, hr⟩

/-! ### Example -/

/-- C111: rectangles that overlap, that touch along a stretch, that touch in one corner, and that are apart. -/
theorem c111_example (ch : Choices) (hch : ch.Valid) (c : Pt) (hc : c ∈ [((4, 3) : Pt), (10, 3), (10, 8), (12, 3)]) :
    ∃ r, Geom2D.or (arrangementOp ch) [⟨boxLoop 0 0 10 8, []⟩] [⟨boxLoop c.1 c.2 20 20, []⟩] = .ok r ∧ r.Has (0, 8) ∧ r.Has (13, 20) ∧
      ¬ r.Has (3, 9) := by
  have key : c.1 < 20 ∧ c.2 < 20 ∧ c.1 ≤ 13 ∧ 3 < c.1 := by
    simp only [List.mem_cons, List.not_mem_nil, or_false] at hc
    rcases hc with rfl | rfl | rfl | rfl <;> norm_num
  obtain ⟨r, hr, -, hp⟩ := c111_or ch hch (a0 := 0) (b0 := 0) (a1 := 10) (b1 := 8) (by norm_num) (by norm_num) key.1 key.2.1 0 0
  rw [List.rotate_zero, List.rotate_zero] at hr
  refine ⟨r, hr, (hp _).2 (Or.inl (by norm_num [InRect])), (hp _).2 (Or.inr ?_), fun h => ?_⟩
  · exact ⟨key.2.2.1, by norm_num, key.2.1.le, by norm_num⟩
  · rcases (hp _).1 h with h | h
    · norm_num [InRect] at h
    · exact absurd h.1 (not_le.2 key.2.2.2)

end Ply
