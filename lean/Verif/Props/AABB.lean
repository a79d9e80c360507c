import Verif.Proofs.AABB

/-! # C20, C21: axis-aligned bounding boxes -/

namespace Ply

/-- The box of a list of points: an empty box with the points included one after another. -/
def boxOf (pts : List Pt) : AABB := pts.foldl AABB.includePoint (AABB.make none none)

theorem boxOf_rep (pts : List Pt) : AABB.Rep (boxOf pts) pts := by
  exact AABB.foldl_rep pts [] (AABB.make none none) (Or.inl ⟨rfl, AABB.make_none⟩)

/-- C20: the box contains exactly the points in the hull (nothing if there are no points). -/
theorem c20_contains (pts : List Pt) (p : Pt) : (boxOf pts).contains p = true ↔ InHull pts p :=
  AABB.rep_contains _ _ (boxOf_rep pts) p

/-- C20: no points, nothing contained. -/
theorem c20_empty (p : Pt) : (boxOf []).contains p = false := rfl

/-- C20: the resulting object is the box with the extreme coordinates as corners, and its middle is
their centre. -/
theorem c20_corners (pts : List Pt) (h : pts ≠ []) :
    ∃ lo hi, boxOf pts = AABB.make (some lo) (some hi) ∧
      (boxOf pts).middle = (some ((lo.1 + hi.1) / 2), some ((lo.2 + hi.2) / 2)) ∧
      (∃ a ∈ pts, a.1 = lo.1) ∧ (∃ a ∈ pts, a.2 = lo.2) ∧
      (∃ a ∈ pts, a.1 = hi.1) ∧ (∃ a ∈ pts, a.2 = hi.2) ∧ ∀ a ∈ pts, InBox lo hi a := by
  rcases boxOf_rep pts with ⟨h', _⟩ | ⟨lo, hi, e, h1, h2, h3, h4, h5⟩
  · exact absurd h' h
  · exact ⟨lo, hi, by rw [e, AABB.make_some], by rw [e], h1, h3, h2, h4, h5⟩

/-- C20: order and repetition do not matter: the same set of points gives the same object. -/
theorem c20_order_irrelevant (pts pts' : List Pt) (h : ∀ p, p ∈ pts ↔ p ∈ pts') :
    boxOf pts = boxOf pts' := by
  by_cases hn : pts = []
  · subst hn
    have : pts' = [] := List.eq_nil_iff_forall_not_mem.2 fun p hp => by simpa using (h p).2 hp
    rw [this]
  · have hn' : pts' ≠ [] := by
      rintro rfl
      exact hn (List.eq_nil_iff_forall_not_mem.2 fun p hp => by simpa using (h p).1 hp)
    obtain ⟨lo, hi, e, _, ⟨a1, m1, f1⟩, ⟨a2, m2, f2⟩, ⟨a3, m3, f3⟩, ⟨a4, m4, f4⟩, h5⟩ := c20_corners pts hn
    obtain ⟨lo', hi', e', _, ⟨b1, n1, g1⟩, ⟨b2, n2, g2⟩, ⟨b3, n3, g3⟩, ⟨b4, n4, g4⟩, h5'⟩ := c20_corners pts' hn'
    have k1 : lo = lo' := Prod.ext
      (le_antisymm (g1 ▸ (h5 b1 ((h _).2 n1)).1) (f1 ▸ (h5' a1 ((h _).1 m1)).1))
      (le_antisymm (g2 ▸ (h5 b2 ((h _).2 n2)).2.2.1) (f2 ▸ (h5' a2 ((h _).1 m2)).2.2.1))
    have k2 : hi = hi' := Prod.ext
      (le_antisymm (f3 ▸ (h5' a3 ((h _).1 m3)).2.1) (g3 ▸ (h5 b3 ((h _).2 n3)).2.1))
      (le_antisymm (f4 ▸ (h5' a4 ((h _).1 m4)).2.2.2) (g4 ▸ (h5 b4 ((h _).2 n4)).2.2.2))
    rw [e, e', k1, k2]

example : (boxOf [(0, 0), (2, 1), (1, 5)]).contains (2, 5) = true ∧
    (boxOf [(0, 0), (2, 1), (1, 5)]).contains (3, 5) = false := by
  constructor
  · rw [c20_contains]; simp [InHull]
  · rw [Bool.eq_false_iff, Ne, c20_contains]; simp [InHull]; norm_num

/-- C21: two proper boxes intersect iff they share a point. -/
theorem c21_aabb (lo hi lo' hi' : Pt) (h1 : lo.1 ≤ hi.1) (h2 : lo.2 ≤ hi.2)
    (h1' : lo'.1 ≤ hi'.1) (h2' : lo'.2 ≤ hi'.2) :
    (AABB.make (some lo) (some hi)).intersectsAABB (AABB.make (some lo') (some hi')) = true ↔
      ∃ p, InBox lo hi p ∧ InBox lo' hi' p := by
  rw [AABB.make_some, AABB.make_some]
  simp only [AABB.intersectsAABB, NQ.le, Bool.and_eq_true, decide_eq_true_eq, InBox]
  constructor
  · rintro ⟨⟨a, b⟩, c, d⟩
    refine ⟨(max lo.1 lo'.1, max lo.2 lo'.2), ?_, ?_⟩ <;> simp [*]
  · rintro ⟨p, ⟨a, b, c, d⟩, a', b', c', d'⟩
    exact ⟨⟨a'.trans b, c'.trans d⟩, a.trans b', c.trans d'⟩

/-- C21: a proper box meets a closed segment iff some point of the segment is in the box;
degenerate segments and boxes included. -/
theorem c21_segment (lo hi : Pt) (h1 : lo.1 ≤ hi.1) (h2 : lo.2 ≤ hi.2) (s : Seg) :
    (AABB.make (some lo) (some hi)).intersectsSegment s = true ↔ ∃ p, OnSeg s p ∧ InBox lo hi p :=
  AABB.intersectsSegment_iff lo hi h1 h2 s

/-- C21: the same in terms of the object's own `contains`, for every box built by including points
(empty ones included). -/
theorem c21_segment_boxOf (pts : List Pt) (s : Seg) :
    (boxOf pts).intersectsSegment s = true ↔ ∃ p, OnSeg s p ∧ (boxOf pts).contains p = true := by
  by_cases hn : pts = []
  · subst hn
    have e : boxOf [] = AABB.make none none := rfl
    rw [e, AABB.make_none]
    simp [AABB.intersectsSegment, AABB.contains, NQ.lt, NQ.le, NQ.map2]
  · obtain ⟨lo, hi, e, _, h1, _, _, _, h5⟩ := c20_corners pts hn
    obtain ⟨q1, q2⟩ := AABB.rep_lohi h1 h5
    rw [e, c21_segment lo hi q1 q2]
    simp only [AABB.contains_make]

/-- C21: the same for two boxes built by including points. -/
theorem c21_aabb_boxOf (pts pts' : List Pt) :
    (boxOf pts).intersectsAABB (boxOf pts') = true ↔
      ∃ p, (boxOf pts).contains p = true ∧ (boxOf pts').contains p = true := by
  have e : boxOf [] = AABB.make none none := rfl
  by_cases hn : pts = []
  · subst hn
    rw [e, AABB.make_none]
    simp [AABB.intersectsAABB, AABB.contains, NQ.le]
  · by_cases hn' : pts' = []
    · subst hn'
      rw [e, AABB.make_none]
      simp [AABB.intersectsAABB, AABB.contains, NQ.le]
    · obtain ⟨lo, hi, e, _, h1, _, _, _, h5⟩ := c20_corners pts hn
      obtain ⟨q1, q2⟩ := AABB.rep_lohi h1 h5
      obtain ⟨lo', hi', e', _, h1', _, _, _, h5'⟩ := c20_corners pts' hn'
      obtain ⟨q1', q2'⟩ := AABB.rep_lohi h1' h5'
      rw [e, e', c21_aabb lo hi lo' hi' q1 q2 q1' q2']
      simp only [AABB.contains_make]

/-- C21: an empty box intersects nothing. -/
theorem c21_empty (s : Seg) (b : AABB) :
    (AABB.make none none).intersectsSegment s = false ∧
    (AABB.make none none).intersectsAABB b = false ∧ b.intersectsAABB (AABB.make none none) = false := by
  rw [AABB.make_none]
  refine ⟨?_, ?_, ?_⟩ <;> simp [AABB.intersectsSegment, AABB.intersectsAABB, NQ.lt, NQ.le, NQ.map2]

/-- Non-vacuity: a segment cutting the corner of a box and one passing it. -/
example : (boxOf [(0, 0), (2, 2)]).intersectsSegment ((1, 3), (3, 1)) = true ∧
    (boxOf [(0, 0), (2, 2)]).intersectsSegment ((2, 3), (3, 2)) = false := by
  constructor
  · rw [c21_segment_boxOf]
    refine ⟨(2, 2), ⟨1 / 2, by norm_num, by norm_num, by unfold along; norm_num⟩, ?_⟩
    rw [c20_contains]; simp [InHull]
  · rw [Bool.eq_false_iff, Ne, c21_segment_boxOf]
    rintro ⟨p, ⟨t, t0, t1, rfl⟩, h⟩
    rw [c20_contains] at h
    simp [InHull, along] at h
    obtain ⟨_, h1 | h1, _, h2 | h2⟩ := h <;> linarith

end Ply
