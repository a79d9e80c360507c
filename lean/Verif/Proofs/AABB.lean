import Verif.Model.AABB
import Verif.Spec.Box
import Mathlib.Tactic.Linarith
import Mathlib.Tactic.Ring
import Mathlib.Tactic.FieldSimp

namespace Ply.AABB

/-- Representation invariant: empty (all NaN) or a proper box with the right centre. -/
def Rep (b : AABB) (pts : List Pt) : Prop :=
  (pts = [] ∧ b = ⟨(none, none), (none, none), (none, none)⟩) ∨
  ∃ lo hi : Pt, b = ⟨(some lo.1, some lo.2), (some hi.1, some hi.2),
      (some ((lo.1 + hi.1) / 2), some ((lo.2 + hi.2) / 2))⟩ ∧
    (∃ a ∈ pts, a.1 = lo.1) ∧ (∃ a ∈ pts, a.1 = hi.1) ∧ (∃ a ∈ pts, a.2 = lo.2) ∧
    (∃ a ∈ pts, a.2 = hi.2) ∧ ∀ a ∈ pts, InBox lo hi a

theorem make_some (lo hi : Pt) : make (some lo) (some hi) =
    ⟨(some lo.1, some lo.2), (some hi.1, some hi.2),
      (some ((lo.1 + hi.1) / 2), some ((lo.2 + hi.2) / 2))⟩ := rfl

theorem make_none : make none none = ⟨(none, none), (none, none), (none, none)⟩ := rfl

theorem contains_make (lo hi p : Pt) : (make (some lo) (some hi)).contains p = true ↔ InBox lo hi p := by
  rw [make_some]
  simp only [contains, NQ.le, Bool.and_eq_true, decide_eq_true_eq, InBox]
  tauto

theorem includePoint_rep (b : AABB) (pts : List Pt) (p : Pt) (h : Rep b pts) :
    Rep (b.includePoint p) (pts ++ [p]) := by
  rcases h with ⟨rfl, rfl⟩ | ⟨lo, hi, rfl, h1, h2, h3, h4, h5⟩
  · right
    refine ⟨p, p, ?_, ?_⟩
    · simp [includePoint, contains, NQ.le, includeCoord, updateMiddle, NQ.map2]
    · simp [InBox]
  · right
    by_cases hc : InBox lo hi p
    · refine ⟨lo, hi, ?_, ?_⟩
      · have := (contains_make lo hi p).2 hc
        rw [make_some] at this
        rw [includePoint, if_pos this]
      · refine ⟨?_, ?_, ?_, ?_, ?_⟩
        · obtain ⟨a, ha, e⟩ := h1; exact ⟨a, by simp [ha], e⟩
        · obtain ⟨a, ha, e⟩ := h2; exact ⟨a, by simp [ha], e⟩
        · obtain ⟨a, ha, e⟩ := h3; exact ⟨a, by simp [ha], e⟩
        · obtain ⟨a, ha, e⟩ := h4; exact ⟨a, by simp [ha], e⟩
        · intro a ha
          rcases List.mem_append.1 ha with ha | ha
          · exact h5 a ha
          · rw [List.mem_singleton.1 ha]; exact hc
    · have hlohi : InBox lo hi lo ∧ InBox lo hi hi := by
        obtain ⟨a, ha, e⟩ := h1
        obtain ⟨c, hc, e'⟩ := h3
        have q1 := h5 a ha
        have q2 := h5 c hc
        unfold InBox at *
        have : lo.1 ≤ hi.1 := q1.1.trans q1.2.1
        have : lo.2 ≤ hi.2 := q2.2.2.1.trans q2.2.2.2
        constructor <;> refine ⟨?_, ?_, ?_, ?_⟩ <;> first | assumption | exact le_rfl
      refine ⟨(min lo.1 p.1, min lo.2 p.2), (max hi.1 p.1, max hi.2 p.2), ?_, ?_⟩
      · have hc' : ¬ (make (some lo) (some hi)).contains p = true := fun h =>
          hc ((contains_make lo hi p).1 h)
        rw [make_some] at hc'
        rw [includePoint, if_neg hc']
        have e : ∀ x l u : ℚ, includeCoord x (some l) (some u) = (some (min l x), some (max u x)) := by
          intro x l u
          simp only [includeCoord, NQ.le, decide_eq_true_eq]
          ext1
          · simp only
            by_cases h : l ≤ x
            · simp [h]
            · simp [h, (not_le.1 h).le]
          · simp only
            by_cases h : x ≤ u
            · simp [h]
            · simp [h, (not_le.1 h).le]
        simp only [e, updateMiddle, NQ.map2]
      · refine ⟨?_, ?_, ?_, ?_, ?_⟩
        · rcases min_choice lo.1 p.1 with h | h
          · obtain ⟨a, ha, e⟩ := h1; exact ⟨a, by simp [ha], by simp only [h]; exact e⟩
          · exact ⟨p, by simp, by simp only [h]⟩
        · rcases max_choice hi.1 p.1 with h | h
          · obtain ⟨a, ha, e⟩ := h2; exact ⟨a, by simp [ha], by simp only [h]; exact e⟩
          · exact ⟨p, by simp, by simp only [h]⟩
        · rcases min_choice lo.2 p.2 with h | h
          · obtain ⟨a, ha, e⟩ := h3; exact ⟨a, by simp [ha], by simp only [h]; exact e⟩
          · exact ⟨p, by simp, by simp only [h]⟩
        · rcases max_choice hi.2 p.2 with h | h
          · obtain ⟨a, ha, e⟩ := h4; exact ⟨a, by simp [ha], by simp only [h]; exact e⟩
          · exact ⟨p, by simp, by simp only [h]⟩
        · intro a ha
          rcases List.mem_append.1 ha with ha | ha
          · have := h5 a ha
            unfold InBox at *
            simp only [min_le_iff, le_max_iff]
            tauto
          · rw [List.mem_singleton.1 ha]
            unfold InBox
            simp

/-- Including a list of points one after another. -/
theorem foldl_rep (pts acc : List Pt) (b : AABB) (h : Rep b acc) :
    Rep (pts.foldl includePoint b) (acc ++ pts) := by
  induction pts generalizing b acc with
  | nil => simpa using h
  | cons p pts ih =>
    have := ih (acc ++ [p]) (b.includePoint p) (includePoint_rep b acc p h)
    simpa using this

theorem rep_contains (b : AABB) (pts : List Pt) (h : Rep b pts) (p : Pt) :
    b.contains p = true ↔ InHull pts p := by
  rcases h with ⟨rfl, rfl⟩ | ⟨lo, hi, rfl, h1, h2, h3, h4, h5⟩
  · simp [contains, NQ.le, InHull]
  · rw [← make_some, contains_make]
    obtain ⟨a1, m1, e1⟩ := h1
    obtain ⟨a2, m2, e2⟩ := h2
    obtain ⟨a3, m3, e3⟩ := h3
    obtain ⟨a4, m4, e4⟩ := h4
    constructor
    · rintro ⟨q1, q2, q3, q4⟩
      exact ⟨⟨a1, m1, e1 ▸ q1⟩, ⟨a2, m2, e2 ▸ q2⟩, ⟨a3, m3, e3 ▸ q3⟩, ⟨a4, m4, e4 ▸ q4⟩⟩
    · rintro ⟨⟨b1, n1, f1⟩, ⟨b2, n2, f2⟩, ⟨b3, n3, f3⟩, ⟨b4, n4, f4⟩⟩
      exact ⟨(h5 b1 n1).1.trans f1, f2.trans (h5 b2 n2).2.1, (h5 b3 n3).2.2.1.trans f3,
        f4.trans (h5 b4 n4).2.2.2⟩

theorem rep_lohi {lo hi : Pt} {pts : List Pt} (h1 : ∃ a ∈ pts, a.1 = lo.1) (h5 : ∀ a ∈ pts, InBox lo hi a) :
    lo.1 ≤ hi.1 ∧ lo.2 ≤ hi.2 := by
  obtain ⟨a, ha, _⟩ := h1
  obtain ⟨q1, q2, q3, q4⟩ := h5 a ha
  exact ⟨q1.trans q2, q3.trans q4⟩

/-- The separating axis theorem for a box and a segment going up-right. -/
theorem sat_core {ax ay dx dy lx ux ly uy : ℚ} (hx : 0 ≤ dx) (hy : 0 ≤ dy) (bx : lx ≤ ux) (by' : ly ≤ uy)
    (h1 : ax ≤ ux) (h2 : lx ≤ ax + dx) (h3 : ay ≤ uy) (h4 : ly ≤ ay + dy)
    (h5 : (lx - ax) * dy ≤ (uy - ay) * dx) (h6 : (ly - ay) * dx ≤ (ux - ax) * dy) :
    ∃ t, 0 ≤ t ∧ t ≤ 1 ∧ lx ≤ ax + t * dx ∧ ax + t * dx ≤ ux ∧ ly ≤ ay + t * dy ∧ ay + t * dy ≤ uy := by
  have key : ∀ {a d l u : ℚ}, 0 ≤ d → l ≤ u → a ≤ u → l ≤ a + d → ∀ t, 0 ≤ t → (l - a) / d ≤ t →
      l ≤ a + t * d := by
    intro a d l u hd _ _ h2 t ht hh
    rcases hd.eq_or_lt with rfl | hd
    · linarith
    · rw [div_le_iff₀ hd] at hh; linarith
  have le1 : ∀ {a d l : ℚ}, 0 ≤ d → l ≤ a + d → (l - a) / d ≤ 1 := by
    intro a d l hd h
    rcases hd.eq_or_lt with rfl | hd
    · simp
    · rw [div_le_one hd]; linarith
  have up : ∀ {a d l u : ℚ}, 0 ≤ d → l ≤ u → a ≤ u → a + (l - a) / d * d ≤ u := by
    intro a d l u hd h1 h2
    rcases hd.eq_or_lt with rfl | hd
    · simp; exact h2
    · rw [div_mul_cancel₀ _ hd.ne']; linarith
  have upc : ∀ {a d l e b u : ℚ}, 0 ≤ d → 0 ≤ e → b ≤ u → (l - a) * e ≤ (u - b) * d →
      b + (l - a) / d * e ≤ u := by
    intro a d l e b u hd he h1 h2
    rcases hd.eq_or_lt with rfl | hd
    · simp; exact h1
    · rw [div_mul_eq_mul_div]
      have : (l - a) * e / d ≤ u - b := by rw [div_le_iff₀ hd]; linarith
      linarith
  refine ⟨max 0 (max ((lx - ax) / dx) ((ly - ay) / dy)), le_max_left _ _, ?_, ?_, ?_, ?_, ?_⟩
  · exact max_le zero_le_one (max_le (le1 hx h2) (le1 hy h4))
  · exact key hx bx h1 h2 _ (le_max_left _ _) ((le_max_left _ _).trans (le_max_right _ _))
  · rcases max_choice 0 (max ((lx - ax) / dx) ((ly - ay) / dy)) with e | e
    · rw [e]; linarith
    · rcases max_choice ((lx - ax) / dx) ((ly - ay) / dy) with e' | e'
      · rw [e, e']; exact up hx bx h1
      · rw [e, e']; exact upc hy hx h1 h6
  · exact key hy by' h3 h4 _ (le_max_left _ _) ((le_max_right _ _).trans (le_max_right _ _))
  · rcases max_choice 0 (max ((lx - ax) / dx) ((ly - ay) / dy)) with e | e
    · rw [e]; linarith
    · rcases max_choice ((lx - ax) / dx) ((ly - ay) / dy) with e' | e'
      · rw [e, e']; exact upc hx hy h3 h5
      · rw [e, e']; exact up hy by' h3

/-- Separating axis theorem, any direction. -/
theorem sat {ax ay bx by' lx ux ly uy : ℚ} (hbx : lx ≤ ux) (hby : ly ≤ uy)
    (h1 : ¬ (ax < lx ∧ bx < lx)) (h2 : ¬ (ay < ly ∧ by' < ly))
    (h3 : ¬ (ux < ax ∧ ux < bx)) (h4 : ¬ (uy < ay ∧ uy < by'))
    (h5 : |(by' - ay) * ((lx + ux) / 2 - ax) - (bx - ax) * ((ly + uy) / 2 - ay)| ≤
      |by' - ay| * ((ux - lx) / 2) + |bx - ax| * ((uy - ly) / 2)) :
    ∃ t, 0 ≤ t ∧ t ≤ 1 ∧ lx ≤ ax + t * (bx - ax) ∧ ax + t * (bx - ax) ≤ ux ∧
      ly ≤ ay + t * (by' - ay) ∧ ay + t * (by' - ay) ≤ uy := by
  rw [abs_le] at h5
  obtain ⟨h5, h6⟩ := h5
  rcases le_total 0 (bx - ax) with hx | hx <;> rcases le_total 0 (by' - ay) with hy | hy
  · rw [abs_of_nonneg hx, abs_of_nonneg hy] at h5 h6
    refine sat_core hx hy hbx hby ?_ ?_ ?_ ?_ ?_ ?_
    · by_contra h; exact h3 ⟨by linarith, by linarith⟩
    · by_contra h; exact h1 ⟨by linarith, by linarith⟩
    · by_contra h; exact h4 ⟨by linarith, by linarith⟩
    · by_contra h; exact h2 ⟨by linarith, by linarith⟩
    · linarith
    · linarith
  · rw [abs_of_nonneg hx, abs_of_nonpos hy] at h5 h6
    obtain ⟨t, q0, q1, q2, q3, q4, q5⟩ := sat_core (ax := ax) (ay := -ay) (dx := bx - ax) (dy := -(by' - ay))
      (lx := lx) (ux := ux) (ly := -uy) (uy := -ly) hx (by linarith) hbx (by linarith)
      (by by_contra h; exact h3 ⟨by linarith, by linarith⟩)
      (by by_contra h; exact h1 ⟨by linarith, by linarith⟩)
      (by by_contra h; exact h2 ⟨by linarith, by linarith⟩)
      (by by_contra h; exact h4 ⟨by linarith, by linarith⟩) (by linarith) (by linarith)
    exact ⟨t, q0, q1, q2, q3, by linarith, by linarith⟩
  · rw [abs_of_nonpos hx, abs_of_nonneg hy] at h5 h6
    obtain ⟨t, q0, q1, q2, q3, q4, q5⟩ := sat_core (ax := -ax) (ay := ay) (dx := -(bx - ax)) (dy := (by' - ay))
      (lx := -ux) (ux := -lx) (ly := ly) (uy := uy) (by linarith) hy (by linarith) hby
      (by by_contra h; exact h1 ⟨by linarith, by linarith⟩)
      (by by_contra h; exact h3 ⟨by linarith, by linarith⟩)
      (by by_contra h; exact h4 ⟨by linarith, by linarith⟩)
      (by by_contra h; exact h2 ⟨by linarith, by linarith⟩) (by linarith) (by linarith)
    exact ⟨t, q0, q1, by linarith, by linarith, q4, q5⟩
  · rw [abs_of_nonpos hx, abs_of_nonpos hy] at h5 h6
    obtain ⟨t, q0, q1, q2, q3, q4, q5⟩ := sat_core (ax := -ax) (ay := -ay) (dx := -(bx - ax))
      (dy := -(by' - ay)) (lx := -ux) (ux := -lx) (ly := -uy) (uy := -ly)
      (by linarith) (by linarith) (by linarith) (by linarith)
      (by by_contra h; exact h1 ⟨by linarith, by linarith⟩)
      (by by_contra h; exact h3 ⟨by linarith, by linarith⟩)
      (by by_contra h; exact h2 ⟨by linarith, by linarith⟩)
      (by by_contra h; exact h4 ⟨by linarith, by linarith⟩) (by linarith) (by linarith)
    exact ⟨t, q0, q1, by linarith, by linarith, by linarith, by linarith⟩

theorem intersectsSegment_eq (lo hi : Pt) (s : Seg) :
    (make (some lo) (some hi)).intersectsSegment s = true ↔
      ¬ (s.1.1 < lo.1 ∧ s.2.1 < lo.1) ∧ ¬ (s.1.2 < lo.2 ∧ s.2.2 < lo.2) ∧
      ¬ (hi.1 < s.1.1 ∧ hi.1 < s.2.1) ∧ ¬ (hi.2 < s.1.2 ∧ hi.2 < s.2.2) ∧
      ((s.2.2 - s.1.2) * ((lo.1 + hi.1) / 2 - s.1.1) - (s.2.1 - s.1.1) * ((lo.2 + hi.2) / 2 - s.1.2)) ^ 2 ≤
      (|s.2.2 - s.1.2| * ((hi.1 - lo.1) / 2) + |s.2.1 - s.1.1| * ((hi.2 - lo.2) / 2)) ^ 2 := by
  rw [make_some]
  unfold intersectsSegment
  simp only [NQ.lt, NQ.le, NQ.map2, Bool.or_eq_true, Bool.and_eq_true, decide_eq_true_eq]
  have e1 : (s.2.2 - s.1.2) * 1 * ((lo.1 + hi.1) / 2) + (s.2.1 - s.1.1) * -1 * ((lo.2 + hi.2) / 2) -
      ((s.2.2 - s.1.2) * 1 * s.1.1 + (s.2.1 - s.1.1) * -1 * s.1.2) =
      (s.2.2 - s.1.2) * ((lo.1 + hi.1) / 2 - s.1.1) - (s.2.1 - s.1.1) * ((lo.2 + hi.2) / 2 - s.1.2) := by
    ring
  have e2 : |(s.2.2 - s.1.2) * 1| * (hi.1 - (lo.1 + hi.1) / 2) +
      |(s.2.1 - s.1.1) * -1| * (hi.2 - (lo.2 + hi.2) / 2) =
      |s.2.2 - s.1.2| * ((hi.1 - lo.1) / 2) + |s.2.1 - s.1.1| * ((hi.2 - lo.2) / 2) := by
    rw [mul_one, mul_neg_one, abs_neg]; ring
  rw [e1, e2, ← sq, ← sq]
  split_ifs with h1 h2
  · simp only [false_iff]
    rintro ⟨a, b, _⟩
    exact h1.elim a b
  · simp only [false_iff]
    rintro ⟨_, _, a, b, _⟩
    exact h2.elim a b
  · simp only [decide_eq_true_eq]
    exact ⟨fun h => ⟨fun c => h1 (.inl c), fun c => h1 (.inr c), fun c => h2 (.inl c),
      fun c => h2 (.inr c), h⟩, fun h => h.2.2.2.2⟩

theorem intersectsSegment_iff (lo hi : Pt) (h1 : lo.1 ≤ hi.1) (h2 : lo.2 ≤ hi.2) (s : Seg) :
    (make (some lo) (some hi)).intersectsSegment s = true ↔ ∃ p, OnSeg s p ∧ InBox lo hi p := by
  rw [intersectsSegment_eq]
  have hS : 0 ≤ |s.2.2 - s.1.2| * ((hi.1 - lo.1) / 2) + |s.2.1 - s.1.1| * ((hi.2 - lo.2) / 2) := by
    have := abs_nonneg (s.2.2 - s.1.2)
    have := abs_nonneg (s.2.1 - s.1.1)
    have : 0 ≤ (hi.1 - lo.1) / 2 := by linarith
    have : 0 ≤ (hi.2 - lo.2) / 2 := by linarith
    positivity
  rw [sq_le_sq, abs_of_nonneg hS]
  constructor
  · rintro ⟨q1, q2, q3, q4, q5⟩
    obtain ⟨t, t0, t1, r1, r2, r3, r4⟩ := sat h1 h2 q1 q2 q3 q4 q5
    exact ⟨along s t, ⟨t, t0, t1, rfl⟩, r1, r2, r3, r4⟩
  · rintro ⟨p, ⟨t, t0, t1, rfl⟩, r1, r2, r3, r4⟩
    unfold along at r1 r2 r3 r4
    simp only at r1 r2 r3 r4
    have conv : ∀ {a b l : ℚ}, a < l → b < l → a + t * (b - a) < l := by
      intro a b l ha hb
      rcases t0.eq_or_lt with rfl | t0
      · simpa using ha
      · nlinarith
    have conv' : ∀ {a b l : ℚ}, l < a → l < b → l < a + t * (b - a) := by
      intro a b l ha hb
      rcases t0.eq_or_lt with rfl | t0
      · simpa using ha
      · nlinarith
    refine ⟨?_, ?_, ?_, ?_, ?_⟩
    · rintro ⟨a, b⟩; linarith [conv a b]
    · rintro ⟨a, b⟩; linarith [conv a b]
    · rintro ⟨a, b⟩; linarith [conv' a b]
    · rintro ⟨a, b⟩; linarith [conv' a b]
    · have e : (s.2.2 - s.1.2) * ((lo.1 + hi.1) / 2 - s.1.1) -
          (s.2.1 - s.1.1) * ((lo.2 + hi.2) / 2 - s.1.2) =
          (s.2.2 - s.1.2) * ((lo.1 + hi.1) / 2 - (s.1.1 + t * (s.2.1 - s.1.1))) -
          (s.2.1 - s.1.1) * ((lo.2 + hi.2) / 2 - (s.1.2 + t * (s.2.2 - s.1.2))) := by ring
      rw [e]
      refine (abs_sub _ _).trans ?_
      rw [abs_mul, abs_mul]
      refine add_le_add (mul_le_mul_of_nonneg_left ?_ (abs_nonneg _))
        (mul_le_mul_of_nonneg_left ?_ (abs_nonneg _))
      · rw [abs_le]; constructor <;> linarith
      · rw [abs_le]; constructor <;> linarith

end Ply.AABB
