import Verif.Model.Primitive2D
import Verif.Proofs.Chain
import Mathlib.Tactic.Linarith
import Mathlib.Tactic.FieldSimp
import Mathlib.Tactic.LinearCombination

/-! Helper lemmas for polygon area and point location. -/

namespace Ply

/-! ### Area -/

theorem areaLoop_eq (prev : Pt) (acc : ℚ) (l : List Pt) :
    areaLoop prev acc l =
      acc + ((chain prev l).map fun e => (e.2.1 + e.1.1) / 2 * -(e.2.2 - e.1.2)).sum := by
  induction l generalizing prev acc with
  | nil => simp [areaLoop]
  | cons v l ih => simp only [areaLoop, ih, chain_cons, List.map_cons, List.sum_cons]; ring

theorem pyLast_ok {α : Type*} (l : List α) (h : l ≠ []) : pyLast l = .ok (l.getLast h) := by
  unfold pyLast
  rw [List.getLast?_eq_some_getLast h]

theorem area_edge (e : Seg) : (e.2.1 + e.1.1) / 2 * -(e.2.2 - e.1.2) =
    -(cross e.1 e.2) / 2 + (-(e.2.1 * e.2.2) / 2 - -(e.1.1 * e.1.2) / 2) := by
  unfold cross; ring

theorem sum_map_add' {α : Type*} (l : List α) (f g : α → ℚ) :
    (l.map fun e => f e + g e).sum = (l.map f).sum + (l.map g).sum := by
  induction l with
  | nil => simp
  | cons a l ih => simp only [List.map_cons, List.sum_cons, ih]; ring

theorem sum_map_neg_half {α : Type*} (l : List α) (f : α → ℚ) :
    (l.map fun e => -(f e) / 2).sum = -((l.map f).sum / 2) := by
  induction l with
  | nil => simp
  | cons a l ih => simp only [List.map_cons, List.sum_cons, ih]; ring

theorem area_eq_shoelace (poly : List Pt) (h : poly ≠ []) :
    simplePolygonArea poly = .ok (-(shoelace poly)) := by
  unfold simplePolygonArea
  rw [pyLast_ok poly h]
  change Except.ok (areaLoop _ 0 poly) = _
  rw [areaLoop_eq, zero_add]
  congr 1
  rw [((chain_last_perm poly h).map _).sum_eq]
  have : (fun e : Seg => (e.2.1 + e.1.1) / 2 * -(e.2.2 - e.1.2)) =
      fun e => (fun e : Seg => -(cross e.1 e.2) / 2) e +
        ((fun p : Pt => -(p.1 * p.2) / 2) e.2 - (fun p : Pt => -(p.1 * p.2) / 2) e.1) := by
    funext e; exact area_edge e
  rw [this, sum_map_add', polyEdges_telescope (fun p : Pt => -(p.1 * p.2) / 2), add_zero]
  exact sum_map_neg_half _ _

theorem triArea_eq (a b c : Pt) : triArea a b c = -(orient a b c) / 2 := by
  unfold triArea
  rw [areaLoop_eq]
  simp only [chain_cons, chain_nil, List.map_cons, List.map_nil, List.sum_cons, List.sum_nil]
  unfold orient; ring

/-! ### Segments -/

theorem onSeg_start (s : Seg) : OnSeg s s.1 := ⟨0, le_rfl, zero_le_one, by unfold along; simp⟩
theorem onSeg_end (s : Seg) : OnSeg s s.2 := ⟨1, zero_le_one, le_rfl, by unfold along; simp⟩

theorem onSeg_swap {s : Seg} {p : Pt} (h : OnSeg s p) : OnSeg s.swap p := by
  obtain ⟨t, h0, h1, rfl⟩ := h
  refine ⟨1 - t, by linarith, by linarith, ?_⟩
  unfold along
  ext <;> simp only [Prod.fst_swap, Prod.snd_swap] <;> ring

theorem onSeg_orient {a b p : Pt} (h : OnSeg (a, b) p) : orient a b p = 0 := by
  obtain ⟨t, h0, h1, rfl⟩ := h
  unfold along orient; ring

/-- For an edge that is not horizontal, being on it is collinearity plus the height range. -/
theorem onSeg_iff_of_y {a b p : Pt} (hab : a.2 ≠ b.2) :
    OnSeg (a, b) p ↔ orient a b p = 0 ∧ min a.2 b.2 ≤ p.2 ∧ p.2 ≤ max a.2 b.2 := by
  constructor
  · intro h
    refine ⟨onSeg_orient h, ?_⟩
    obtain ⟨t, h0, h1, rfl⟩ := h
    unfold along
    simp only
    rcases le_total a.2 b.2 with h | h
    · rw [min_eq_left h, max_eq_right h]; constructor <;> nlinarith
    · rw [min_eq_right h, max_eq_left h]; constructor <;> nlinarith
  · rintro ⟨ho, h1, h2⟩
    have hne : b.2 - a.2 ≠ 0 := fun h => hab (by linarith)
    refine ⟨(p.2 - a.2) / (b.2 - a.2), ?_, ?_, ?_⟩
    · rcases lt_or_gt_of_ne hab with h | h
      · rw [min_eq_left h.le] at h1
        exact div_nonneg (by linarith) (by linarith)
      · rw [max_eq_left h.le] at h2
        exact div_nonneg_of_nonpos (by linarith) (by linarith)
    · rcases lt_or_gt_of_ne hab with h | h
      · rw [max_eq_right h.le] at h2
        rw [div_le_one (by linarith)]; linarith
      · rw [min_eq_right h.le] at h1
        rw [div_le_one_of_neg (by linarith)]; linarith
    · unfold along
      unfold orient at ho
      ext
      · simp only; field_simp; linarith
      · simp only; field_simp; ring

/-- For a horizontal edge. -/
theorem onSeg_iff_of_horizontal {a b p : Pt} (hab : a.2 = b.2) :
    OnSeg (a, b) p ↔ p.2 = a.2 ∧ min a.1 b.1 ≤ p.1 ∧ p.1 ≤ max a.1 b.1 := by
  constructor
  · rintro ⟨t, h0, h1, rfl⟩
    unfold along
    simp only
    refine ⟨by rw [hab]; ring, ?_⟩
    rcases le_total a.1 b.1 with h | h
    · rw [min_eq_left h, max_eq_right h]; constructor <;> nlinarith
    · rw [min_eq_right h, max_eq_left h]; constructor <;> nlinarith
  · rintro ⟨hy, h1, h2⟩
    by_cases hx : a.1 = b.1
    · rw [hx, min_self] at h1
      rw [hx, max_self] at h2
      refine ⟨0, le_rfl, zero_le_one, ?_⟩
      unfold along
      ext
      · simp only; linarith
      · simp only; linarith
    · have hne : b.1 - a.1 ≠ 0 := fun h => hx (by linarith)
      refine ⟨(p.1 - a.1) / (b.1 - a.1), ?_, ?_, ?_⟩
      · rcases lt_or_gt_of_ne hx with h | h
        · rw [min_eq_left h.le] at h1
          exact div_nonneg (by linarith) (by linarith)
        · rw [max_eq_left h.le] at h2
          exact div_nonneg_of_nonpos (by linarith) (by linarith)
      · rcases lt_or_gt_of_ne hx with h | h
        · rw [max_eq_right h.le] at h2
          rw [div_le_one (by linarith)]; linarith
        · rw [min_eq_right h.le] at h1
          rw [div_le_one_of_neg (by linarith)]; linarith
      · unfold along
        ext
        · simp only; field_simp; ring
        · simp only [hy, hab]; ring

/-! ### The winding loop -/

/-- 1 if the point is above the level. -/
def above (p a : Pt) : ℤ := if p.2 < a.2 then 1 else 0

theorem subsign_cases (a c : ℚ) : (a > c ∧ subsign a c = 1) ∨ (a = c ∧ subsign a c = 0) ∨
    (a < c ∧ subsign a c = -1) := by
  unfold subsign
  rcases lt_trichotomy a c with h | h | h
  · exact Or.inr (Or.inr ⟨h, by rw [if_neg (not_lt.2 h.le), if_neg h.ne]⟩)
  · exact Or.inr (Or.inl ⟨h, by rw [if_neg (not_lt.2 h.le), if_pos h]⟩)
  · exact Or.inl ⟨h, by rw [if_pos h]⟩

theorem subsign_mul (a b c : ℚ) :
    subsign a c * subsign b c = 1 ↔ (a > c ∧ b > c) ∨ (a < c ∧ b < c) := by
  rcases subsign_cases a c with ⟨h, e⟩ | ⟨h, e⟩ | ⟨h, e⟩ <;>
  rcases subsign_cases b c with ⟨k, f⟩ | ⟨k, f⟩ | ⟨k, f⟩ <;> rw [e, f] <;>
  first
    | exact ⟨fun _ => Or.inl ⟨h, k⟩, fun _ => rfl⟩
    | exact ⟨fun _ => Or.inr ⟨h, k⟩, fun _ => rfl⟩
    | exact ⟨fun hh => absurd hh (by decide),
        fun hh => by rcases hh with ⟨x, y⟩ | ⟨x, y⟩ <;> (exfalso; linarith)⟩

/-- One step of the loop when the point is not on the edge: the counter changes by
`-2 * crossing + (above b - above a)`. -/
theorem windingLoop_step {p a b : Pt} (w : Int) (l : List Pt) (h : ¬ OnSeg (a, b) p) :
    windingLoop p a w (b :: l) =
      windingLoop p b (w + (-2 * crossing p a b + (above p b - above p a))) l := by
  have hbp : b ≠ p := by rintro rfl; exact h (onSeg_end (a, b))
  have hap : a ≠ p := by rintro rfl; exact h (onSeg_start (a, b))
  rw [windingLoop]
  simp only [subsign_mul]
  by_cases h1 : (a.2 > p.2 ∧ b.2 > p.2) ∨ (a.2 < p.2 ∧ b.2 < p.2)
  · rw [if_pos h1]
    congr 1
    have : crossing p a b = 0 ∧ above p b = above p a := by
      unfold crossing above
      rcases h1 with ⟨h1, h2⟩ | ⟨h1, h2⟩
      · rw [if_neg (by rintro ⟨h, _⟩; linarith), if_neg (by rintro ⟨h, _⟩; linarith)]
        simp [h1, h2]
      · rw [if_neg (by rintro ⟨_, h, _⟩; linarith), if_neg (by rintro ⟨_, h, _⟩; linarith)]
        simp [not_lt.2 h1.le, not_lt.2 h2.le]
    rw [this.1, this.2]; ring
  · rw [if_neg h1, if_neg hbp]
    push Not at h1
    by_cases h2 : a.2 = b.2
    · rw [if_pos h2]
      have hy : p.2 = a.2 := by
        rcases lt_trichotomy a.2 p.2 with h | h | h
        · have := h1.2 h; linarith
        · exact h.symm
        · have := h1.1 h; linarith
      rw [if_neg]
      · congr 1
        have : crossing p a b = 0 ∧ above p b = above p a := by
          unfold crossing above
          rw [if_neg (by rintro ⟨_, h, _⟩; linarith), if_neg (by rintro ⟨_, h, _⟩; linarith), h2]
          simp
        rw [this.1, this.2]; ring
      · intro hc
        apply h
        rw [onSeg_iff_of_horizontal h2]
        refine ⟨hy, ?_⟩
        rcases hc with ⟨c1, c2⟩ | ⟨c1, c2⟩
        · exact ⟨(min_le_left _ _).trans c1.le, c2.le.trans (le_max_right _ _)⟩
        · exact ⟨(min_le_right _ _).trans c2.le, c1.le.trans (le_max_left _ _)⟩
    · rw [if_neg h2]
      have hon := onSeg_iff_of_y (p := p) h2
      by_cases h3 : max b.2 a.2 = p.2
      · rw [if_pos h3]
        congr 1
        have hb := le_max_left b.2 a.2
        have ha := le_max_right b.2 a.2
        rw [h3] at ha hb
        have : crossing p a b = 0 ∧ above p b = above p a := by
          unfold crossing above
          rw [if_neg (by rintro ⟨_, h, _⟩; linarith), if_neg (by rintro ⟨_, h, _⟩; linarith)]
          simp [not_lt.2 ha, not_lt.2 hb]
        rw [this.1, this.2]; ring
      · rw [if_neg h3]
        -- a genuine straddle
        have hstr : (a.2 ≤ p.2 ∧ p.2 < b.2) ∨ (b.2 ≤ p.2 ∧ p.2 < a.2) := by
          rcases lt_or_gt_of_ne h2 with hlt | hlt
          · rw [max_eq_left hlt.le] at h3
            left
            constructor
            · by_contra hc; rw [not_le] at hc; have := h1.1 hc; linarith
            · by_contra hc
              rw [not_lt] at hc
              have hc' : b.2 < p.2 := lt_of_le_of_ne hc h3
              have := h1.2 (by linarith); linarith
          · rw [max_eq_right hlt.le] at h3
            right
            constructor
            · by_contra hc; rw [not_le] at hc; have := h1.1 (by linarith); linarith
            · by_contra hc
              rw [not_lt] at hc
              have hc' : a.2 < p.2 := lt_of_le_of_ne hc h3
              have := h1.2 hc'; linarith
        have hrange : min a.2 b.2 ≤ p.2 ∧ p.2 ≤ max a.2 b.2 := by
          rcases hstr with ⟨c1, c2⟩ | ⟨c1, c2⟩
          · exact ⟨(min_le_left _ _).trans c1, c2.le.trans (le_max_right _ _)⟩
          · exact ⟨(min_le_right _ _).trans c1, c2.le.trans (le_max_left _ _)⟩
        have ho : orient a b p ≠ 0 := fun hc => h (hon.2 ⟨hc, hrange⟩)
        rw [triArea_eq]
        rw [if_neg (by intro hc; apply ho; linarith)]
        rcases hstr with ⟨c1, c2⟩ | ⟨c1, c2⟩
        · have ea : above p a = 0 := by unfold above; rw [if_neg (not_lt.2 c1)]
          have eb : above p b = 1 := by unfold above; rw [if_pos c2]
          rcases lt_or_gt_of_ne ho with hs | hs
          · have ec : crossing p a b = 0 := by
              unfold crossing
              rw [if_neg (by rintro ⟨_, _, h⟩; linarith), if_neg (by rintro ⟨h, _⟩; linarith)]
            rw [if_pos (by linarith), ea, eb, ec]; congr 1
          · have ec : crossing p a b = 1 := by unfold crossing; rw [if_pos ⟨c1, c2, hs⟩]
            rw [if_neg (by linarith), ea, eb, ec]; congr 1
        · have ea : above p a = 1 := by unfold above; rw [if_pos c2]
          have eb : above p b = 0 := by unfold above; rw [if_neg (not_lt.2 c1)]
          rcases lt_or_gt_of_ne ho with hs | hs
          · have ec : crossing p a b = -1 := by
              unfold crossing
              rw [if_neg (by rintro ⟨h, _⟩; linarith), if_pos ⟨c1, c2, hs⟩]
            rw [if_pos (by linarith), ea, eb, ec]; congr 1
          · have ec : crossing p a b = 0 := by
              unfold crossing
              rw [if_neg (by rintro ⟨h, _⟩; linarith), if_neg (by rintro ⟨_, _, h⟩; linarith)]
            rw [if_neg (by linarith), ea, eb, ec]; congr 1

/-- One step of the loop when the point is on the edge but is not the start vertex. -/
theorem windingLoop_hit {p a b : Pt} (w : Int) (l : List Pt) (h : OnSeg (a, b) p) (hap : a ≠ p) :
    windingLoop p a w (b :: l) = 0 := by
  rw [windingLoop]
  simp only [subsign_mul]
  by_cases h2 : a.2 = b.2
  · have hh := (onSeg_iff_of_horizontal h2).1 h
    rw [if_neg (by rintro (⟨c, _⟩ | ⟨c, _⟩) <;> linarith [hh.1])]
    by_cases hb : b = p
    · rw [if_pos hb]
    · rw [if_neg hb, if_pos h2, if_pos]
      have ha1 : a.1 ≠ p.1 := fun hc => hap (Prod.ext hc hh.1.symm)
      have hb1 : b.1 ≠ p.1 := fun hc => hb (Prod.ext hc (by rw [hh.1, h2]))
      rcases le_total a.1 b.1 with hle | hle
      · rw [min_eq_left hle, max_eq_right hle] at hh
        exact Or.inl ⟨lt_of_le_of_ne hh.2.1 ha1, lt_of_le_of_ne hh.2.2 hb1.symm⟩
      · rw [min_eq_right hle, max_eq_left hle] at hh
        exact Or.inr ⟨lt_of_le_of_ne hh.2.2 ha1.symm, lt_of_le_of_ne hh.2.1 hb1⟩
  · have hh := (onSeg_iff_of_y h2).1 h
    rw [if_neg]
    · by_cases hb : b = p
      · rw [if_pos hb]
      · rw [if_neg hb, if_neg h2]
        have key : max b.2 a.2 ≠ p.2 := by
          intro hc
          -- then the point would be the upper end point
          unfold orient at hh
          rcases le_total a.2 b.2 with hle | hle
          · rw [max_eq_left hle] at hc
            apply hb
            have e : (b.2 - a.2) * (b.1 - p.1) = 0 := by
              have := hh.1; rw [← hc] at this; linarith
            rcases mul_eq_zero.1 e with e | e
            · exact absurd (by linarith : a.2 = b.2) h2
            · exact Prod.ext (by linarith) hc
          · rw [max_eq_right hle] at hc
            apply hap
            have e : (b.2 - a.2) * (p.1 - a.1) = 0 := by
              have := hh.1; rw [← hc] at this; linarith
            rcases mul_eq_zero.1 e with e | e
            · exact absurd (by linarith : a.2 = b.2) h2
            · exact Prod.ext (by linarith) hc
        rw [if_neg key, triArea_eq, hh.1]
        simp
    · rintro (⟨c1, c2⟩ | ⟨c1, c2⟩)
      · exact absurd hh.2.1 (not_le.2 (lt_min c1 c2))
      · exact absurd hh.2.2 (not_le.2 (max_lt c1 c2))

/-- One step when the previous vertex is the point itself. -/
theorem windingLoop_start {p b : Pt} (w : Int) (l : List Pt) :
    windingLoop p p w (b :: l) = 0 ∨ windingLoop p p w (b :: l) = windingLoop p b w l := by
  rw [windingLoop]
  simp only [subsign_mul]
  rw [if_neg (by simp)]
  by_cases hb : b = p
  · exact Or.inl (by rw [if_pos hb])
  rw [if_neg hb]
  by_cases h2 : p.2 = b.2
  · rw [if_pos h2]
    rw [if_neg (by rintro (⟨c, _⟩ | ⟨c, _⟩) <;> exact absurd c (lt_irrefl _))]
    exact Or.inr rfl
  · rw [if_neg h2]
    by_cases h3 : max b.2 p.2 = p.2
    · rw [if_pos h3]; exact Or.inr rfl
    · rw [if_neg h3, triArea_eq, if_pos (by unfold orient; ring)]
      exact Or.inl rfl

/-- The loop finds a vertex equal to the point. -/
theorem windingLoop_vertex {p : Pt} (l : List Pt) (hp : p ∈ l) (a : Pt) (w : Int) :
    windingLoop p a w l = 0 := by
  induction l generalizing a w with
  | nil => simp at hp
  | cons b l ih =>
    by_cases hb : b = p
    · subst hb
      by_cases hab : a = b
      · subst hab
        rw [windingLoop]
        simp [subsign_mul]
      · exact windingLoop_hit w l (onSeg_end (a, b)) hab
    · have hpl : p ∈ l := by
        rcases List.mem_cons.1 hp with h | h
        · exact absurd h.symm hb
        · exact h
      by_cases hap : a = p
      · subst hap
        rcases windingLoop_start (p := a) (b := b) w l with h | h
        · exact h
        · rw [h]; exact ih hpl b w
      · by_cases hon : OnSeg (a, b) p
        · exact windingLoop_hit w l hon hap
        · rw [windingLoop_step w l hon]; exact ih hpl b _

theorem windingLoop_on {p : Pt} (l : List Pt) (a : Pt) (w : Int) (hap : a ≠ p)
    (h : ∃ e ∈ chain a l, OnSeg e p) : windingLoop p a w l = 0 := by
  induction l generalizing a w with
  | nil => simp at h
  | cons b l ih =>
    by_cases hon : OnSeg (a, b) p
    · exact windingLoop_hit w l hon hap
    · rw [windingLoop_step w l hon]
      have hbp : b ≠ p := by rintro rfl; exact hon (onSeg_end (a, b))
      apply ih b _ hbp
      obtain ⟨e, he, hoe⟩ := h
      rcases List.mem_cons.1 he with rfl | he
      · exact absurd hoe hon
      · exact ⟨e, he, hoe⟩

theorem windingLoop_off {p : Pt} (l : List Pt) (a : Pt) (w : Int)
    (h : ∀ e ∈ chain a l, ¬ OnSeg e p) :
    windingLoop p a w l = if w + ((chain a l).map fun e =>
      (-2 * crossing p e.1 e.2 + (above p e.2 - above p e.1))).sum ≠ 0 then 1 else -1 := by
  induction l generalizing a w with
  | nil => simp [windingLoop]
  | cons b l ih =>
    rw [windingLoop_step w l (h (a, b) (by simp)), ih b _ (fun e he => h e (by simp [he]))]
    simp only [chain_cons, List.map_cons, List.sum_cons, add_assoc]

theorem sum_map_crossing (l : List Seg) (p : Pt) :
    (l.map fun e => (-2 * crossing p e.1 e.2 + (above p e.2 - above p e.1))).sum =
    -2 * (l.map fun e => crossing p e.1 e.2).sum +
      (l.map fun e => above p e.2 - above p e.1).sum := by
  induction l with
  | nil => simp
  | cons a l ih => simp only [List.map_cons, List.sum_cons, ih]; ring

theorem locateWinding_spec (poly : List Pt) (h : poly ≠ []) (p : Pt) :
    (OnBoundary poly p → locateWinding poly p = .ok 0) ∧
    (¬ OnBoundary poly p → locateWinding poly p =
      .ok (if windingNumber poly p ≠ 0 then 1 else -1)) := by
  unfold locateWinding
  rw [pyLast_ok poly h]
  change (_ → Except.ok (windingLoop p _ 0 poly) = _) ∧
    (_ → Except.ok (windingLoop p _ 0 poly) = _)
  have hperm := chain_last_perm poly h
  constructor
  · rintro ⟨e, he, hoe⟩
    congr 1
    by_cases hp : p ∈ poly
    · exact windingLoop_vertex poly hp _ 0
    · apply windingLoop_on
      · intro hc; exact hp (by rw [← hc]; exact List.getLast_mem h)
      · exact ⟨e, hperm.mem_iff.2 he, hoe⟩
  · intro hn
    congr 1
    rw [windingLoop_off]
    · rw [zero_add, (hperm.map _).sum_eq, sum_map_crossing, polyEdges_telescope (above p), add_zero]
      unfold windingNumber
      congr 1
      simp
    · intro e he hoe
      exact hn ⟨e, hperm.mem_iff.1 he, hoe⟩

end Ply
