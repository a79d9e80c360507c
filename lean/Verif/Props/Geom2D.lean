import Verif.Proofs.Geom2D
import Verif.Props.Primitive2D
import Verif.Proofs.Simplify
import Verif.Proofs.Frangle

/-! # C31–C34, C36, C59: polygons with holes -/

namespace Ply

/-! ### C31 -/

/-- C31: `locate` of one polygon with holes; the three classes exclude each other. -/
theorem c31_locate_polygon (o : List Pt) (hs : List (List Pt)) (s : SPWH)
    (h : SPWH.mk' o hs = .ok s) (p : Pt) :
    (s.locate p = .ok 1 ↔ InRegion o hs p) ∧
    (s.locate p = .ok 0 ↔ OnRegionBoundary o hs p) ∧
    (s.locate p = .ok (-1) ↔ OutRegion o hs p) ∧
    (s.locate p = .ok 1 ∨ s.locate p = .ok 0 ∨ s.locate p = .ok (-1)) := by
  obtain ⟨rfl, hv⟩ := (SPWH.mk'_iff o hs s).1 h
  have hw := hv.wf
  obtain ⟨a, b, c⟩ := hw.loc_iff p
  rw [hw.locate_eq p]
  simp only [Except.ok.injEq]
  exact ⟨a, b, c, hw.loc_cases p⟩

/-- C31: off all edges the position is simply "inside the outer loop and outside all holes". -/
theorem c31_locate_off_edges (o : List Pt) (hs : List (List Pt)) (s : SPWH)
    (h : SPWH.mk' o hs = .ok s) (p : Pt) (hp : OffEdges o hs p) :
    s.locate p = .ok 1 ∨ s.locate p = .ok (-1) := by
  obtain ⟨_, b, _, d⟩ := c31_locate_polygon o hs s h p
  rcases d with d | d | d
  · exact Or.inl d
  · rcases b.1 d with k | ⟨_, pre, x, post, rfl, _, k⟩
    · exact absurd k hp.1
    · exact absurd k (hp.2 x (by simp))
  · exact Or.inr d

/-- C31: `locate` of a geom is the best position over its polygons, `-1` if there are none. -/
theorem c31_locate (g : Geom2D) (h : ∀ s ∈ g, SPWH.mk' s.outer s.holes = .ok s) (p : Pt) :
    ∃ v, Geom2D.locate g p = .ok v ∧
      (v = 1 ↔ ∃ s ∈ g, InRegion s.outer s.holes p) ∧
      (v = 0 ↔ (¬ ∃ s ∈ g, InRegion s.outer s.holes p) ∧
        ∃ s ∈ g, OnRegionBoundary s.outer s.holes p) ∧
      (v = -1 ↔ ∀ s ∈ g, OutRegion s.outer s.holes p) :=
  g.locate_spec (fun s hs => ((SPWH.mk'_iff _ _ _).1 (h s hs)).2.wf) p

/-- C31: the area is the sum over the polygons of outer area minus hole areas. -/
theorem c31_area (g : Geom2D) (h : ∀ s ∈ g, SPWH.mk' s.outer s.holes = .ok s) :
    Geom2D.area g = .ok ((g.map fun s => regionArea s.outer s.holes).sum) := by
  unfold Geom2D.area
  rw [Geom2D.areaLoop_eq 0 g (fun s hs => ((SPWH.mk'_iff _ _ _).1 (h s hs)).2.wf), zero_add]

/-! ### C32 -/

/-- C32: what the constructor accepts: clockwise loops without repeated neighbours. -/
theorem c32_constructor (o : List Pt) (hs : List (List Pt)) :
    (∃ s, SPWH.mk' o hs = .ok s) ↔
      NoRepeat o ∧ shoelace o < 0 ∧ ∀ h ∈ hs, shoelace h < 0 ∧ NoRepeat h := by
  constructor
  · rintro ⟨s, h⟩
    obtain ⟨rfl, hv⟩ := (SPWH.mk'_iff o hs s).1 h
    exact hv
  · intro h
    exact ⟨⟨o, hs⟩, (SPWH.mk'_iff o hs _).2 ⟨rfl, h⟩⟩

theorem shoelace_reverse (l : List Pt) : shoelace l.reverse = -shoelace l := by
  by_cases h : l = []
  · subst h; simp [shoelace, polyEdges]
  · have := c17_reverse l _ (area_eq_shoelace l h)
    rw [area_eq_shoelace _ (by simpa using h), Except.ok.injEq] at this
    linarith

theorem noRepeat_reverse (l : List Pt) : NoRepeat l.reverse ↔ NoRepeat l := by
  unfold NoRepeat
  simp only [(polyEdges_reverse l).mem_iff, List.mem_map]
  constructor
  · intro h e he hc
    exact h e.swap ⟨e, he, rfl⟩ hc.symm
  · rintro h _ ⟨e, he, rfl⟩ hc
    exact h e he hc.symm

theorem inPoly_reverse (l : List Pt) (p : Pt) : InPoly l.reverse p ↔ InPoly l p := by
  unfold InPoly
  rw [onBoundary_reverse, windingNumber_reverse]; simp

theorem outPoly_reverse (l : List Pt) (p : Pt) : OutPoly l.reverse p ↔ OutPoly l p := by
  unfold OutPoly
  rw [onBoundary_reverse, windingNumber_reverse]; simp

/-- The single polygon made from accepted vertices. -/
theorem polygon_false (pts : List Pt) (g : Geom2D) :
    Geom2D.polygon pts false = .ok g ↔ g = [⟨pts, []⟩] ∧ NoRepeat pts ∧ shoelace pts < 0 := by
  unfold Geom2D.polygon
  show (do let s ← SPWH.mk' pts []; let a ← Geom2D.area [s]; if a ≥ 0 then .ok [s] else .error .assertion :
    Except PyErr Geom2D) = _ ↔ _
  by_cases hv : NoRepeat pts ∧ shoelace pts < 0
  · have hs : SPWH.Valid ⟨pts, []⟩ := ⟨hv.1, hv.2, by simp⟩
    rw [(SPWH.mk'_iff pts [] ⟨pts, []⟩).2 ⟨rfl, hs⟩]
    show (do let a ← Geom2D.area [⟨pts, []⟩]; if a ≥ 0 then .ok [⟨pts, []⟩] else .error .assertion :
      Except PyErr Geom2D) = _ ↔ _
    have : Geom2D.area [⟨pts, []⟩] = .ok (-shoelace pts) := by
      rw [c31_area _ (by
        intro s h
        rw [List.mem_singleton] at h
        subst h
        exact (SPWH.mk'_iff _ _ _).2 ⟨rfl, hs⟩)]
      simp [regionArea]
    rw [this]
    show (if -shoelace pts ≥ 0 then Except.ok [⟨pts, []⟩] else Except.error PyErr.assertion :
      Except PyErr Geom2D) = _ ↔ _
    rw [if_pos (by linarith [hv.2])]
    constructor
    · intro h; cases h; exact ⟨rfl, hv⟩
    · rintro ⟨rfl, _⟩; rfl
  · constructor
    · intro h
      exfalso
      cases hm : SPWH.mk' pts [] with
      | error e => rw [hm] at h; cases h
      | ok s =>
        obtain ⟨rfl, k⟩ := (SPWH.mk'_iff pts [] s).1 hm
        exact hv ⟨k.1, k.2.1⟩
    · rintro ⟨_, h⟩; exact absurd h hv

/-- Reorientation: the vertices are reversed exactly when they run counter-clockwise. -/
theorem polygon_true (pts : List Pt) (hne : pts ≠ []) :
    Geom2D.polygon pts true =
      Geom2D.polygon (if 0 < shoelace pts then pts.reverse else pts) false := by
  unfold Geom2D.polygon
  rw [area_eq_shoelace _ hne]
  have : (-shoelace pts < 0) ↔ (0 < shoelace pts) := by constructor <;> intro h <;> linarith
  show (do
    let s ← SPWH.mk' (if -shoelace pts < 0 then pts.reverse else pts) []
    let a ← Geom2D.area [s]
    if a ≥ 0 then .ok [s] else .error .assertion : Except PyErr Geom2D) = _
  simp only [this]
  rfl

theorem polygon_true_iff (pts : List Pt) (g : Geom2D) :
    Geom2D.polygon pts true = .ok g ↔ NoRepeat pts ∧ shoelace pts ≠ 0 ∧
      g = [⟨if 0 < shoelace pts then pts.reverse else pts, []⟩] := by
  by_cases hne : pts = []
  · subst hne
    constructor
    · intro h; cases h
    · rintro ⟨_, h, _⟩; exact absurd (by simp [shoelace, polyEdges]) h
  · rw [polygon_true pts hne, polygon_false]
    by_cases h : 0 < shoelace pts
    · rw [if_pos h, noRepeat_reverse, shoelace_reverse]
      constructor
      · rintro ⟨a, b, c⟩; exact ⟨b, h.ne', a⟩
      · rintro ⟨a, b, c⟩; exact ⟨c, a, by linarith⟩
    · rw [if_neg h]
      constructor
      · rintro ⟨a, b, c⟩; exact ⟨b, c.ne, a⟩
      · rintro ⟨a, b, c⟩; exact ⟨c, a, lt_of_le_of_ne (not_lt.1 h) b⟩

theorem locate_single (pts : List Pt) (hne : pts ≠ []) (p : Pt) :
    ∃ v, Geom2D.locate [⟨pts, []⟩] p = .ok v ∧ (v = 1 ↔ InPoly pts p) ∧ (v = 0 ↔ OnBoundary pts p) ∧
      (v = -1 ↔ OutPoly pts p) := by
  obtain ⟨v, h1, h2, h3, h4⟩ := Geom2D.locate_spec [⟨pts, []⟩] (by simp [SPWH.Wf, hne]) p
  refine ⟨v, h1, h2.trans (by simp [InRegion]), h3.trans ?_, h4.trans (by simp [OutRegion])⟩
  simp only [List.mem_singleton, exists_eq_left, InRegion, OnRegionBoundary, List.not_mem_nil,
    false_implies, implies_true, and_true, List.nil_eq, List.append_eq_nil_iff]
  simp only [reduceCtorEq, and_false, false_and, exists_false, or_false]
  exact ⟨fun h => h.2, fun h => ⟨fun k => k.1 h, h⟩⟩

/-! ### C32, continued -/

/-- C32: with `reorient` exactly the non-degenerate loops are accepted; the result has the absolute
area of the loop, positive, and locates points by the loop itself. -/
theorem c32_polygon (pts : List Pt) :
    ((∃ g, Geom2D.polygon pts true = .ok g) ↔ NoRepeat pts ∧ shoelace pts ≠ 0) ∧
    ∀ g, Geom2D.polygon pts true = .ok g →
      (∃ a, Geom2D.area g = .ok a ∧ 0 < a ∧ a = |shoelace pts|) ∧
      ∀ p, ∃ v, Geom2D.locate g p = .ok v ∧ (v = 1 ↔ InPoly pts p) ∧ (v = 0 ↔ OnBoundary pts p) ∧
        (v = -1 ↔ OutPoly pts p) := by
  refine ⟨⟨?_, ?_⟩, ?_⟩
  · rintro ⟨g, h⟩
    obtain ⟨a, b, _⟩ := (polygon_true_iff pts g).1 h
    exact ⟨a, b⟩
  · rintro ⟨a, b⟩
    exact ⟨_, (polygon_true_iff pts _).2 ⟨a, b, rfl⟩⟩
  · intro g h
    obtain ⟨a, b, rfl⟩ := (polygon_true_iff pts g).1 h
    have hne : pts ≠ [] := by rintro rfl; exact b (by simp [shoelace, polyEdges])
    constructor
    · refine ⟨|shoelace pts|, ?_, abs_pos.2 b, rfl⟩
      unfold Geom2D.area
      rw [Geom2D.areaLoop_eq 0 _ (by
        intro s hs
        rw [List.mem_singleton] at hs
        subst hs
        refine ⟨?_, by simp⟩
        show (if 0 < shoelace pts then pts.reverse else pts) ≠ []
        split_ifs
        · simpa using hne
        · exact hne)]
      simp only [regionArea, List.map_cons, List.map_nil, List.sum_cons, List.sum_nil]
      congr 1
      by_cases h0 : 0 < shoelace pts
      · rw [if_pos h0, shoelace_reverse, abs_of_pos h0]; ring
      · rw [if_neg h0, abs_of_nonpos (not_lt.1 h0)]; ring
    · intro p
      by_cases h0 : 0 < shoelace pts
      · rw [if_pos h0]
        obtain ⟨v, h1, h2, h3, h4⟩ := locate_single pts.reverse (by simpa using hne) p
        exact ⟨v, h1, h2.trans (inPoly_reverse _ _), h3.trans (onBoundary_reverse _ _),
          h4.trans (outPoly_reverse _ _)⟩
      · rw [if_neg h0]
        exact locate_single pts hne p

/-- C32: the orientation of the input does not matter with `reorient`. -/
theorem c32_orientation (pts : List Pt) (g : Geom2D) (h : Geom2D.polygon pts true = .ok g) :
    ∃ g', Geom2D.polygon pts.reverse true = .ok g' ∧ ∀ p, Geom2D.locate g' p = Geom2D.locate g p := by
  obtain ⟨a, b, _⟩ := (polygon_true_iff pts g).1 h
  obtain ⟨g', hg'⟩ := (c32_polygon pts.reverse).1.2
    ⟨(noRepeat_reverse _).2 a, by rw [shoelace_reverse]; simpa using b⟩
  refine ⟨g', hg', fun p => ?_⟩
  obtain ⟨v, h1, h2, h3, h4⟩ := ((c32_polygon pts).2 g h).2 p
  obtain ⟨w, k1, k2, k3, k4⟩ := ((c32_polygon pts.reverse).2 g' hg').2 p
  rw [inPoly_reverse] at k2
  rw [onBoundary_reverse] at k3
  rw [outPoly_reverse] at k4
  rw [h1, k1]
  congr 1
  by_cases hb : OnBoundary pts p
  · rw [h3.2 hb, k3.2 hb]
  · by_cases hw : windingNumber pts p = 0
    · rw [h4.2 ⟨hb, hw⟩, k4.2 ⟨hb, hw⟩]
    · rw [h2.2 ⟨hb, hw⟩, k2.2 ⟨hb, hw⟩]

/-- C32: without `reorient` only clockwise loops are accepted, and they are kept as they are. -/
theorem c32_no_reorient (pts : List Pt) (g : Geom2D) :
    Geom2D.polygon pts false = .ok g ↔ g = [⟨pts, []⟩] ∧ NoRepeat pts ∧ shoelace pts < 0 :=
  polygon_false pts g

/-! Rectangles -/

theorem crossing_vertical (p : Pt) (x a b : ℚ) :
    crossing p (x, a) (x, b) = if p.1 < x then
      (if a ≤ p.2 ∧ p.2 < b then 1 else if b ≤ p.2 ∧ p.2 < a then -1 else 0) else 0 := by
  unfold crossing orient
  simp only [sub_self, zero_mul, zero_sub]
  by_cases hx : p.1 < x
  · rw [if_pos hx]
    by_cases h1 : a ≤ p.2 ∧ p.2 < b
    · rw [if_pos h1, if_pos ⟨h1.1, h1.2, by nlinarith [h1.1, h1.2]⟩]
    · rw [if_neg h1, if_neg (fun hc => h1 ⟨hc.1, hc.2.1⟩)]
      by_cases h2 : b ≤ p.2 ∧ p.2 < a
      · rw [if_pos h2, if_pos ⟨h2.1, h2.2, by nlinarith [h2.1, h2.2]⟩]
      · rw [if_neg h2, if_neg (fun hc => h2 ⟨hc.1, hc.2.1⟩)]
  · rw [if_neg hx]
    rw [not_lt] at hx
    rw [if_neg (by rintro ⟨h1, h2, h3⟩; nlinarith), if_neg (by rintro ⟨h1, h2, h3⟩; nlinarith)]

theorem crossing_horizontal (p : Pt) (x0 x1 y : ℚ) : crossing p (x0, y) (x1, y) = 0 := by
  unfold crossing
  rw [if_neg (by rintro ⟨h1, h2, _⟩; simp only at h1 h2; linarith),
    if_neg (by rintro ⟨h1, h2, _⟩; simp only at h1 h2; linarith)]

theorem onSeg_vertical (p : Pt) (x a b : ℚ) (h : a ≠ b) :
    OnSeg ((x, a), (x, b)) p ↔ p.1 = x ∧ min a b ≤ p.2 ∧ p.2 ≤ max a b := by
  rw [onSeg_iff_of_y (by simpa using h)]
  simp only
  refine and_congr_left fun _ => ?_
  unfold orient
  simp only [sub_self, zero_mul, zero_sub, neg_eq_zero, mul_eq_zero]
  constructor
  · rintro (hc | hc)
    · exact absurd (by linarith) h
    · linarith
  · intro hc; exact Or.inr (by linarith)

/-- The vertex loop of a rectangle. -/
def boxLoop (x0 y0 x1 y1 : ℚ) : List Pt := [(x0, y0), (x0, y1), (x1, y1), (x1, y0)]

theorem boxLoop_edges (x0 y0 x1 y1 : ℚ) : polyEdges (boxLoop x0 y0 x1 y1) =
    [((x0, y0), (x0, y1)), ((x0, y1), (x1, y1)), ((x1, y1), (x1, y0)), ((x1, y0), (x0, y0))] := rfl

theorem end_not_between {a x y : ℚ} (h : a = x ∨ a = y) : ¬ (min x y < a ∧ a < max x y) := by
  rintro ⟨h1, h2⟩
  rw [min_lt_iff] at h1
  rw [lt_max_iff] at h2
  rcases h with rfl | rfl
  · rcases h1 with h1 | h1 <;> rcases h2 with h2 | h2 <;> linarith
  · rcases h1 with h1 | h1 <;> rcases h2 with h2 | h2 <;> linarith

theorem boxLoop_boundary (x0 y0 x1 y1 : ℚ) (hy : y0 ≠ y1) (p : Pt) :
    OnBoundary (boxLoop x0 y0 x1 y1) p ↔
      (min x0 x1 ≤ p.1 ∧ p.1 ≤ max x0 x1 ∧ min y0 y1 ≤ p.2 ∧ p.2 ≤ max y0 y1) ∧
      ¬ (min x0 x1 < p.1 ∧ p.1 < max x0 x1 ∧ min y0 y1 < p.2 ∧ p.2 < max y0 y1) := by
  unfold OnBoundary
  rw [boxLoop_edges]
  simp only [List.mem_cons, List.not_mem_nil, or_false, exists_eq_or_imp, exists_eq_left]
  rw [onSeg_vertical p x0 y0 y1 hy, onSeg_vertical p x1 y1 y0 hy.symm,
    onSeg_iff_of_horizontal (a := (x0, y1)) (b := (x1, y1)) rfl,
    onSeg_iff_of_horizontal (a := (x1, y0)) (b := (x0, y0)) rfl]
  simp only
  rw [min_comm y1 y0, max_comm y1 y0, min_comm x1 x0, max_comm x1 x0]
  constructor
  · rintro (⟨h0, h1, h2⟩ | ⟨h0, h1, h2⟩ | ⟨h0, h1, h2⟩ | ⟨h0, h1, h2⟩)
    · exact ⟨⟨h0 ▸ min_le_left _ _, h0 ▸ le_max_left _ _, h1, h2⟩,
        fun hc => end_not_between (Or.inl h0) ⟨hc.1, hc.2.1⟩⟩
    · exact ⟨⟨h1, h2, h0 ▸ min_le_right _ _, h0 ▸ le_max_right _ _⟩,
        fun hc => end_not_between (Or.inr h0) ⟨hc.2.2.1, hc.2.2.2⟩⟩
    · exact ⟨⟨h0 ▸ min_le_right _ _, h0 ▸ le_max_right _ _, h1, h2⟩,
        fun hc => end_not_between (Or.inr h0) ⟨hc.1, hc.2.1⟩⟩
    · exact ⟨⟨h1, h2, h0 ▸ min_le_left _ _, h0 ▸ le_max_left _ _⟩,
        fun hc => end_not_between (Or.inl h0) ⟨hc.2.2.1, hc.2.2.2⟩⟩
  · rintro ⟨⟨h1, h2, h3, h4⟩, hn⟩
    by_contra hc
    push Not at hc
    obtain ⟨c1, c2, c3, c4⟩ := hc
    apply hn
    have n1 : p.1 ≠ x0 := fun e => not_lt.2 h4 (c1 e h3)
    have n2 : p.2 ≠ y1 := fun e => not_lt.2 h2 (c2 e h1)
    have n3 : p.1 ≠ x1 := fun e => not_lt.2 h4 (c3 e h3)
    have n4 : p.2 ≠ y0 := fun e => not_lt.2 h2 (c4 e h1)
    refine ⟨lt_of_le_of_ne h1 ?_, lt_of_le_of_ne h2 ?_, lt_of_le_of_ne h3 ?_, lt_of_le_of_ne h4 ?_⟩
    · rcases min_choice x0 x1 with e | e <;> rw [e] <;> [exact n1.symm; exact n3.symm]
    · rcases max_choice x0 x1 with e | e <;> rw [e] <;> [exact n1; exact n3]
    · rcases min_choice y0 y1 with e | e <;> rw [e] <;> [exact n4.symm; exact n2.symm]
    · rcases max_choice y0 y1 with e | e <;> rw [e] <;> [exact n4; exact n2]

theorem boxLoop_in (x0 y0 x1 y1 : ℚ) (hx : x0 ≠ x1) (hy : y0 ≠ y1) (p : Pt) :
    InPoly (boxLoop x0 y0 x1 y1) p ↔
      (min x0 x1 < p.1 ∧ p.1 < max x0 x1 ∧ min y0 y1 < p.2 ∧ p.2 < max y0 y1) := by
  unfold InPoly
  rw [boxLoop_boundary x0 y0 x1 y1 hy p]
  have hw : windingNumber (boxLoop x0 y0 x1 y1) p =
      crossing p (x0, y0) (x0, y1) + crossing p (x1, y1) (x1, y0) := by
    unfold windingNumber
    rw [boxLoop_edges]
    simp [crossing_horizontal]
  rw [hw, crossing_vertical, crossing_vertical]
  rcases lt_or_gt_of_ne hx with hx | hx <;> rcases lt_or_gt_of_ne hy with hy | hy <;>
    simp only [min_eq_left hx.le, max_eq_right hx.le, min_eq_left hy.le, max_eq_right hy.le,
      min_eq_right hx.le, max_eq_left hx.le, min_eq_right hy.le, max_eq_left hy.le]
  all_goals
    constructor
    · rintro ⟨h1, h2⟩
      by_contra hn
      apply h2
      have : ¬ (_ ∧ _ ∧ _ ∧ _) := fun hc => h1 ⟨hc, hn⟩
      split_ifs <;> first
        | rfl
        | (exfalso; first
            | omega
            | (apply this; refine ⟨?_, ?_, ?_, ?_⟩ <;> linarith [‹_ ∧ _›.1, ‹_ ∧ _›.2]))
    · rintro ⟨h1, h2, h3, h4⟩
      refine ⟨fun hc => hc.2 ⟨h1, h2, h3, h4⟩, ?_⟩
      split_ifs <;> first
        | decide
        | (exfalso; first | linarith | (simp only [not_and, not_lt] at *; linarith [‹_ → _› h3.le]))

theorem boxLoop_shoelace (x0 y0 x1 y1 : ℚ) :
    shoelace (boxLoop x0 y0 x1 y1) = -((x1 - x0) * (y1 - y0)) := by
  unfold shoelace
  rw [boxLoop_edges]
  simp only [List.map_cons, List.map_nil, List.sum_cons, List.sum_nil, cross]
  ring

/-- C32: a proper rectangle contains exactly the open box between its corners, its border is the
rest of the closed box; degenerate rectangles are refused. -/
theorem c32_rectangle (x0 y0 x1 y1 : ℚ) :
    ((∃ g, Geom2D.rectangle x0 y0 x1 y1 = .ok g) ↔ x0 ≠ x1 ∧ y0 ≠ y1) ∧
    ∀ g, Geom2D.rectangle x0 y0 x1 y1 = .ok g →
      Geom2D.area g = .ok (|x1 - x0| * |y1 - y0|) ∧
      ∀ p, ∃ v, Geom2D.locate g p = .ok v ∧
        (v = 1 ↔ min x0 x1 < p.1 ∧ p.1 < max x0 x1 ∧ min y0 y1 < p.2 ∧ p.2 < max y0 y1) ∧
        (v = -1 ↔ ¬ (min x0 x1 ≤ p.1 ∧ p.1 ≤ max x0 x1 ∧ min y0 y1 ≤ p.2 ∧ p.2 ≤ max y0 y1)) := by
  have hr : Geom2D.rectangle x0 y0 x1 y1 = Geom2D.polygon (boxLoop x0 y0 x1 y1) true := rfl
  rw [hr]
  obtain ⟨h1, h2⟩ := c32_polygon (boxLoop x0 y0 x1 y1)
  have key : (NoRepeat (boxLoop x0 y0 x1 y1) ∧ shoelace (boxLoop x0 y0 x1 y1) ≠ 0) ↔
      x0 ≠ x1 ∧ y0 ≠ y1 := by
    rw [boxLoop_shoelace]
    constructor
    · rintro ⟨_, h⟩
      constructor
      · rintro rfl; exact h (by ring)
      · rintro rfl; exact h (by ring)
    · rintro ⟨hx, hy⟩
      constructor
      · unfold NoRepeat
        rw [boxLoop_edges]
        simp [hx, hy, hx.symm, hy.symm]
      · rw [neg_ne_zero]
        exact mul_ne_zero (sub_ne_zero.2 hx.symm) (sub_ne_zero.2 hy.symm)
  refine ⟨h1.trans key, fun g hg => ?_⟩
  obtain ⟨⟨a, k1, _, k2⟩, k3⟩ := h2 g hg
  obtain ⟨hx, hy⟩ := key.1 (h1.1 ⟨g, hg⟩)
  refine ⟨?_, fun p => ?_⟩
  · rw [k1, k2, boxLoop_shoelace, abs_neg, abs_mul]
  · obtain ⟨v, e, e1, e2, e3⟩ := k3 p
    refine ⟨v, e, e1.trans (boxLoop_in x0 y0 x1 y1 hx hy p), e3.trans ?_⟩
    have hb := boxLoop_boundary x0 y0 x1 y1 hy p
    have hi := boxLoop_in x0 y0 x1 y1 hx hy p
    constructor
    · intro ho hc
      by_cases hin : min x0 x1 < p.1 ∧ p.1 < max x0 x1 ∧ min y0 y1 < p.2 ∧ p.2 < max y0 y1
      · exact (hi.2 hin).not_out ho
      · exact ho.1 (hb.2 ⟨hc, hin⟩)
    · intro ho
      have nb : ¬ OnBoundary (boxLoop x0 y0 x1 y1) p := fun hc => ho (hb.1 hc).1
      refine ⟨nb, ?_⟩
      by_contra hw
      obtain ⟨q1, q2, q3, q4⟩ := hi.1 ⟨nb, hw⟩
      exact ho ⟨q1.le, q2.le, q3.le, q4.le⟩

/-- Given counter-clockwise, the square with corners (0,0), (2,2) is accepted and contains (1,1). -/
example : ∃ g, Geom2D.rectangle 0 2 2 0 = .ok g ∧ Geom2D.locate g (1, 1) = .ok 1 ∧
    Geom2D.area g = .ok 4 := by
  obtain ⟨g, hg⟩ := (c32_rectangle 0 2 2 0).1.2 (by norm_num)
  obtain ⟨h1, h2⟩ := (c32_rectangle 0 2 2 0).2 g hg
  obtain ⟨v, e, e1, _⟩ := h2 (1, 1)
  refine ⟨g, hg, ?_, ?_⟩
  · rw [e, e1.2 (by norm_num)]
  · rw [h1]; norm_num

/-- A square with a square hole: a point in the hole is outside, one beside it inside. -/
example : ∃ s, SPWH.mk' (boxLoop 0 0 9 9) [boxLoop 3 3 6 6] = .ok s ∧ s.locate (4, 4) = .ok (-1) ∧
    s.locate (1, 1) = .ok 1 ∧ Geom2D.area [s] = .ok 72 := by
  obtain ⟨s, hs⟩ := (c32_constructor (boxLoop 0 0 9 9) [boxLoop 3 3 6 6]).2 (by
    refine ⟨?_, ?_, ?_⟩
    · unfold NoRepeat; rw [boxLoop_edges]; simp
    · rw [boxLoop_shoelace]; norm_num
    · intro h hh
      rw [List.mem_singleton] at hh
      subst hh
      refine ⟨by rw [boxLoop_shoelace]; norm_num, ?_⟩
      unfold NoRepeat; rw [boxLoop_edges]; simp)
  refine ⟨s, hs, ?_, ?_, ?_⟩
  · refine (c31_locate_polygon _ _ s hs _).2.2.1.2 (Or.inr ⟨?_, [], _, [], rfl, by simp, ?_⟩) <;>
      rw [boxLoop_in _ _ _ _ (by norm_num) (by norm_num)] <;> norm_num
  · refine (c31_locate_polygon _ _ s hs _).1.2 ⟨?_, ?_⟩
    · rw [boxLoop_in _ _ _ _ (by norm_num) (by norm_num)]; norm_num
    · intro h hh
      rw [List.mem_singleton] at hh
      subst hh
      have hb := boxLoop_boundary 3 3 6 6 (by norm_num) (1, 1)
      have hi := boxLoop_in 3 3 6 6 (by norm_num) (by norm_num) (1, 1)
      have nb : ¬ OnBoundary (boxLoop 3 3 6 6) (1, 1) := by rw [hb]; norm_num
      refine ⟨nb, ?_⟩
      by_contra hw
      have := hi.1 ⟨nb, hw⟩
      norm_num at this
  · have he := ((SPWH.mk'_iff _ _ _).1 hs).1
    rw [c31_area _ (by
      intro x hx
      rw [List.mem_singleton] at hx
      subst hx
      rw [he] at hs ⊢
      exact hs)]
    subst he
    simp only [List.map_cons, List.map_nil, List.sum_cons, List.sum_nil, regionArea, boxLoop_shoelace]
    norm_num

theorem triAt_orient (l : List Pt) (j : ℕ) (a b c : Pt) (hj : j < l.length)
    (ha : l[(j + l.length - 1) % l.length]? = some a) (hb : l[j]? = some b)
    (hc : l[(j + 1) % l.length]? = some c) : triAt l j = -(orient a b c) / 2 := by
  have key : ∀ (k : Int) (m : ℕ) (x : Pt), k % (l.length : Int) = m → l[m]? = some x → cycGet l k = x := by
    intro k m x hk hx
    unfold cycGet
    rw [hk, Int.toNat_natCast, List.getD_eq_getElem?_getD, hx]; rfl
  unfold triAt area3
  rw [key _ _ a _ ha, key _ _ b _ hb, key _ _ c _ hc, triArea_eq]
  · push_cast; rfl
  · exact Int.emod_eq_of_lt (by omega) (by omega)
  · rw [Int.natCast_emod]
    rw [Nat.cast_sub (by omega)]
    push_cast
    rw [show (j : Int) + l.length - 1 = (j - 1) + l.length by ring, Int.add_emod_right]

/-! ### C33 -/

/-- C33: degeneracy removal terminates; the result is a sublist with the same signed area, every
corner of it is proper, it is empty or has at least three vertices, and it winds around every point
off the original boundary as before. -/
theorem c33_simplify (l : List Pt) :
    ∃ r, simplifyDegeneracies l = .ok r ∧ r.Sublist l ∧ shoelace r = shoelace l ∧
      CornersProper r ∧ (r = [] ∨ 3 ≤ r.length) ∧
      ∀ p, ¬ OnBoundary l p → ¬ OnBoundary r p ∧ windingNumber r p = windingNumber l p := by
  obtain ⟨r, h1, h2, h3, h4⟩ := simplifyLoop_spec (l.length + 1) l (by omega)
  have hc : CornersProper r := by
    intro j a b c hj ha hb hc ho
    apply h4 j hj
    rw [triAt_orient r j a b c hj ha hb hc, ho]; simp
  refine ⟨r, h1, h2, h3.1, hc, ?_, h3.2⟩
  match r, hc with
  | [], _ => exact Or.inl rfl
  | [a], hc => exact absurd (by unfold orient; ring) (hc 0 a a a (by simp) (by simp) rfl (by simp))
  | [a, b], hc => exact absurd (by unfold orient; ring) (hc 0 b a b (by simp) (by simp) rfl (by simp))
  | _ :: _ :: _ :: _, _ => exact Or.inr (by simp)

/-- A square with an extra vertex on a side and a spike: not already simple, area kept. -/
example : ∃ r, simplifyDegeneracies [(0, 0), (0, 2), (0, 5), (0, 2), (2, 2), (2, 1), (2, 0)] = .ok r ∧
    shoelace r = -4 ∧ 3 ≤ r.length := by
  obtain ⟨r, h1, h2, h3, h4, h5, _⟩ :=
    c33_simplify [(0, 0), (0, 2), (0, 5), (0, 2), (2, 2), (2, 1), (2, 0)]
  have : shoelace r = -4 := by
    rw [h3]; simp [shoelace, polyEdges, cross]; norm_num
  refine ⟨r, h1, this, ?_⟩
  rcases h5 with rfl | h5
  · simp [shoelace, polyEdges] at this
  · exact h5

/-! ### C34 -/

namespace Geom2D

/-- One pass of `union_tree` on any list. -/
theorem unionPass_spec (arr : ArrOp) (P : Geom2D → Prop) (Good : Geom2D → Prop)
    (harr : ∀ gs r, arr gs (fun args => args.any id) = .ok r → (∀ g ∈ gs, Good g) →
      Good r ∧ (P r ↔ ∃ g ∈ gs, P g))
    (fuel : ℕ) (gs : List Geom2D) (hf : gs.length + 2 ≤ fuel) :
    (∃ nxt, unionPass arr fuel gs = .ok nxt ∧ 64 * nxt.length < gs.length + 64 ∧
      (gs ≠ [] → nxt ≠ []) ∧
      ((∀ g ∈ gs, Good g) → (∀ g ∈ nxt, Good g) ∧ ((∃ g ∈ nxt, P g) ↔ ∃ g ∈ gs, P g))) ∨
    (∃ e slc, unionPass arr fuel gs = .error e ∧
      arr slc (fun args => args.any id) = .error e ∧ 2 ≤ slc.length ∧ slc.length ≤ 64) := by
  induction fuel generalizing gs with
  | zero => omega
  | succ fuel ih =>
    match gs, hf with
    | [], _ => left; exact ⟨[], by rw [unionPass], by simp, by simp, by simp⟩
    | g :: gs, hf =>
      rw [unionPass]
      set slc := List.take unionN (g :: gs) with hslc
      set tl := List.drop unionN (g :: gs) with htl
      have happ : slc ++ tl = g :: gs := List.take_append_drop _ _
      have hs1 : 1 ≤ slc.length := by rw [hslc]; simp [unionN]
      have hs2 : slc.length ≤ 64 := by rw [hslc]; simp only [List.length_take, unionN]; omega
      have htl2 : tl.length = (g :: gs).length - 64 := by rw [htl, List.length_drop]; rfl
      have htl3 : tl.length ≤ gs.length := by rw [htl2, List.length_cons]; omega
      -- the value for this slice
      have hx : (∃ x, (if slc.length > 1 then union arr fuel slc else onlyElem slc) = .ok x ∧
            ((∀ g ∈ slc, Good g) → Good x ∧ (P x ↔ ∃ g ∈ slc, P g))) ∨
          (∃ e, (if slc.length > 1 then union arr fuel slc else onlyElem slc) = .error e ∧
            arr slc (fun args => args.any id) = .error e ∧ 2 ≤ slc.length) := by
        by_cases h1 : slc.length > 1
        · rw [if_pos h1]
          obtain ⟨f', rfl⟩ : ∃ f', fuel = f' + 1 := ⟨fuel - 1, by simp at hf; omega⟩
          rw [union, if_neg (by unfold unionN; omega)]
          cases ha : arr slc (fun args => args.any id) with
          | error e => exact Or.inr ⟨e, rfl, rfl, h1⟩
          | ok x => exact Or.inl ⟨x, rfl, fun hg => harr slc x ha hg⟩
        · rw [if_neg h1]
          have : slc.length = 1 := by omega
          obtain ⟨a, ha⟩ := List.length_eq_one_iff.1 this
          rw [ha]
          exact Or.inl ⟨a, rfl, fun hg => ⟨hg a (by simp), by simp⟩⟩
      rcases hx with ⟨x, ex, kx⟩ | ⟨e, ex, ka, kl⟩
      · rw [ex]
        show (∃ nxt, (do let rest ← unionPass arr fuel tl; return x :: rest :
          Except PyErr (List Geom2D)) = .ok nxt ∧ _) ∨ (∃ e slc, (do
            let rest ← unionPass arr fuel tl; return x :: rest :
          Except PyErr (List Geom2D)) = .error e ∧ _)
        rcases ih tl (by simp at hf; omega) with ⟨nxt, en, k1, k2, k3⟩ | ⟨e, s, en, k⟩
        · rw [en]
          left
          refine ⟨x :: nxt, rfl, ?_, by simp, fun hg => ?_⟩
          · rw [List.length_cons]
            by_cases h0 : tl = []
            · have : nxt = [] := by
                rw [h0] at en
                obtain ⟨f', rfl⟩ : ∃ f', fuel = f' + 1 := ⟨fuel - 1, by simp at hf; omega⟩
                rw [unionPass] at en; cases en; rfl
              rw [this]; simp
            · have : 0 < tl.length := List.length_pos_iff.2 h0
              omega
          · rw [← happ] at hg ⊢
            obtain ⟨a1, a2⟩ := kx (fun y hy => hg y (List.mem_append_left _ hy))
            obtain ⟨b1, b2⟩ := k3 (fun y hy => hg y (List.mem_append_right _ hy))
            constructor
            · intro y hy
              rcases List.mem_cons.1 hy with rfl | hy
              · exact a1
              · exact b1 y hy
            · simp only [List.mem_cons, List.mem_append, or_and_right, exists_or, exists_eq_left]
              rw [a2, b2]
        · rw [en]
          right
          exact ⟨e, s, rfl, k⟩
      · rw [ex]
        right
        exact ⟨e, slc, rfl, ka, kl, hs2⟩

theorem unionTree_spec (arr : ArrOp) (P : Geom2D → Prop) (Good : Geom2D → Prop)
    (harr : ∀ gs r, arr gs (fun args => args.any id) = .ok r → (∀ g ∈ gs, Good g) →
      Good r ∧ (P r ↔ ∃ g ∈ gs, P g)) (h0 : Good empty) (h1 : ¬ P empty)
    (fuel : ℕ) (gs : List Geom2D) (hf : gs.length + 3 ≤ fuel) :
    (∃ r, unionTree arr fuel gs = .ok r ∧
      ((∀ g ∈ gs, Good g) → Good r ∧ (P r ↔ ∃ g ∈ gs, P g))) ∨
    (∃ e slc, unionTree arr fuel gs = .error e ∧
      arr slc (fun args => args.any id) = .error e ∧ 2 ≤ slc.length ∧ slc.length ≤ 64) := by
  induction fuel generalizing gs with
  | zero => omega
  | succ fuel ih =>
    rw [unionTree.eq_def]
    dsimp only
    by_cases hl : List.length gs > 1
    · rw [if_pos hl]
      rcases unionPass_spec arr P Good harr fuel gs (by omega) with
        ⟨nxt, en, k1, k2, k3⟩ | ⟨e, s, en, k⟩
      · rw [en]
        show (∃ r, unionTree arr fuel nxt = .ok r ∧ _) ∨ (∃ e slc, unionTree arr fuel nxt = .error e ∧ _)
        rcases ih nxt (by omega) with ⟨r, er, kr⟩ | hh
        · refine Or.inl ⟨r, er, fun hg => ?_⟩
          obtain ⟨a, b⟩ := k3 hg
          obtain ⟨c, d⟩ := kr a
          exact ⟨c, d.trans b⟩
        · exact Or.inr hh
      · rw [en]
        exact Or.inr ⟨e, s, rfl, k⟩
    · rw [if_neg hl]
      match gs, hl with
      | [], _ => exact Or.inl ⟨empty, rfl, fun _ => ⟨h0, by simpa using h1⟩⟩
      | [g], _ => exact Or.inl ⟨g, rfl, fun hg => ⟨hg g (by simp), by simp⟩⟩
      | _ :: _ :: _, hl => simp at hl

end Geom2D

/-- C34: given that the operation on at most 64 geoms is right at `p`, `union_tree` of any number of
geoms terminates and contains `p` iff one of them does; it raises only what the operation on some
block of 2 to 64 geoms raises.  `Good` collects what the operation needs to know about `p`
(such as lying on no boundary). -/
theorem c34_union_tree (arr : Geom2D.ArrOp) (p : Pt) (Good : Geom2D → Prop) (h0 : Good [])
    (harr : ∀ gs r, arr gs (fun args => args.any id) = .ok r → (∀ g ∈ gs, Good g) →
      Good r ∧ (Geom2D.locate r p = .ok 1 ↔ ∃ g ∈ gs, Geom2D.locate g p = .ok 1))
    (gs : List Geom2D) (fuel : ℕ) (hf : gs.length + 3 ≤ fuel) :
    (∃ r, Geom2D.unionTree arr fuel gs = .ok r ∧
      ((∀ g ∈ gs, Good g) →
        Good r ∧ (Geom2D.locate r p = .ok 1 ↔ ∃ g ∈ gs, Geom2D.locate g p = .ok 1))) ∨
    (∃ e slc, Geom2D.unionTree arr fuel gs = .error e ∧
      arr slc (fun args => args.any id) = .error e ∧ 2 ≤ slc.length ∧ slc.length ≤ 64) :=
  Geom2D.unionTree_spec arr (fun g => Geom2D.locate g p = .ok 1) Good harr h0
    (by intro hc; cases hc) fuel gs hf

/-- C34: `union` of any number of geoms; above 64 it goes through `union_tree`. -/
theorem c34_union (arr : Geom2D.ArrOp) (p : Pt) (Good : Geom2D → Prop) (h0 : Good [])
    (harr : ∀ gs r, arr gs (fun args => args.any id) = .ok r → (∀ g ∈ gs, Good g) →
      Good r ∧ (Geom2D.locate r p = .ok 1 ↔ ∃ g ∈ gs, Geom2D.locate g p = .ok 1))
    (gs : List Geom2D) (fuel : ℕ) (hf : gs.length + 4 ≤ fuel) :
    (64 < gs.length → ∃ f, gs.length + 3 ≤ f ∧
      Geom2D.union arr fuel gs = Geom2D.unionTree arr f gs) ∧
    ((∃ r, Geom2D.union arr fuel gs = .ok r ∧
      ((∀ g ∈ gs, Good g) →
        Good r ∧ (Geom2D.locate r p = .ok 1 ↔ ∃ g ∈ gs, Geom2D.locate g p = .ok 1))) ∨
    (∃ e slc, Geom2D.union arr fuel gs = .error e ∧
      arr slc (fun args => args.any id) = .error e ∧ slc.length ≤ 64)) := by
  obtain ⟨f, rfl⟩ : ∃ f, fuel = f + 1 := ⟨fuel - 1, by omega⟩
  rw [Geom2D.union]
  have hN : Geom2D.unionN = 64 := rfl
  by_cases hl : List.length gs > Geom2D.unionN
  · rw [if_pos hl]
    refine ⟨fun _ => ⟨f, by omega, rfl⟩, ?_⟩
    rcases c34_union_tree arr p Good h0 harr gs f (by omega) with h | ⟨e, slc, h1, h2, _, h3⟩
    · exact Or.inl h
    · exact Or.inr ⟨e, slc, h1, h2, h3⟩
  · rw [if_neg hl]
    refine ⟨fun hc => absurd hc hl, ?_⟩
    cases ha : arr gs (fun args => args.any id) with
    | error e => exact Or.inr ⟨e, gs, rfl, ha, by omega⟩
    | ok r => exact Or.inl ⟨r, rfl, fun hg => harr gs r ha hg⟩

theorem locate_empty (p : Pt) : Geom2D.locate [] p = .ok (-1) := rfl

/-- C34: the shortcuts of `|` and `-` for empty operands agree with the general operation: whenever
the operation is right at `p` on the operands actually passed to it, so are `|`, `&` and `-`. -/
theorem c34_shortcuts (arr : Geom2D.ArrOp) (p : Pt) (a b r : Geom2D)
    (harr : ∀ op r, arr [a, b] op = .ok r →
      (Geom2D.locate r p = .ok 1 ↔
        op [decide (Geom2D.locate a p = .ok 1), decide (Geom2D.locate b p = .ok 1)] = true)) :
    (Geom2D.or arr a b = .ok r →
      (Geom2D.locate r p = .ok 1 ↔ Geom2D.locate a p = .ok 1 ∨ Geom2D.locate b p = .ok 1)) ∧
    (Geom2D.and arr a b = .ok r →
      (Geom2D.locate r p = .ok 1 ↔ Geom2D.locate a p = .ok 1 ∧ Geom2D.locate b p = .ok 1)) ∧
    (Geom2D.sub arr a b = .ok r →
      (Geom2D.locate r p = .ok 1 ↔ Geom2D.locate a p = .ok 1 ∧ ¬ Geom2D.locate b p = .ok 1)) := by
  have he : ∀ g : Geom2D, Geom2D.isEmpty g = true → ¬ Geom2D.locate g p = .ok 1 := by
    intro g hg
    have : g = [] := List.length_eq_zero_iff.1 (of_decide_eq_true hg)
    subst this
    rw [locate_empty]; simp
  refine ⟨fun h => ?_, fun h => ?_, fun h => ?_⟩
  · unfold Geom2D.or at h
    by_cases h1 : Geom2D.isEmpty a = true
    · rw [if_pos h1] at h
      cases h
      have := he a h1
      tauto
    · rw [if_neg h1] at h
      by_cases h2 : Geom2D.isEmpty b = true
      · rw [if_pos h2] at h
        cases h
        have := he b h2
        tauto
      · rw [if_neg h2] at h
        rw [harr _ r h]; simp
  · rw [harr _ r h]; simp
  · unfold Geom2D.sub at h
    by_cases h2 : Geom2D.isEmpty b = true
    · rw [if_pos h2] at h
      cases h
      have := he b h2
      tauto
    · rw [if_neg h2] at h
      rw [harr _ r h]; simp

/-- An operation satisfying the hypothesis of `c34_union_tree` at every point: putting the polygons
of all geoms into one list. -/
example : ∃ arr : Geom2D.ArrOp, ∀ gs r, arr gs (fun args => args.any id) = .ok r →
    (∀ g ∈ gs, ∀ s ∈ g, s.Wf) → (∀ s ∈ r, s.Wf) ∧
      ∀ p, (Geom2D.locate r p = .ok 1 ↔ ∃ g ∈ gs, Geom2D.locate g p = .ok 1) := by
  refine ⟨fun gs _ => .ok gs.flatten, fun gs r h hg => ?_⟩
  cases h
  have hw : ∀ s ∈ gs.flatten, s.Wf := by
    intro s hs
    obtain ⟨g, h1, h2⟩ := List.mem_flatten.1 hs
    exact hg g h1 s h2
  refine ⟨hw, fun p => ?_⟩
  have key : ∀ g : Geom2D, (∀ s ∈ g, s.Wf) →
      (Geom2D.locate g p = .ok 1 ↔ ∃ s ∈ g, InRegion s.outer s.holes p) := by
    intro g hg
    obtain ⟨v, e, e1, _⟩ := g.locate_spec hg p
    rw [e, ← e1]; simp
  rw [key _ hw]
  constructor
  · rintro ⟨s, hs, hi⟩
    obtain ⟨g, h1, h2⟩ := List.mem_flatten.1 hs
    exact ⟨g, h1, (key g (hg g h1)).2 ⟨s, h2, hi⟩⟩
  · rintro ⟨g, h1, h2⟩
    obtain ⟨s, h3, h4⟩ := (key g (hg g h1)).1 h2
    exact ⟨s, List.mem_flatten.2 ⟨g, h1, h3⟩, h4⟩

/-! ### C36 -/

theorem minQ_spec (m : ℚ) (l : List ℚ) :
    Geom2D.minQ m l ∈ m :: l ∧ ∀ x ∈ m :: l, Geom2D.minQ m l ≤ x := by
  induction l generalizing m with
  | nil => simp [Geom2D.minQ]
  | cons a l ih =>
    rw [Geom2D.minQ]
    by_cases h : a < m
    · rw [if_pos h]
      obtain ⟨i1, i2⟩ := ih a
      refine ⟨List.mem_cons_of_mem _ i1, fun x hx => ?_⟩
      rcases List.mem_cons.1 hx with rfl | hx
      · exact (i2 a (by simp)).trans h.le
      · exact i2 x hx
    · rw [if_neg h]
      obtain ⟨i1, i2⟩ := ih m
      refine ⟨?_, fun x hx => ?_⟩
      · rcases List.mem_cons.1 i1 with e | e
        · rw [e]; simp
        · simp [e]
      · rcases List.mem_cons.1 hx with rfl | hx
        · exact i2 x (by simp)
        · rcases List.mem_cons.1 hx with rfl | hx
          · exact (i2 m (by simp)).trans (not_lt.1 h)
          · exact i2 x (by simp [hx])

theorem maxQ_spec (m : ℚ) (l : List ℚ) :
    Geom2D.maxQ m l ∈ m :: l ∧ ∀ x ∈ m :: l, x ≤ Geom2D.maxQ m l := by
  induction l generalizing m with
  | nil => simp [Geom2D.maxQ]
  | cons a l ih =>
    rw [Geom2D.maxQ]
    by_cases h : a > m
    · rw [if_pos h]
      obtain ⟨i1, i2⟩ := ih a
      refine ⟨List.mem_cons_of_mem _ i1, fun x hx => ?_⟩
      rcases List.mem_cons.1 hx with rfl | hx
      · exact h.le.trans (i2 a (by simp))
      · exact i2 x hx
    · rw [if_neg h]
      obtain ⟨i1, i2⟩ := ih m
      refine ⟨?_, fun x hx => ?_⟩
      · rcases List.mem_cons.1 i1 with e | e
        · rw [e]; simp
        · simp [e]
      · rcases List.mem_cons.1 hx with rfl | hx
        · exact i2 x (by simp)
        · rcases List.mem_cons.1 hx with rfl | hx
          · exact (not_lt.1 h).trans (i2 m (by simp))
          · exact i2 x (by simp [hx])

/-- The half-open range between the lowest and the highest vertex of a loop, as a set of reals. -/
def loopRange (l : List Pt) (v : Pt) (offs : ℚ) : Set ℝ :=
  {x | (∃ p ∈ l, ((shadow v offs p : ℚ) : ℝ) ≤ x) ∧ ∃ p ∈ l, x < ((shadow v offs p : ℚ) : ℝ)}

theorem dots_eq (l : List Pt) (v : Pt) (offs : ℚ) : Geom2D.dots l v offs = l.map (shadow v offs) := by
  unfold Geom2D.dots shadow
  apply List.map_congr_left
  intro p _
  ring

theorem projectLoop_denotes (v : Pt) (offs : ℚ) (g : List SPWH) (h : ∀ s ∈ g, s.outer ≠ [])
    (acc : Geom1D) (ha : NormalForm acc.intervals) :
    Geom1D.Denotes (Geom2D.projectLoop v offs acc g)
      (pointsOf acc.intervals ∪ {x | ∃ s ∈ g, x ∈ loopRange s.outer v offs}) := by
  induction g generalizing acc with
  | nil =>
    refine ⟨acc, rfl, ha, ?_⟩
    simp
  | cons s rest ih =>
    rw [Geom2D.projectLoop.eq_def]
    dsimp only
    have hne := h s (by simp)
    obtain ⟨d, ds, hd⟩ : ∃ d ds, Geom2D.dots s.outer v offs = d :: ds := by
      rw [dots_eq]
      cases hs : s.outer with
      | nil => exact absurd hs hne
      | cons a l => exact ⟨_, _, rfl⟩
    rw [hd]
    dsimp only
    obtain ⟨m1, m2⟩ := minQ_spec d ds
    obtain ⟨M1, M2⟩ := maxQ_spec d ds
    rw [← hd, dots_eq] at m1 m2 M1 M2
    have hle : Ext.fin (Geom2D.minQ d ds) ≤ Ext.fin (Geom2D.maxQ d ds) := by
      rw [← Ext.toE_le, Ext.toE_fin, Ext.toE_fin, EReal.coe_le_coe_iff]
      exact_mod_cast m2 _ M1
    have hc : Geom1D.Denotes (Geom1D.construct [(.mpq (Geom2D.minQ d ds), .mpq (Geom2D.maxQ d ds))])
        (loopRange s.outer v offs) := by
      obtain ⟨g, e, n, pp⟩ := Geom1D.ofIvls_ok
        (l := [(Ext.fin (Geom2D.minQ d ds), Ext.fin (Geom2D.maxQ d ds))]) (by simpa using hle)
      refine ⟨g, e, n, pp.trans ?_⟩
      ext x
      simp only [pointsOf, icoSet, List.mem_singleton, exists_eq_left, Set.mem_ofPred_eq, Ext.toE_fin,
        loopRange]
      rw [EReal.coe_le_coe_iff, EReal.coe_lt_coe_iff]
      obtain ⟨q, hq, eq⟩ := List.mem_map.1 m1
      obtain ⟨Q, hQ, eQ⟩ := List.mem_map.1 M1
      constructor
      · rintro ⟨a, b⟩
        exact ⟨⟨q, hq, by rw [eq]; exact a⟩, Q, hQ, by rw [eQ]; exact b⟩
      · rintro ⟨⟨p, hp, a⟩, p', hp', b⟩
        constructor
        · refine le_trans ?_ a
          exact_mod_cast m2 _ (List.mem_map_of_mem hp)
        · refine lt_of_lt_of_le b ?_
          exact_mod_cast M2 _ (List.mem_map_of_mem hp')
    refine hc.bind fun iv n1 p1 => ?_
    refine (Geom1D.or_denotes ha n1).bind fun r n2 p2 => ?_
    obtain ⟨g, e, n, pp⟩ := ih (fun y hy => h y (by simp [hy])) r n2
    refine ⟨g, e, n, ?_⟩
    rw [pp, p2, p1]
    ext x
    simp only [Set.mem_union, Set.mem_ofPred_eq, List.mem_cons]
    constructor
    · rintro ((k | k) | ⟨y, hy, k⟩)
      · exact Or.inl k
      · exact Or.inr ⟨s, Or.inl rfl, k⟩
      · exact Or.inr ⟨y, Or.inr hy, k⟩
    · rintro (k | ⟨y, rfl | hy, k⟩)
      · exact Or.inl (Or.inl k)
      · exact Or.inl (Or.inr k)
      · exact Or.inr ⟨y, hy, k⟩

/-- A closed loop that winds around `p` has a vertex at or below and one above `p` in every
direction. -/
theorem inPoly_between (l : List Pt) (p v : Pt) (hv : v.1 ≠ 0 ∨ v.2 ≠ 0) (h : InPoly l p) (offs : ℚ) :
    (∃ a ∈ l, shadow v offs a ≤ shadow v offs p) ∧ ∃ b ∈ l, shadow v offs p < shadow v offs b := by
  let A : Affine := ⟨v.2, -v.1, v.1, v.2, 0, offs⟩
  have hA : A.det ≠ 0 := by
    show v.2 * v.2 - -v.1 * v.1 ≠ 0
    rcases hv with hv | hv
    · have := mul_self_pos.2 hv; nlinarith [mul_self_nonneg v.2]
    · have := mul_self_pos.2 hv; nlinarith [mul_self_nonneg v.1]
  have hs : ∀ q, (A.app q).2 = shadow v offs q := fun q => rfl
  have hw : windingNumber (l.map A.app) (A.app p) ≠ 0 := by
    rw [windingNumber_affine A hA l p h.1]
    split_ifs
    · simpa using h.2
    · simpa using h.2
  obtain ⟨e, he, hc⟩ : ∃ e ∈ polyEdges l, crossing (A.app p) (A.app e.1) (A.app e.2) ≠ 0 := by
    by_contra hn
    push Not at hn
    apply hw
    unfold windingNumber
    rw [polyEdges_map, List.map_map]
    apply List.sum_eq_zero
    intro x hx
    obtain ⟨e, he, rfl⟩ := List.mem_map.1 hx
    exact hn e he
  obtain ⟨m1, m2⟩ := polyEdges_mem he
  unfold crossing at hc
  rw [hs, hs, hs] at hc
  split_ifs at hc with k1 k2
  · exact ⟨⟨e.1, m1, k1.1⟩, e.2, m2, k1.2.1⟩
  · exact ⟨⟨e.2, m2, k2.1⟩, e.1, m1, k2.2.1⟩
  · exact absurd rfl hc

theorem chain_transition {α : Type*} (P : α → Prop) (a : α) (l : List α) (ha : P a)
    (h : ∃ b ∈ l, ¬ P b) : ∃ e ∈ chain a l, P e.1 ∧ ¬ P e.2 := by
  induction l generalizing a with
  | nil => simp at h
  | cons c l ih =>
    by_cases hc : P c
    · obtain ⟨b, hb, hn⟩ := h
      rcases List.mem_cons.1 hb with rfl | hb
      · exact absurd hc hn
      · obtain ⟨e, he, k⟩ := ih c hc ⟨b, hb, hn⟩
        exact ⟨e, by simp [he], k⟩
    · exact ⟨(a, c), by simp, ha, hc⟩

theorem polyEdges_transition {α : Type*} (P : α → Prop) (l : List α) (h : ∃ a ∈ l, P a)
    (h' : ∃ b ∈ l, ¬ P b) : ∃ e ∈ polyEdges l, P e.1 ∧ ¬ P e.2 := by
  obtain ⟨a, ha, hP⟩ := h
  obtain ⟨A, B, rfl⟩ := List.append_of_mem ha
  have hr : (A ++ a :: B).rotate A.length = a :: (B ++ A) := by rw [List.rotate_append_length_eq]; rfl
  obtain ⟨e, he, k⟩ : ∃ e ∈ polyEdges (a :: (B ++ A)), P e.1 ∧ ¬ P e.2 := by
    rw [polyEdges_cons]
    apply chain_transition P a _ hP
    obtain ⟨b, hb, hn⟩ := h'
    refine ⟨b, ?_, hn⟩
    simp only [List.mem_append, List.mem_cons] at hb
    simp only [List.mem_append, List.mem_singleton]
    tauto
  refine ⟨e, ?_, k⟩
  rw [← hr] at he
  exact (polyEdges_rotate _ _).mem_iff.1 he

/-- C36: the projection always succeeds on geoms with constructed polygons and consists, for each
polygon, of the half-open range of its outer vertices. -/
theorem c36_succeeds (g : Geom2D) (h : ∀ s ∈ g, SPWH.mk' s.outer s.holes = .ok s) (v : Pt) (offs : ℚ) :
    ∃ r, Geom2D.projectTo1d g v offs = .ok r ∧ NormalForm r.intervals ∧
      ∀ x : ℝ, x ∈ pointsOf r.intervals ↔
        ∃ s ∈ g, (∃ a ∈ s.outer, ((shadow v offs a : ℚ) : ℝ) ≤ x) ∧
          ∃ b ∈ s.outer, x < ((shadow v offs b : ℚ) : ℝ) := by
  have hw : ∀ s ∈ g, s.outer ≠ [] := fun s hs => ((SPWH.mk'_iff _ _ _).1 (h s hs)).2.wf.1
  obtain ⟨e, e1, e2, e3⟩ := Geom1D.empty_denotes
  obtain ⟨r, h1, h2, h3⟩ := projectLoop_denotes v offs g hw e e2
  refine ⟨r, ?_, h2, fun x => ?_⟩
  · unfold Geom2D.projectTo1d
    rw [e1]
    exact h1
  · rw [h3, e3]
    simp [loopRange]

/-- C36: nothing is missed: every point inside the geom, and every point on an outer boundary that is
not at the upper end of its polygon, projects into the result. -/
theorem c36_covers (g : Geom2D) (h : ∀ s ∈ g, SPWH.mk' s.outer s.holes = .ok s) (v : Pt) (offs : ℚ)
    (r : Geom1D) (hr : Geom2D.projectTo1d g v offs = .ok r) :
    (∀ p, (v.1 ≠ 0 ∨ v.2 ≠ 0) → Geom2D.locate g p = .ok 1 →
      ((shadow v offs p : ℚ) : ℝ) ∈ pointsOf r.intervals) ∧
    (∀ p, ∀ s ∈ g, OnBoundary s.outer p → (∃ b ∈ s.outer, shadow v offs p < shadow v offs b) →
      ((shadow v offs p : ℚ) : ℝ) ∈ pointsOf r.intervals) := by
  obtain ⟨r', h1, _, h3⟩ := c36_succeeds g h v offs
  rw [hr] at h1
  cases h1
  constructor
  · intro p hv hp
    obtain ⟨w, e, e1, _⟩ := c31_locate g h p
    rw [e, Except.ok.injEq] at hp
    obtain ⟨s, hs, hi⟩ := e1.1 hp
    obtain ⟨⟨a, ha, ka⟩, b, hb, kb⟩ := inPoly_between s.outer p v hv hi.1 offs
    rw [h3]
    exact ⟨s, hs, ⟨a, ha, by exact_mod_cast ka⟩, b, hb, by exact_mod_cast kb⟩
  · rintro p s hs ⟨e, he, t, t0, t1, rfl⟩ ⟨b, hb, kb⟩
    rw [h3]
    obtain ⟨m1, m2⟩ := polyEdges_mem he
    refine ⟨s, hs, ?_, b, hb, by exact_mod_cast kb⟩
    have : shadow v offs (along e t) = (1 - t) * shadow v offs e.1 + t * shadow v offs e.2 := by
      unfold shadow along; ring
    rcases le_total (shadow v offs e.1) (shadow v offs e.2) with k | k
    · refine ⟨e.1, m1, ?_⟩
      rw [this]
      exact_mod_cast (by nlinarith : shadow v offs e.1 ≤ (1 - t) * shadow v offs e.1 + t * shadow v offs e.2)
    · refine ⟨e.2, m2, ?_⟩
      rw [this]
      exact_mod_cast (by nlinarith : shadow v offs e.2 ≤ (1 - t) * shadow v offs e.1 + t * shadow v offs e.2)

/-- C36: nothing is added: every rational value in the result is attained on an outer boundary. -/
theorem c36_attained (g : Geom2D) (h : ∀ s ∈ g, SPWH.mk' s.outer s.holes = .ok s) (v : Pt) (offs : ℚ)
    (r : Geom1D) (hr : Geom2D.projectTo1d g v offs = .ok r) (q : ℚ)
    (hq : (q : ℝ) ∈ pointsOf r.intervals) :
    ∃ s ∈ g, ∃ p, OnBoundary s.outer p ∧ shadow v offs p = q := by
  obtain ⟨r', h1, _, h3⟩ := c36_succeeds g h v offs
  rw [hr] at h1
  cases h1
  obtain ⟨s, hs, ⟨a, ha, ka⟩, b, hb, kb⟩ := (h3 _).1 hq
  have ka' : shadow v offs a ≤ q := by exact_mod_cast ka
  have kb' : q < shadow v offs b := by exact_mod_cast kb
  obtain ⟨e, he, k1, k2⟩ := polyEdges_transition (fun x => shadow v offs x ≤ q) s.outer
    ⟨a, ha, ka'⟩ ⟨b, hb, not_le.2 kb'⟩
  rw [not_le] at k2
  have hd : 0 < shadow v offs e.2 - shadow v offs e.1 := by linarith
  refine ⟨s, hs, along e ((q - shadow v offs e.1) / (shadow v offs e.2 - shadow v offs e.1)),
    ⟨e, he, _, div_nonneg (by linarith) hd.le, (div_le_one hd).2 (by linarith), rfl⟩, ?_⟩
  have : ∀ t, shadow v offs (along e t) =
      shadow v offs e.1 + t * (shadow v offs e.2 - shadow v offs e.1) := by
    intro t; unfold shadow along; ring
  rw [this, div_mul_cancel₀ _ hd.ne']
  ring

/-- The diagonal shadow of the square (0,0)-(2,2) shifted by one contains 3 = 1+1+1. -/
example : ∃ g r, Geom2D.rectangle 0 0 2 2 = .ok g ∧ Geom2D.projectTo1d g (1, 1) 1 = .ok r ∧
    ((3 : ℚ) : ℝ) ∈ pointsOf r.intervals := by
  obtain ⟨g, hg⟩ := (c32_rectangle 0 0 2 2).1.2 (by norm_num)
  have hv : ∀ s ∈ g, SPWH.mk' s.outer s.holes = .ok s := by
    obtain ⟨a, b, rfl⟩ := (polygon_true_iff _ g).1 hg
    intro s hs
    rw [List.mem_singleton] at hs
    subst hs
    rw [if_neg (by rw [show [((0 : ℚ), (0 : ℚ)), (0, 2), (2, 2), (2, 0)] = boxLoop 0 0 2 2 from rfl,
      boxLoop_shoelace]; norm_num)]
    refine (SPWH.mk'_iff _ _ _).2 ⟨rfl, a, ?_, by simp⟩
    rw [show [((0 : ℚ), (0 : ℚ)), (0, 2), (2, 2), (2, 0)] = boxLoop 0 0 2 2 from rfl,
      boxLoop_shoelace]; norm_num
  obtain ⟨r, hr, _⟩ := c36_succeeds g hv (1, 1) 1
  refine ⟨g, r, hg, hr, ?_⟩
  have := (c36_covers g hv (1, 1) 1 r hr).1 (1, 1) (Or.inl (by norm_num)) (by
    obtain ⟨v, e, e1, _⟩ := ((c32_rectangle 0 0 2 2).2 g hg).2 (1, 1)
    rw [e, e1.2 (by norm_num)])
  have e3 : shadow (1, 1) 1 (1, 1) = 3 := by unfold shadow; norm_num
  rwa [e3] at this

/-! ### C59 -/

theorem gsv_int : (List.range 8).map (fun i : ℕ => frangleUnitSquareVector ((i : ℚ) * 8 / (8 : ℕ))) =
    [(1, 0), (1, -1), (0, -1), (-1, -1), (-1, 0), (-1, 1), (0, 1), (1, 1)] := by
  have h : ∀ i : ℕ, ((i : ℚ) * 8 / (8 : ℕ)) = i := fun i => by push_cast; ring
  have k : List.range 8 = [0, 1, 2, 3, 4, 5, 6, 7] := rfl
  rw [k]
  simp only [h, List.map_cons, List.map_nil]
  rw [(gsv_side (f := ((0 : ℕ) : ℚ)) (by norm_num) (by norm_num)).1 (by norm_num),
    (gsv_side (f := ((1 : ℕ) : ℚ)) (by norm_num) (by norm_num)).1 (by norm_num),
    (gsv_side (f := ((2 : ℕ) : ℚ)) (by norm_num) (by norm_num)).2.1 (by norm_num) (by norm_num),
    (gsv_side (f := ((3 : ℕ) : ℚ)) (by norm_num) (by norm_num)).2.1 (by norm_num) (by norm_num),
    (gsv_side (f := ((4 : ℕ) : ℚ)) (by norm_num) (by norm_num)).2.2.1 (by norm_num) (by norm_num),
    (gsv_side (f := ((5 : ℕ) : ℚ)) (by norm_num) (by norm_num)).2.2.1 (by norm_num) (by norm_num),
    (gsv_side (f := ((6 : ℕ) : ℚ)) (by norm_num) (by norm_num)).2.2.2.1 (by norm_num) (by norm_num),
    (gsv_side (f := ((7 : ℕ) : ℚ)) (by norm_num) (by norm_num)).2.2.2.1 (by norm_num) (by norm_num)]
  norm_num

/-- The octagon with axis vertices at distance `a` and diagonal vertices `(±b, ±b)`. -/
def octagon (a b : ℚ) : List Pt :=
  [(a, 0), (b, -b), (0, -a), (-b, -b), (-a, 0), (-b, b), (0, a), (b, b)]

theorem buffer_octagon (sq : ℚ → ℚ) (sz : ℚ) (hs : sz ≠ 0) (h1 : sq 1 ≠ 0) (h2 : sq 2 ≠ 0) :
    bufferOfSize sq sz 8 = .ok (octagon (sz / sq 1) (sz / sq 2)) := by
  unfold bufferOfSize
  dsimp only
  have key : ∀ l : List ℕ, (∀ i ∈ l, (fun v : Pt => sq (v.1 ^ 2 + v.2 ^ 2) / sz)
        (frangleUnitSquareVector ((i : ℚ) * 8 / (8 : ℕ))) ≠ 0) →
      l.mapM (fun i : ℕ => if sz = 0 then (Except.error PyErr.zeroDivision : Except PyErr Pt)
        else if sq ((frangleUnitSquareVector ((i : ℚ) * 8 / (8 : ℕ))).1 ^ 2 +
          (frangleUnitSquareVector ((i : ℚ) * 8 / (8 : ℕ))).2 ^ 2) / sz = 0 then .error .zeroDivision
        else .ok ((frangleUnitSquareVector ((i : ℚ) * 8 / (8 : ℕ))).1 /
            (sq ((frangleUnitSquareVector ((i : ℚ) * 8 / (8 : ℕ))).1 ^ 2 +
          (frangleUnitSquareVector ((i : ℚ) * 8 / (8 : ℕ))).2 ^ 2) / sz),
          (frangleUnitSquareVector ((i : ℚ) * 8 / (8 : ℕ))).2 /
            (sq ((frangleUnitSquareVector ((i : ℚ) * 8 / (8 : ℕ))).1 ^ 2 +
          (frangleUnitSquareVector ((i : ℚ) * 8 / (8 : ℕ))).2 ^ 2) / sz))) =
      .ok ((l.map (fun i : ℕ => frangleUnitSquareVector ((i : ℚ) * 8 / (8 : ℕ)))).map
        (fun v : Pt => (v.1 / (sq (v.1 ^ 2 + v.2 ^ 2) / sz), v.2 / (sq (v.1 ^ 2 + v.2 ^ 2) / sz)))) := by
    intro l hl
    rw [List.map_map]
    apply Geom1D.mapM_except_ok
    intro i hi
    rw [if_neg hs, if_neg (hl i hi)]
    rfl
  rw [key, gsv_int]
  · have e1 : (1 : ℚ) + 1 = 2 := by norm_num
    simp [octagon, e1, neg_div]
  · intro i hi
    have : frangleUnitSquareVector ((i : ℚ) * 8 / (8 : ℕ)) ∈
        [((1 : ℚ), (0 : ℚ)), (1, -1), (0, -1), (-1, -1), (-1, 0), (-1, 1), (0, 1), (1, 1)] := by
      rw [← gsv_int]
      exact List.mem_map_of_mem hi
    have e1 : (1 : ℚ) + 1 = 2 := by norm_num
    simp only [List.mem_cons, List.not_mem_nil, or_false] at this
    rcases this with e | e | e | e | e | e | e | e <;> rw [e] <;> simp [e1, hs, h1, h2]

/-- C59. -/
theorem c59_buffer (sq : ℚ → ℚ) (sz : ℚ) (hs : 0 < sz) (h1 : 0 < sq 1) (h2 : 0 < sq 2) :
    ∃ l, bufferOfSize sq sz 8 = .ok l ∧ l.length = 8 ∧ NoRepeat l ∧
      (∀ e ∈ polyEdges l, orient (0, 0) e.1 e.2 < 0) ∧
      l.map (fun p => (p.2, -p.1)) = l.rotate 2 ∧
      InPoly l (0, 0) ∧ windingNumber l (0, 0) = -1 := by
  refine ⟨_, buffer_octagon sq sz hs.ne' h1.ne' h2.ne', rfl, ?_⟩
  have ha : 0 < sz / sq 1 := div_pos hs h1
  have hb : 0 < sz / sq 2 := div_pos hs h2
  generalize sz / sq 1 = a at *
  generalize sz / sq 2 = b at *
  have ho : ∀ e ∈ polyEdges (octagon a b), orient (0, 0) e.1 e.2 < 0 := by
    intro e he
    have hab := mul_pos ha hb
    simp only [octagon, polyEdges_cons, List.cons_append, List.nil_append, chain, List.mem_cons,
      List.not_mem_nil, or_false] at he
    rcases he with rfl | rfl | rfl | rfl | rfl | rfl | rfl | rfl <;>
      (simp only [orient]; nlinarith)
  refine ⟨?_, ho, ?_, ⟨?_, ?_⟩, ?_⟩
  · intro e he hE
    have := ho e he
    rw [hE] at this
    simp only [orient] at this
    nlinarith
  · simp [octagon]
  · rintro ⟨e, he, h⟩
    have := onSeg_orient h
    have h' := ho e he
    have hr : orient (0, 0) e.1 e.2 = orient e.1 e.2 (0, 0) := by simp only [orient]; ring
    rw [hr, this] at h'
    exact lt_irrefl _ h'
  all_goals
    simp only [windingNumber, octagon, polyEdges_cons, List.cons_append, List.nil_append, chain,
      List.map_cons, List.map_nil, List.sum_cons, List.sum_nil]
    have hab := mul_pos ha hb
    have na := not_lt.2 ha.le
    have nb := not_lt.2 hb.le
    have na' := not_le.2 ha
    have nb' := not_le.2 hb
    have e1 : orient (a, 0) (b, -b) (0, 0) < 0 := by simp only [orient]; nlinarith
    have e2 : orient (-a, 0) (-b, b) (0, 0) < 0 := by simp only [orient]; nlinarith
    have e3 : orient (b, b) (a, 0) (0, 0) < 0 := by simp only [orient]; nlinarith
    have e4 : orient (-b, -b) (-a, 0) (0, 0) < 0 := by simp only [orient]; nlinarith
    simp [crossing, ha, hb, ha.le, hb.le, na, nb, na', nb', e1, e3, e4, not_lt.2 e2.le, not_lt.2 e4.le]

/-- C59: the octagon is strictly convex exactly when the two approximate lengths have a ratio strictly
between one and two, as the square roots of 1 and 2 do. -/
theorem c59_convex (sq : ℚ → ℚ) (sz : ℚ) (hs : 0 < sz) (h1 : 0 < sq 1) (h2 : 0 < sq 2) (l : List Pt)
    (hl : bufferOfSize sq sz 8 = .ok l) :
    (∀ t ∈ (polyEdges l).zip (l.rotate 2), orient t.1.1 t.1.2 t.2 < 0) ↔ sq 1 < sq 2 ∧ sq 2 < 2 * sq 1 := by
  rw [buffer_octagon sq sz hs.ne' h1.ne' h2.ne'] at hl
  cases hl
  have ha : 0 < sz / sq 1 := div_pos hs h1
  have hb : 0 < sz / sq 2 := div_pos hs h2
  have k1 : sq 1 < sq 2 ↔ sz / sq 2 < sz / sq 1 := (div_lt_div_iff_of_pos_left hs h2 h1).symm
  have k2 : sq 2 < 2 * sq 1 ↔ sz / sq 1 < 2 * (sz / sq 2) := by
    rw [mul_div_assoc', div_lt_div_iff₀ h1 h2]
    constructor <;> intro h <;> nlinarith
  rw [k1, k2]
  generalize sz / sq 1 = a at *
  generalize sz / sq 2 = b at *
  simp only [octagon, polyEdges_cons, List.cons_append, List.nil_append, chain, List.rotate_cons_succ,
    List.rotate_zero, List.zip_cons_cons, List.zip_nil_left, List.forall_mem_cons, List.not_mem_nil,
    false_imp_iff, implies_true, and_true, orient]
  constructor
  · rintro ⟨a1, a2, -⟩
    constructor
    · by_contra h; nlinarith
    · by_contra h; nlinarith
  · rintro ⟨a1, a2⟩
    refine ⟨?_, ?_, ?_, ?_, ?_, ?_, ?_, ?_⟩ <;> nlinarith

/-- With 7/5 for the square root of two, the buffer polygon of radius 7 is the octagon (7, 5). -/
example : bufferOfSize (fun x => if x = 1 then 1 else 7 / 5) 7 8 =
    .ok [(7, 0), (5, -5), (0, -7), (-5, -5), (-7, 0), (-5, 5), (0, 7), (5, 5)] := by
  rw [buffer_octagon _ _ (by norm_num) (by norm_num) (by norm_num)]
  norm_num [octagon]

end Ply
