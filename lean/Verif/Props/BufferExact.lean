import Verif.Props.Fine

/-!
# Exactly which points `buffer` gives
-/

namespace Ply

open Filter Topology Arr

/-- A property of a shift that is kept when moving on a little in any direction. -/
def Stable (P : Pt → Prop) : Prop := ∀ v, P v → ∀ u, ∀ᶠ ε in 𝓝[>] (0 : ℚ), P (v + ε • u)

theorem Stable.and {P Q : Pt → Prop} (hP : Stable P) (hQ : Stable Q) : Stable fun v => P v ∧ Q v := fun v h u =>
  (hP v h.1 u).and (hQ v h.2 u)

theorem stable_inside {g : Geom2D} (hg : g.WellMade) (p : Pt) : Stable fun v => Geom2D.locate g (p + v) = .ok 1 := by
  intro v h u
  filter_upwards [locate_small hg h u] with ε hε
  rwa [← add_assoc]

theorem stable_all {α : Type*} (S : List α) {P : α → Pt → Prop} (h : ∀ s ∈ S, Stable (P s)) :
    Stable fun v => ∀ s ∈ S, P s v := fun v hv u =>
  small_list S (fun s ε => P s (v + ε • u)) fun s hs => h s hs v (hv s hs) u

theorem stable_out {L : List Pt} (p : Pt) : Stable fun v => OutPoly L (p + v) := fun v h u => by
  filter_upwards [outPoly_small h u] with ε hε
  rwa [← add_assoc]

theorem stable_in {L : List Pt} (p : Pt) : Stable fun v => InPoly L (p + v) := fun v h u => by
  filter_upwards [inPoly_small h u] with ε hε
  rwa [← add_assoc]

theorem locate_out {g : Geom2D} (hg : g.WellMade) (p : Pt) :
    Geom2D.locate g p = .ok (-1) ↔ ∀ s ∈ g, OutRegion s.outer s.holes p := by
  obtain ⟨v, e1, _, _, e4⟩ := c31_locate g hg p
  rw [e1, Except.ok.injEq, e4]

theorem stable_outside {g : Geom2D} (hg : g.WellMade) (p : Pt) : Stable fun v => Geom2D.locate g (p + v) = .ok (-1) := by
  simp only [locate_out hg]
  refine stable_all g fun s _ v h u => ?_
  rcases h with h | ⟨h, pre, k, post, e, h1, h2⟩
  · filter_upwards [stable_out p v h u] with ε hε
    exact Or.inl hε
  · filter_upwards [stable_in p v h u, stable_all pre (fun x _ => stable_out (L := x) p) v h1 u, stable_in p v h2 u] with ε a b c
    exact Or.inr ⟨a, pre, k, post, e, b, c⟩

theorem stable_reach {C : List Pt} (hC : Conv C) {L : List Pt} (hL : L ≠ []) (p : Pt) :
    Stable fun v => ¬ Reach C 1 L (p + v) := fun v h u => by
  filter_upwards [reach_small hC hL h u] with ε hε
  rwa [← add_assoc]

/-- Next to an edge between inside and outside there are points of both. -/
theorem parts_near {g : Geom2D} {e : Seg} (hne : e.1 ≠ e.2) (h : Parts g e) {y : Pt} (hy : OnSeg e y) {P : Pt → Prop}
    (hP : Stable P) (h0 : P 0) :
    (∃ v, P v ∧ Geom2D.locate g (y + v) = .ok 1) ∧ ∃ v, P v ∧ Geom2D.locate g (y + v) = .ok (-1) := by
  obtain ⟨s, s0, s1, rfl⟩ := hy
  obtain ⟨ε, e0, e1, e2⟩ := small_exists ((hP 0 h0 ((1 / 2 - s) • dir e)).and (small_lt 1 one_pos))
  obtain ⟨u, hu⟩ := right_exists hne
  have hs : 0 < s + ε * (1 / 2 - s) ∧ s + ε * (1 / 2 - s) < 1 := by constructor <;> nlinarith
  have hx : along e (s + ε * (1 / 2 - s)) = along e s + (0 + ε • (1 / 2 - s) • dir e) := by
    rw [along_eq, along_eq, add_smul, mul_smul]; abel
  have hpt := eventually_right.2 (h _ hs.1 hs.2 u hu)
  have sm : ∀ ε : ℚ, (ε * u.1, ε * u.2) = ε • u := fun ε => rfl
  rw [hx] at hpt
  constructor
  · obtain ⟨ε', -, a, b⟩ := small_exists (hpt.and (hP _ e1 u))
    refine ⟨_, b, ?_⟩
    rw [sm] at a
    rw [← add_assoc]
    exact a.1
  · obtain ⟨ε', -, a, b⟩ := small_exists (hpt.and (hP _ e1 (-u)))
    refine ⟨_, b, ?_⟩
    rw [sm] at a
    rw [← add_assoc, smul_neg, ← sub_eq_add_neg]
    exact a.2

theorem Geom2D.Crisp.near {g : Geom2D} (hg : g.WellMade) (h : g.Crisp) {y : Pt} (hy : g.OnEdge y) {P : Pt → Prop}
    (hP : Stable P) (h0 : P 0) :
    (∃ v, P v ∧ Geom2D.locate g (y + v) = .ok 1) ∧ ∃ v, P v ∧ Geom2D.locate g (y + v) = .ok (-1) := by
  obtain ⟨s, hs, hb⟩ := hy
  have hw := ((SPWH.mk'_iff _ _ _).1 (hg s hs)).2
  rcases hb with ⟨e, he, ho⟩ | ⟨k, hk, e, he, ho⟩
  · exact parts_near (segments_ne [g] (by simpa using hg) e (by
      simp only [List.flatMap_cons, List.flatMap_nil, List.append_nil]
      exact (mem_edges hs).1 e he)) ((h s hs).1 e he) ho hP h0
  · refine parts_near (e := (e.2, e.1)) (Ne.symm (segments_ne [g] (by simpa using hg) e (by
      simp only [List.flatMap_cons, List.flatMap_nil, List.append_nil]
      exact (mem_edges hs).2 k hk e he))) ((h s hs).2 k hk e he) ((onSeg_rev e y).2 ho) hP h0

/-- The edges of such a geom are exactly the points that locate calls the boundary. -/
theorem Geom2D.Crisp.edge {g : Geom2D} (hg : g.WellMade) (h : g.Crisp) (y : Pt) :
    g.OnEdge y ↔ Geom2D.locate g y = .ok 0 := by
  obtain ⟨v, e1, e2, e3, e4⟩ := c31_locate g hg y
  constructor
  · intro hy
    have n1 : ¬ Geom2D.locate g y = .ok 1 := fun hc => by
      obtain ⟨-, v, a, b⟩ := h.near hg hy (stable_inside hg y) (by rwa [add_zero])
      rw [b] at a; cases a
    have n2 : ¬ Geom2D.locate g y = .ok (-1) := fun hc => by
      obtain ⟨⟨v, a, b⟩, -⟩ := h.near hg hy (stable_outside hg y) (by rwa [add_zero])
      rw [b] at a; cases a
    rw [e1, Except.ok.injEq] at n1 n2 ⊢
    rw [e3]
    rw [e2] at n1
    rw [e4] at n2
    refine ⟨n1, ?_⟩
    by_contra hc
    push Not at hc n1
    refine n2 fun s hs => ?_
    obtain ⟨i1, i2, i3, i4⟩ := c31_locate_polygon _ _ s (hg s hs) y
    rcases i4 with i | i | i
    · exact absurd (i1.1 i) (n1 s hs)
    · exact absurd (i2.1 i) (hc s hs)
    · exact i3.1 i
  · intro hy
    rw [e1, Except.ok.injEq, e3] at hy
    obtain ⟨s, hs, hb⟩ := hy.2
    rcases hb with hb | ⟨-, pre, k, post, e, -, hb⟩
    · exact ⟨s, hs, Or.inl hb⟩
    · exact ⟨s, hs, Or.inr ⟨k, by rw [e]; simp, hb⟩⟩

/-- Inside or on an edge. -/
def Geom2D.Has (g : Geom2D) (p : Pt) : Prop := Geom2D.locate g p = .ok 1 ∨ Geom2D.locate g p = .ok 0

theorem Geom2D.Crisp.has {g : Geom2D} (hg : g.WellMade) (h : g.Crisp) (y : Pt) :
    g.Has y ↔ Geom2D.locate g y = .ok 1 ∨ g.OnEdge y := by
  rw [h.edge hg]; rfl

theorem not_has {g : Geom2D} (hg : g.WellMade) (y : Pt) : ¬ g.Has y ↔ Geom2D.locate g y = .ok (-1) := by
  unfold Geom2D.Has
  obtain ⟨v, e1, e2, e3, e4⟩ := c31_locate g hg y
  constructor
  · intro h
    push Not at h
    rw [e1, ne_eq, Except.ok.injEq, ne_eq, Except.ok.injEq, e2, e3] at h
    rw [locate_out hg]
    intro s hs
    have h1 := h.1
    push Not at h1
    have h2 : ¬ ∃ s ∈ g, OnRegionBoundary s.outer s.holes y := fun hc => h.2 ⟨h.1, hc⟩
    push Not at h2
    obtain ⟨i1, i2, i3, i4⟩ := c31_locate_polygon _ _ s (hg s hs) y
    rcases i4 with i | i | i
    · exact absurd (i1.1 i) (h1 s hs)
    · exact absurd (i2.1 i) (h2 s hs)
    · exact i3.1 i
  · intro h
    rw [h]
    rintro (h | h) <;> cases h

section

variable {arr : Geom2D.ArrOp} (ha : ArrSound arr) {C : List Pt} (hC : Conv C)
  (hsym : ∀ w, InConvex C (-w) ↔ InConvex C w)
  (hsh : ∀ σ : ℤ, σ = 1 ∨ σ = -1 → minkowskiShift C σ = .ok ((0, 0), C)) {g : Geom2D} (hg : g.WellMade)
  (ho : g.Outlined) (hcg : g.Crisp) {r : Geom2D} (hrm : r.WellMade) (hcr : r.Crisp)
include ha hC hsym hsh hg ho hcg hrm hcr

/-- Every point of the grown geom is reached from a point of the geom. -/
theorem grow_has (hr : minkowskiConvexOp arr 2 g C 1 = .ok r) {p : Pt} (h : r.Has p) :
    ∃ y, g.Has y ∧ InConvex C (p - y) := by
  by_contra hc
  push Not at hc
  -- out of reach of the geom, which is kept when moving a little
  have hout : ¬ g.Has p := fun h => hc p h (by rw [sub_self]; exact hC.in_zero)
  have edge : ∀ z, g.OnEdge z → ¬ InConvex C (p - z) := fun z hz => hc z ((hcg.has hg z).2 (Or.inr hz))
  set P : Pt → Prop := fun v => Geom2D.locate g (p + v) = .ok (-1) ∧
    ∀ s ∈ g, ¬ Reach C 1 s.outer (p + v) ∧ ∀ h ∈ s.holes, ¬ Reach C 1 h (p + v) with hPd
  have hP : Stable P := (stable_outside hg p).and (stable_all g fun s hs =>
    (stable_reach hC (outer_ne hg hs) p).and (stable_all s.holes fun h hh => stable_reach hC (hole_ne hg hs hh) p))
  have h0 : P 0 := by
    rw [hPd]
    simp only [add_zero]
    refine ⟨(not_has hg p).1 hout, fun s hs => ⟨?_, fun h hh => ?_⟩⟩
    · rintro ⟨z, hz, hin⟩
      exact edge z ⟨s, hs, Or.inl hz⟩ (by simpa using hin)
    · rintro ⟨z, hz, hin⟩
      exact edge z ⟨s, hs, Or.inr ⟨h, hh, hz⟩⟩ (by simpa using hin)
  have key : ∀ v, P v → ¬ Geom2D.locate r (p + v) = .ok 1 := by
    intro v hv hl
    obtain ⟨y, hy, hin⟩ := grow_within ha hC hsym hsh hg ho hr hl
    have noedge : ∀ z, OnSeg (p + v, y) z → ¬ g.OnEdge z := by
      rintro z hz ⟨s, hs, hb⟩
      rcases hb with hb | ⟨h, hh, hb⟩
      · exact path_clear hC (hv.2 s hs).1 hin z hz hb
      · exact path_clear hC ((hv.2 s hs).2 h hh) hin z hz hb
    rcases hy with hy | hy
    · have hsame : SameFace g.allSegments (p + v) y := same_of_segment fun x hx hc => noedge x hx ((onEdge_iff g x).1 hc)
      have hoff : ∀ x, OnSeg (p + v, y) x → ¬ OnAny g.allSegments x := fun x hx hc => noedge x hx ((onEdge_iff g x).1 hc)
      have := locate_face g hg (fun x hx => (onEdge_iff g x).2 hx) (hoff _ (onSeg_left (p + v, y))) (hoff _ (onSeg_right (p + v, y))) hsame
      have h1 := hv.1
      rw [this.2 hy] at h1
      cases h1
    · exact noedge y (onSeg_right (p + v, y)) hy
  rcases (hcr.has hrm p).1 h with h | h
  · exact key 0 h0 (by rwa [add_zero])
  · obtain ⟨⟨v, a, b⟩, -⟩ := hcr.near hrm h hP h0
    exact key v a b

/-- Every point reached from a point of the geom is in the grown geom. -/
theorem has_grow (hn : g.NoIslands) (hr : minkowskiConvexOp arr 2 g C 1 = .ok r) {p y : Pt}
    (hy : g.Has y) (hin : InConvex C (p - y)) : r.Has p := by
  by_contra hc
  have hS := stable_outside hrm p
  have h0 : (fun v => Geom2D.locate r (p + v) = .ok (-1)) 0 := by
    simp only [add_zero]
    exact (not_has hrm p).1 hc
  have key : ∀ v, Geom2D.locate r (p + v) = .ok (-1) → ¬ Geom2D.locate g (y + v) = .ok 1 := by
    intro v hv hl
    have := grow_contains ha hC hsym hsh hg ho hn hr (p := p + v) (y := y + v) (fun hx => by
      rw [hcr.edge hrm, hv] at hx; cases hx) hl (by rwa [add_sub_add_right_eq_sub])
    rw [hv] at this; cases this
  rcases (hcg.has hg y).1 hy with h | h
  · exact key 0 h0 (by rwa [add_zero])
  · obtain ⟨⟨v, a, b⟩, -⟩ := hcg.near hg h hS h0
    exact key v a b

omit hcr in
/-- The shape placed at a point inside the shrunk geom is inside the geom. -/
theorem shrink_inside (hr : minkowskiConvexOp arr 2 g C (-1) = .ok r) {p : Pt} (h : Geom2D.locate r p = .ok 1) {y : Pt}
    (hy : InConvex C (y - p)) : Geom2D.locate g y = .ok 1 := by
  have key : ∀ v, Geom2D.locate r (p + v) = .ok 1 → ¬ Geom2D.locate g (y + v) = .ok (-1) := by
    intro v hv hl
    rcases shrink_within ha hC hsym hsh hg ho hr hv (y := y + v) (by rwa [add_sub_add_right_eq_sub]) with h | h
    · rw [hl] at h; cases h
    · rw [hcg.edge hg, hl] at h; cases h
  rcases shrink_within ha hC hsym hsh hg ho hr h hy with h' | h'
  · exact h'
  · obtain ⟨-, v, a, b⟩ := hcg.near hg h' (stable_inside hrm p) (by rwa [add_zero])
    exact absurd b (key v a)

/-- A point at which the shape can be placed inside the geom is inside the shrunk geom. -/
theorem inside_shrink (hn : g.NoIslands) (hr : minkowskiConvexOp arr 2 g C (-1) = .ok r) {p : Pt}
    (hall : ∀ y, InConvex C (y - p) → Geom2D.locate g y = .ok 1) : Geom2D.locate r p = .ok 1 := by
  have edge : ∀ z, g.OnEdge z → ¬ InConvex C (p - z) := fun z hz hin => by
    have := hall z (by rw [← neg_sub, hsym]; exact hin)
    rw [(hcg.edge hg z).1 hz] at this; cases this
  set P : Pt → Prop := fun v => Geom2D.locate g (p + v) = .ok 1 ∧
    ∀ s ∈ g, ¬ Reach C 1 s.outer (p + v) ∧ ∀ h ∈ s.holes, ¬ Reach C 1 h (p + v) with hPd
  have hP : Stable P := (stable_inside hg p).and (stable_all g fun s hs =>
    (stable_reach hC (outer_ne hg hs) p).and (stable_all s.holes fun h hh => stable_reach hC (hole_ne hg hs hh) p))
  have h0 : P 0 := by
    rw [hPd]
    simp only [add_zero]
    refine ⟨hall p (by rw [sub_self]; exact hC.in_zero), fun s hs => ⟨?_, fun h hh => ?_⟩⟩
    · rintro ⟨z, hz, hin⟩
      exact edge z ⟨s, hs, Or.inl hz⟩ (by simpa using hin)
    · rintro ⟨z, hz, hin⟩
      exact edge z ⟨s, hs, Or.inr ⟨h, hh, hz⟩⟩ (by simpa using hin)
  have key : ∀ v, P v → ¬ Geom2D.locate r (p + v) = .ok (-1) := by
    intro v hv hl
    have := shrink_contains ha hC hsym hsh hg ho hn hr (p := p + v) (fun hx => by
      rw [hcr.edge hrm, hl] at hx; cases hx) (fun y hy => by
        have hin : InConvex C (p + v - y) := by rw [← neg_sub, hsym]; exact hy
        have noedge : ∀ z, OnSeg (p + v, y) z → ¬ g.OnEdge z := by
          rintro z hz ⟨s, hs, hb⟩
          rcases hb with hb | ⟨h, hh, hb⟩
          · exact path_clear hC (hv.2 s hs).1 hin z hz hb
          · exact path_clear hC ((hv.2 s hs).2 h hh) hin z hz hb
        have hoff : ∀ x, OnSeg (p + v, y) x → ¬ OnAny g.allSegments x := fun x hx hc => noedge x hx ((onEdge_iff g x).1 hc)
        have := locate_face g hg (fun x hx => (onEdge_iff g x).2 hx) (hoff _ (onSeg_left (p + v, y))) (hoff _ (onSeg_right (p + v, y)))
          (same_of_segment hoff)
        exact ⟨this.1 hv.1, noedge y (onSeg_right (p + v, y))⟩)
    rw [hl] at this; cases this
  have hh := key 0 h0
  rw [add_zero, ← not_has hrm, not_not, hcr.has hrm] at hh
  rcases hh with h | h
  · exact h
  · obtain ⟨-, v, a, b⟩ := hcr.near hrm h hP h0
    exact absurd b (key v a)

end

/-! ### `buffer` -/

/-- What `buffer_of_size` gives, by inequalities. -/
theorem in_octagon {a b : ℚ} (hb : 0 < b) (h1 : b < a) (h2 : a < 2 * b) (w : Pt) :
    InConvex (octagon a b) w ↔ b * |w.1| + (a - b) * |w.2| ≤ a * b ∧ (a - b) * |w.1| + b * |w.2| ≤ a * b := by
  obtain ⟨x, y⟩ := w
  unfold InConvex
  have : polyEdges (octagon a b) = [((a, 0), (b, -b)), ((b, -b), (0, -a)), ((0, -a), (-b, -b)), ((-b, -b), (-a, 0)),
    ((-a, 0), (-b, b)), ((-b, b), (0, a)), ((0, a), (b, b)), ((b, b), (a, 0))] := rfl
  rw [this]
  simp only [List.forall_mem_cons, List.not_mem_nil, false_implies, implies_true, and_true, orient]
  have hab : 0 < a - b := by linarith
  rcases abs_cases x with ⟨hx, hx'⟩ | ⟨hx, hx'⟩ <;> rcases abs_cases y with ⟨hy, hy'⟩ | ⟨hy, hy'⟩ <;> rw [hx, hy] <;>
    constructor
  all_goals first
    | (rintro ⟨k1, k2, k3, k4, k5, k6, k7, k8⟩; constructor <;> nlinarith)
    | (rintro ⟨k1, k2⟩; refine ⟨?_, ?_, ?_, ?_, ?_, ?_, ?_, ?_⟩ <;> nlinarith [mul_nonneg hb.le (abs_nonneg x), mul_nonneg hb.le (abs_nonneg y),
        mul_nonneg hab.le (abs_nonneg x), mul_nonneg hab.le (abs_nonneg y)])

section

variable (ch : Choices) (hch : ch.Valid) {sq : ℚ → ℚ} (hsq : RootLike sq) {g : Geom2D} (hg : g.Fine) {amount : ℚ} {r : Geom2D}
  (h : Geom2D.bufferBy (arrangementOp ch) sq g amount = .ok r)
include hch hsq hg h

theorem buffer_has (h0 : 0 < amount) {p : Pt} (hp : r.Has p) : ∃ y, g.Has y ∧ InConvex (bufOct sq amount) (p - y) := by
  have hr := buffer_fine ch hch hsq hg.proper.made hg.outlined h0.ne' h
  rw [bufferBy_eq _ hsq g h0.ne', if_pos h0] at h
  exact grow_has (arrangementOp_sound ch hch) (bufOct_conv hsq h0.ne') (bufOct_symm hsq h0.ne') (bufOct_shift hsq h0.ne')
    hg.proper.made hg.outlined hg.crisp hr.proper.made hr.crisp h hp

/-- `buffer` with a positive amount of a geom without polygons in the holes of others gives exactly the sum
of the points and the octagon. -/
theorem buffer_grow (h0 : 0 < amount) (hn : g.NoIslands) (p : Pt) :
    r.Has p ↔ ∃ y, g.Has y ∧ InConvex (bufOct sq amount) (p - y) := by
  refine ⟨buffer_has ch hch hsq hg h h0, fun ⟨y, h1, h2⟩ => ?_⟩
  have hr := buffer_fine ch hch hsq hg.proper.made hg.outlined h0.ne' h
  rw [bufferBy_eq _ hsq g h0.ne', if_pos h0] at h
  exact has_grow (arrangementOp_sound ch hch) (bufOct_conv hsq h0.ne') (bufOct_symm hsq h0.ne') (bufOct_shift hsq h0.ne')
    hg.proper.made hg.outlined hg.crisp hr.proper.made hr.crisp hn h h1 h2

theorem buffer_inside (h0 : amount < 0) {p : Pt} (hp : Geom2D.locate r p = .ok 1) {y : Pt}
    (hy : InConvex (bufOct sq amount) (y - p)) : Geom2D.locate g y = .ok 1 := by
  have hr := buffer_fine ch hch hsq hg.proper.made hg.outlined h0.ne h
  rw [bufferBy_eq _ hsq g h0.ne, if_neg (by linarith)] at h
  exact shrink_inside (arrangementOp_sound ch hch) (bufOct_conv hsq h0.ne) (bufOct_symm hsq h0.ne) (bufOct_shift hsq h0.ne)
    hg.proper.made hg.outlined hg.crisp hr.proper.made h hp hy

/-- `buffer` with a negative amount of a geom without polygons in the holes of others has inside exactly the
points at which the octagon can be placed inside. -/
theorem buffer_shrink (h0 : amount < 0) (hn : g.NoIslands) (p : Pt) :
    Geom2D.locate r p = .ok 1 ↔ ∀ y, InConvex (bufOct sq amount) (y - p) → Geom2D.locate g y = .ok 1 := by
  refine ⟨fun hp y hy => buffer_inside ch hch hsq hg h h0 hp hy, fun hall => ?_⟩
  have hr := buffer_fine ch hch hsq hg.proper.made hg.outlined h0.ne h
  rw [bufferBy_eq _ hsq g h0.ne, if_neg (by linarith)] at h
  exact inside_shrink (arrangementOp_sound ch hch) (bufOct_conv hsq h0.ne) (bufOct_symm hsq h0.ne) (bufOct_shift hsq h0.ne)
    hg.proper.made hg.outlined hg.crisp hr.proper.made hr.crisp hn h hall

/-- A polygon in a hole of another, farther from the hole's edges than the amount, is lost. -/
theorem buffer_islands (h0 : 0 < amount) {s : SPWH} (hs : s ∈ g) {k : List Pt} (hk : k ∈ s.holes) {p : Pt} (hp : InPoly k p)
    (hfar : ∀ z, OnBoundary k z → ¬ InConvex (bufOct sq amount) (p - z)) : Geom2D.locate r p ≠ .ok 1 := by
  rw [bufferBy_eq _ hsq g h0.ne', if_pos h0] at h
  exact grow_hole (arrangementOp_sound ch hch) (bufOct_conv hsq h0.ne') (bufOct_symm hsq h0.ne') (bufOct_shift hsq h0.ne')
    hg.proper.made hg.outlined h hs hk hp hfar

end

/-- Shrinking and growing again gives no new points. -/
theorem buffer_open (ch : Choices) (hch : ch.Valid) {sq : ℚ → ℚ} (hsq : RootLike sq) {g b1 b2 : Geom2D} (hg : g.Fine)
    {amount : ℚ} (h0 : 0 < amount) (h1 : Geom2D.bufferBy (arrangementOp ch) sq g (-amount) = .ok b1)
    (h2 : Geom2D.bufferBy (arrangementOp ch) sq b1 amount = .ok b2) {p : Pt} (hp : b2.Has p) : g.Has p := by
  have f1 := buffer_fine' ch hch hsq hg h1
  obtain ⟨y, hy, hin⟩ := buffer_has ch hch hsq f1 h2 h0 hp
  by_contra hc
  have hout := (not_has hg.proper.made p).1 hc
  have hin' : InConvex (bufOct sq (-amount)) (p - y) := by
    unfold bufOct at hin ⊢
    rwa [abs_neg]
  have key : ∀ v, Geom2D.locate g (p + v) = .ok (-1) → ¬ Geom2D.locate b1 (y + v) = .ok 1 := by
    intro v hv hl
    have := buffer_inside ch hch hsq hg h1 (by linarith) hl (y := p + v) (by rwa [add_sub_add_right_eq_sub])
    rw [hv] at this; cases this
  have z0 : Geom2D.locate g (p + 0) = .ok (-1) := by rwa [add_zero]
  rcases (f1.crisp.has f1.proper.made y).1 hy with h | h
  · exact key 0 z0 (by rwa [add_zero])
  · obtain ⟨⟨v, a, b⟩, -⟩ := f1.crisp.near f1.proper.made h (stable_outside hg.proper.made p) z0
    exact key v a b

/-- Shrinking and growing again keeps every octagon inside. -/
theorem buffer_opened (ch : Choices) (hch : ch.Valid) {sq : ℚ → ℚ} (hsq : RootLike sq) {g b1 b2 : Geom2D} (hg : g.Fine)
    (hn : g.NoIslands) {amount : ℚ} (h0 : 0 < amount) (h1 : Geom2D.bufferBy (arrangementOp ch) sq g (-amount) = .ok b1)
    (hn1 : b1.NoIslands) (h2 : Geom2D.bufferBy (arrangementOp ch) sq b1 amount = .ok b2) {y p : Pt}
    (hy : ∀ z, InConvex (bufOct sq amount) (z - y) → Geom2D.locate g z = .ok 1) (hp : InConvex (bufOct sq amount) (p - y)) :
    b2.Has p := by
  have f1 := buffer_fine' ch hch hsq hg h1
  refine (buffer_grow ch hch hsq f1 h2 h0 hn1 p).2 ⟨y, Or.inl ?_, hp⟩
  refine (buffer_shrink ch hch hsq hg h1 (by linarith) hn y).2 fun z hz => hy z ?_
  unfold bufOct at hz ⊢
  rwa [abs_neg] at hz

/-! ### Larger geoms and larger amounts -/

theorem bufOct_mono {sq : ℚ → ℚ} (hsq : RootLike sq) {a b : ℚ} (ha : 0 < a) (hab : a ≤ b) {w : Pt}
    (h : InConvex (bufOct sq a) w) : InConvex (bufOct sq b) w := by
  have hb : 0 < b := ha.trans_le hab
  obtain ⟨a1, a2, a3⟩ := hsq.oct ha.ne'
  obtain ⟨b1, b2, b3⟩ := hsq.oct hb.ne'
  unfold bufOct at h ⊢
  rw [in_octagon a1 a2 a3] at h
  rw [in_octagon b1 b2 b3]
  rw [abs_of_pos ha] at *
  rw [abs_of_pos hb] at *
  have h2 : 0 < sq 2 := hsq.pos.trans hsq.lt
  have key : ∀ c : ℚ, c / sq 1 = c * (1 / sq 1) ∧ c / sq 2 = c * (1 / sq 2) := fun c => ⟨by ring, by ring⟩
  rw [(key a).1, (key a).2] at h
  rw [(key b).1, (key b).2]
  have p1 : 0 < 1 / sq 1 := one_div_pos.2 hsq.pos
  have p2 : 0 < 1 / sq 2 := one_div_pos.2 h2
  have p3 : 1 / sq 2 < 1 / sq 1 := one_div_lt_one_div_of_lt hsq.pos hsq.lt
  set α := 1 / sq 1
  set β := 1 / sq 2
  have hx := abs_nonneg w.1
  have hy := abs_nonneg w.2
  have r1 : β * |w.1| + (α - β) * |w.2| ≤ a * (α * β) := by
    have := h.1
    have e : a * (β * |w.1| + (α - β) * |w.2|) ≤ a * (a * (α * β)) := by linarith
    exact le_of_mul_le_mul_left e ha
  have r2 : (α - β) * |w.1| + β * |w.2| ≤ a * (α * β) := by
    have := h.2
    have e : a * ((α - β) * |w.1| + β * |w.2|) ≤ a * (a * (α * β)) := by linarith
    exact le_of_mul_le_mul_left e ha
  have r3 : a * (α * β) ≤ b * (α * β) := mul_le_mul_of_nonneg_right hab (mul_pos p1 p2).le
  constructor
  · have := mul_le_mul_of_nonneg_left (r1.trans r3) hb.le
    linarith
  · have := mul_le_mul_of_nonneg_left (r2.trans r3) hb.le
    linarith

theorem buffer_mono (ch : Choices) (hch : ch.Valid) {sq : ℚ → ℚ} (hsq : RootLike sq) {a g a' g' : Geom2D} (ha : a.Fine)
    (hg : g.Fine) (hn : g.NoIslands) (hag : ∀ p, a.Has p → g.Has p) {m n : ℚ} (hm : 0 < m) (hmn : m ≤ n)
    (h1 : Geom2D.bufferBy (arrangementOp ch) sq a m = .ok a') (h2 : Geom2D.bufferBy (arrangementOp ch) sq g n = .ok g')
    {p : Pt} (hp : a'.Has p) : g'.Has p := by
  obtain ⟨y, hy, hin⟩ := buffer_has ch hch hsq ha h1 hm hp
  exact (buffer_grow ch hch hsq hg h2 (hm.trans_le hmn) hn p).2 ⟨y, hag y hy, bufOct_mono hsq hm hmn hin⟩

/-- The common part has no points outside either. -/
theorem and_has (ch : Choices) (hch : ch.Valid) {a b r : Geom2D} (ha : a.Fine) (hb : b.Fine)
    (h : Geom2D.and (arrangementOp ch) a b = .ok r) {p : Pt} (hp : r.Has p) : a.Has p ∧ b.Has p := by
  have hr := and_fine ch hch ha.usable hb.usable h
  obtain ⟨-, -, h3⟩ := c35_operators ch hch a b ha.proper.made hb.proper.made r And (Or.inr (Or.inl ⟨h, rfl⟩))
  have key : ∀ P : Pt → Prop, Stable P → P 0 → ∃ v, P v ∧ Geom2D.locate a (p + v) = .ok 1 ∧ Geom2D.locate b (p + v) = .ok 1 := by
    intro P hP h0
    have step : ∃ v, P v ∧ Geom2D.locate r (p + v) = .ok 1 := by
      rcases (hr.crisp.has hr.proper.made p).1 hp with h | h
      · exact ⟨0, h0, by rwa [add_zero]⟩
      · exact (hr.crisp.near hr.proper.made h hP h0).1
    obtain ⟨v, v1, v2⟩ := step
    obtain ⟨u, hu⟩ := generic_dir (a.allSegments ++ b.allSegments) (p + v)
    obtain ⟨ε, -, e1, e2, e3⟩ := small_exists (hu.and ((hP v v1 u).and (stable_inside hr.proper.made p v v2 u)))
    refine ⟨v + ε • u, e2, (h3 _ ?_ ?_).1.1 e3⟩
    · rw [← onEdge_iff, ← add_assoc]
      exact fun hc => e1 (hc.mono fun s hs => List.mem_append_left _ hs)
    · rw [← onEdge_iff, ← add_assoc]
      exact fun hc => e1 (hc.mono fun s hs => List.mem_append_right _ hs)
  constructor
  · by_contra hc
    obtain ⟨v, a, b, -⟩ := key _ (stable_outside ha.proper.made p) (by rw [add_zero]; exact (not_has ha.proper.made p).1 hc)
    rw [a] at b; cases b
  · by_contra hc
    obtain ⟨v, a, -, b⟩ := key _ (stable_outside hb.proper.made p) (by rw [add_zero]; exact (not_has hb.proper.made p).1 hc)
    rw [a] at b; cases b

open MeasureTheory in
/-- What holds for the rational points holds for the points of the real plane. -/
theorem has_region {a b : Geom2D} (ha : a.Fine) (hb : b.Fine) (hab : ∀ p, a.Has p → b.Has p) :
    ∀ᵐ z : ℝ × ℝ, z ∈ a.region → z ∈ b.region := by
  filter_upwards [near_ae [a, b] (pair_wellMade ha.proper.made hb.proper.made)] with z hz
  obtain ⟨p, hp⟩ := hz
  have sub : ∀ g ∈ [a, b], ∀ e ∈ Geom2D.allSegments g, e ∈ [a, b].flatMap Geom2D.allSegments := fun g hg e he =>
    List.mem_flatMap.2 ⟨g, hg, he⟩
  rw [hp.region ha.proper.made (sub a (by simp)), hp.region hb.proper.made (sub b (by simp))]
  intro h
  refine ((hb.crisp.has hb.proper.made p).1 (hab p (Or.inl h))).resolve_right fun hc => ?_
  obtain ⟨e, he, hx⟩ := (onEdge_iff b p).2 hc
  exact hp.off ⟨e, sub b (by simp) e he, hx⟩

end Ply
