import Verif.Props.Lawful2D

/-! # C69: areas of Boolean operations -/

namespace Ply

open Arr MeasureTheory

open Classical in
/-- C69: the area of the result of a Boolean operation is the Lebesgue measure of the points of the plane for
which the operation gives true, and its polygons cover each point inside exactly once. -/
theorem c69_area (ch : Choices) (hch : ch.Valid) (gs : List Geom2D) (op : List Bool → Bool) (r : Geom2D)
    (hop : op (gs.map fun _ => false) = false)
    (hg : ∀ g ∈ gs, ∀ s ∈ g, SPWH.mk' s.outer s.holes = .ok s)
    (h : arrangementOp ch gs op = .ok r) :
    (∃ q : ℚ, Geom2D.area r = .ok q ∧ 0 ≤ q ∧
      volume {z : ℝ × ℝ | op (gs.map fun g => decide (z ∈ g.region)) = true} = ENNReal.ofReal q) ∧
    ∀ p, ¬ r.OnEdge p → (r.map fun s => (s.holes.map fun h => windingNumber h p).sum - windingNumber s.outer p).sum =
      if Geom2D.locate r p = .ok 1 then 1 else 0 := by
  have hr := arrangementOp_proper ch hch gs op r hop hg h
  obtain ⟨s1, s2, s3⟩ := arrangementOp_sound ch hch gs op r hop hg h
  refine ⟨⟨_, c31_area r hr.made, ?_⟩, hr.once⟩
  obtain ⟨e1, e2⟩ := proper_area r hr _ (c31_area r hr.made)
  refine ⟨e2, ?_⟩
  rw [← e1]
  refine measure_congr ?_
  filter_upwards [near_ae (r :: gs) (by
    intro g hg'
    rcases List.mem_cons.1 hg' with rfl | hg'
    · exact hr.made
    · exact hg g hg')] with z hz
  obtain ⟨p, hp⟩ := hz
  have sub : ∀ g ∈ r :: gs, ∀ e ∈ Geom2D.allSegments g, e ∈ (r :: gs).flatMap Geom2D.allSegments := fun g hg e he =>
    List.mem_flatMap.2 ⟨g, hg, he⟩
  refine propext ?_
  show (op (gs.map fun g => decide (z ∈ g.region)) = true) ↔ z ∈ r.region
  rw [hp.region hr.made (sub r (by simp)), s3 p ?_]
  · have : (gs.map fun g => decide (z ∈ g.region)) = gs.map fun g => decide (Geom2D.locate g p = .ok 1) := by
      refine List.map_congr_left fun g hg' => ?_
      rw [decide_eq_decide]
      exact hp.region (hg g hg') (sub g (by simp [hg']))
    rw [this]
  · intro g hg' hc
    obtain ⟨e, he, hx⟩ := (onEdge_iff g p).2 hc
    exact hp.off ⟨e, sub g (by simp [hg']) e he, hx⟩

theorem ofReal_inj_rat {a b : ℚ} (ha : 0 ≤ a) (hb : 0 ≤ b) (h : ENNReal.ofReal a = ENNReal.ofReal b) : a = b := by
  have := (ENNReal.ofReal_eq_ofReal_iff (by exact_mod_cast ha) (by exact_mod_cast hb)).1 h
  exact_mod_cast this

/-- C69: the areas of two geoms add up to the areas of their union and their intersection, exactly. -/
theorem c69_add (ch : Choices) (hch : ch.Valid) (a b u i d : Geom2D) (ha : a.Proper) (hb : b.Proper)
    (hu : Geom2D.or (arrangementOp ch) a b = .ok u) (hi : Geom2D.and (arrangementOp ch) a b = .ok i)
    (hd : Geom2D.sub (arrangementOp ch) a b = .ok d) (qa qb qu qi qd : ℚ) (h1 : Geom2D.area a = .ok qa)
    (h2 : Geom2D.area b = .ok qb) (h3 : Geom2D.area u = .ok qu) (h4 : Geom2D.area i = .ok qi)
    (h5 : Geom2D.area d = .ok qd) : qu + qi = qa + qb ∧ qd + qi = qa := by
  obtain ⟨pu, eu⟩ := operators_region ch hch a b u ha hb Or (Or.inl ⟨hu, rfl⟩)
  obtain ⟨pi, ei⟩ := operators_region ch hch a b i ha hb And (Or.inr (Or.inl ⟨hi, rfl⟩))
  obtain ⟨pd, ed⟩ := operators_region ch hch a b d ha hb _ (Or.inr (Or.inr ⟨hd, rfl⟩))
  obtain ⟨a1, a2⟩ := proper_area a ha qa h1
  obtain ⟨b1, b2⟩ := proper_area b hb qb h2
  obtain ⟨u1, u2⟩ := proper_area u pu qu h3
  obtain ⟨i1, i2⟩ := proper_area i pi qi h4
  obtain ⟨d1, d2⟩ := proper_area d pd qd h5
  have mu : volume u.region = volume (a.region ∪ b.region) :=
    measure_congr (by filter_upwards [eu] with z hz using propext hz)
  have mi : volume i.region = volume (a.region ∩ b.region) :=
    measure_congr (by filter_upwards [ei] with z hz using propext hz)
  have md : volume d.region = volume (a.region \ b.region) :=
    measure_congr (by filter_upwards [ed] with z hz using propext hz)
  have add : ∀ x y : ℚ, 0 ≤ x → 0 ≤ y → ENNReal.ofReal x + ENNReal.ofReal y = ENNReal.ofReal ((x + y : ℚ) : ℝ) := by
    intro x y hx hy
    rw [← ENNReal.ofReal_add (by exact_mod_cast hx) (by exact_mod_cast hy)]
    push_cast
    rfl
  constructor
  · apply ofReal_inj_rat (by linarith) (by linarith)
    rw [← add _ _ u2 i2, ← add _ _ a2 b2, ← u1, ← i1, ← a1, ← b1, mu, mi]
    exact measure_union_add_inter _ (measurableSet_region b)
  · apply ofReal_inj_rat (by linarith) (by linarith)
    rw [← add _ _ d2 i2, ← d1, ← i1, ← a1, md, mi]
    exact measure_sdiff_add_inter _ (measurableSet_region b)

/-- The two squares overlapping in a corner: areas 4 and 4, union 7, intersection 1, difference 3. -/
theorem c69_run : ∃ a b u i d, a.Proper ∧ b.Proper ∧ Geom2D.or (arrangementOp chDemo) a b = .ok u ∧
    Geom2D.and (arrangementOp chDemo) a b = .ok i ∧ Geom2D.sub (arrangementOp chDemo) a b = .ok d ∧
    Geom2D.area a = .ok 4 ∧ Geom2D.area b = .ok 4 ∧ Geom2D.area u = .ok 7 ∧ Geom2D.area i = .ok 1 ∧
    Geom2D.area d = .ok 3 := by
  have mk : ∀ g : Geom2D, (∀ s ∈ g, SPWH.mk' s.outer s.holes = .ok s) →
      okAnd (Geom2D.and (arrangementOp chDemo) g g) (fun r => decide (r = g)) = true → g.Proper := by
    intro g hg h
    obtain ⟨r, h1, h2⟩ := ok_of_match h
    rw [← of_decide_eq_true h2]
    exact arrangementOp_proper chDemo chDemo_valid [g, g] _ r (by rfl) (pair_wellMade hg hg) h1
  have key : okAnd (do
      let u ← Geom2D.or (arrangementOp chDemo) sqA sqB
      let i ← Geom2D.and (arrangementOp chDemo) sqA sqB
      let d ← Geom2D.sub (arrangementOp chDemo) sqA sqB
      let qa ← Geom2D.area sqA
      let qb ← Geom2D.area sqB
      let qu ← Geom2D.area u
      let qi ← Geom2D.area i
      let qd ← Geom2D.area d
      .ok [qa, qb, qu, qi, qd]) (fun l => decide (l = [4, 4, 7, 1, 3])) = true := by decide +kernel
  obtain ⟨l, h, hl⟩ := ok_of_match key
  obtain ⟨u, h1, h⟩ := (bind_ok _ _ _).1 h
  obtain ⟨i, h2, h⟩ := (bind_ok _ _ _).1 h
  obtain ⟨d, h3, h⟩ := (bind_ok _ _ _).1 h
  obtain ⟨qa, h4, h⟩ := (bind_ok _ _ _).1 h
  obtain ⟨qb, h5, h⟩ := (bind_ok _ _ _).1 h
  obtain ⟨qu, h6, h⟩ := (bind_ok _ _ _).1 h
  obtain ⟨qi, h7, h⟩ := (bind_ok _ _ _).1 h
  obtain ⟨qd, h8, h⟩ := (bind_ok _ _ _).1 h
  cases h
  have hl := of_decide_eq_true hl
  simp only [List.cons.injEq, and_true] at hl
  obtain ⟨rfl, rfl, rfl, rfl, rfl⟩ := hl
  exact ⟨sqA, sqB, u, i, d, mk sqA sqABC_made.1 (by decide +kernel), mk sqB sqABC_made.2.1 (by decide +kernel),
    h1, h2, h3, h4, h5, h6, h7, h8⟩

end Ply
