import Verif.Props.Exact2D

/-!
# From almost all real points to all points with rational coordinates
-/

namespace Ply

open Filter Topology MeasureTheory Arr

/-- Near a point there is one that real points close to it see all geoms as it does. -/
theorem real_witness (gs : List Geom2D) (hgs : ∀ g ∈ gs, Geom2D.WellMade g) (p : Pt) {P : Pt → Prop} (hP : Stable P)
    (h0 : P 0) : ∃ v, P v ∧ ∀ᶠ w in 𝓝 (toR (p + v)), ∀ g ∈ gs, (w ∈ Geom2D.region g ↔ Geom2D.locate g (p + v) = .ok 1) := by
  set E := gs.flatMap Geom2D.allSegments with hE
  have hne := Arr.segments_ne gs hgs
  rw [← hE] at hne
  obtain ⟨u, hu⟩ := exists_generic (0 : Pt) ((1, 0) :: E.map dir) (by
    intro v hv
    rcases List.mem_cons.1 hv with rfl | hv
    · intro h; have := congrArg Prod.fst h; simp at this
    · obtain ⟨e, he, rfl⟩ := List.mem_map.1 hv
      intro hc
      have : e.2 - e.1 = 0 := hc
      exact hne e he (sub_eq_zero.1 this).symm)
  have hor : ∀ v : Pt, orient u v 0 = cross u v := fun v => by unfold orient cross; simp; ring
  have h2 : u.2 ≠ 0 := by
    have := hu (1, 0) (List.mem_cons_self ..)
    rw [hor] at this
    simpa [cross] using this
  have hc : ∀ e ∈ E, cross (dir e) u ≠ 0 := by
    intro e he h
    refine hu (dir e) (List.mem_cons_of_mem _ (List.mem_map_of_mem he)) ?_
    rw [hor]
    have : cross u (dir e) = -cross (dir e) u := by unfold cross; ring
    rw [this, h, neg_zero]
  have lev : ∀ c : ℚ, ∀ᶠ ε in 𝓝[>] (0 : ℚ), p.2 + ε * u.2 ≠ c := by
    intro c
    filter_upwards [small_ne ((c - p.2) / u.2)] with ε hε h
    apply hε
    rw [eq_div_iff h2]; linarith
  have key := small_list E (fun e ε => (p + ε • u).2 ≠ e.1.2 ∧ (p + ε • u).2 ≠ e.2.2 ∧
      orient e.1 e.2 (p + ε • u) ≠ 0) fun e he => by
    filter_upwards [lev e.1.2, lev e.2.2, small_ne (-orient e.1 e.2 p / cross (dir e) u)] with ε a b c
    refine ⟨a, b, fun h => c ?_⟩
    rw [eq_div_iff (hc e he)]
    have : orient e.1 e.2 (p + ε • u) = orient e.1 e.2 p + ε * cross (dir e) u := by
      unfold orient cross dir
      simp only [Prod.fst_add, Prod.snd_add, Prod.smul_fst, Prod.smul_snd, smul_eq_mul]
      ring
    linarith
  obtain ⟨ε, -, a, b⟩ := small_exists ((hP 0 h0 u).and key)
  rw [zero_add] at a
  refine ⟨ε • u, a, ?_⟩
  set q := p + ε • u with hq
  have e1 : ∀ᶠ w in 𝓝 (toR q), ∀ e ∈ E, crossingR w e.1 e.2 = crossingR (toR q) e.1 e.2 := by
    clear_value E
    clear hE hne hu hc key
    induction E with
    | nil => simp
    | cons a E ih =>
      have ha := b a List.mem_cons_self
      filter_upwards [crossingR_near a (toR q) ⟨fun h => ha.1 (Rat.cast_injective (α := ℝ) h),
        fun h => ha.2.1 (Rat.cast_injective (α := ℝ) h), by
        rw [orientR_toR]; exact_mod_cast ha.2.2⟩, ih fun e he => b e (List.mem_cons_of_mem _ he)] with w h1 h2 e he
      rcases List.mem_cons.1 he with rfl | he
      · exact h1.1
      · exact h2 e he
  filter_upwards [e1] with w hw g hg
  have hN : Near E w q := fun e he => ⟨by rw [hw e he, crossingR_toR], (b e he).2.2⟩
  exact hN.region (hgs g hg) fun e he => List.mem_flatMap.2 ⟨g, hg, he⟩

/-- A property of almost all real points holds for a real point that sees all geoms as a point nearby does. -/
theorem ae_witness {gs : List Geom2D} (hgs : ∀ g ∈ gs, Geom2D.WellMade g) (p : Pt) {P : Pt → Prop} (hP : Stable P)
    (h0 : P 0) {A : ℝ × ℝ → Prop} (hA : ∀ᵐ z : ℝ × ℝ, A z) :
    ∃ v z, P v ∧ A z ∧ ∀ g ∈ gs, (z ∈ Geom2D.region g ↔ Geom2D.locate g (p + v) = .ok 1) := by
  obtain ⟨v, v1, v2⟩ := real_witness gs hgs p hP h0
  obtain ⟨U, hU, hUo, hqU⟩ := mem_nhds_iff.1 v2
  have hpos := hUo.measure_pos (volume : Measure (ℝ × ℝ)) ⟨_, hqU⟩
  by_contra hc
  push Not at hc
  refine hpos.ne' (measure_mono_null (fun w hw => ?_) hA)
  intro hAw
  obtain ⟨g, hg, h'⟩ := hc v w v1 hAw
  have := hU hw g hg
  tauto

theorem region_has {a b : Geom2D} (ha : a.WellMade) (hb : b.WellMade)
    (h : ∀ᵐ z : ℝ × ℝ, z ∈ a.region → z ∈ b.region) {p : Pt} (hp : Geom2D.locate a p = .ok 1) : b.Has p := by
  by_contra hc
  obtain ⟨v, z, ⟨v1, v2⟩, hA, hz⟩ := ae_witness (gs := [a, b]) (pair_wellMade ha hb) p
    ((stable_inside ha p).and (stable_outside hb p)) (by rw [add_zero]; exact ⟨hp, (not_has hb p).1 hc⟩) h
  have := (hz b (by simp)).1 (hA ((hz a (by simp)).2 v1))
  rw [v2] at this
  cases this

theorem region_apart {a b : Geom2D} (ha : a.WellMade) (hb : b.WellMade)
    (h : ∀ᵐ z : ℝ × ℝ, ¬ (z ∈ a.region ∧ z ∈ b.region)) (p : Pt) :
    ¬ (Geom2D.locate a p = .ok 1 ∧ Geom2D.locate b p = .ok 1) := by
  intro hc
  obtain ⟨v, z, ⟨v1, v2⟩, hA, hz⟩ := ae_witness (gs := [a, b]) (pair_wellMade ha hb) p
    ((stable_inside ha p).and (stable_inside hb p)) (by rw [add_zero]; exact hc) h
  exact hA ⟨(hz a (by simp)).2 v1, (hz b (by simp)).2 v2⟩

end Ply
