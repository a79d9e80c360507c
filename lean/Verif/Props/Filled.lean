import Verif.Props.Extent

/-!
# C91: what is decided for a side of a joint is filled

What a sheet loses of its fresh allowed area during a run is given to the other side of a joint, is loose, or is
next to a place that only the other side of a joint could have.  So a finger is cut in full but for such parts.
-/

namespace Ply

open Filter Topology MeasureTheory Set Geom1D Arr

/-- Rational points next to almost every real point see all edges as it does. -/
theorem near_close (gs : List Geom2D) (hg : ∀ g ∈ gs, Geom2D.WellMade g) {ε : ℝ} (hε : 0 < ε) :
    ∀ᵐ z : ℝ × ℝ, ∃ p : Pt, Near (gs.flatMap Geom2D.allSegments) z p ∧ |z.1 - p.1| < ε ∧ |z.2 - p.2| < ε := by
  have hE := Arr.segments_ne gs hg
  generalize gs.flatMap Geom2D.allSegments = E at hE
  have : ∀ᵐ z : ℝ × ℝ, ∀ e ∈ E, z.2 ≠ e.1.2 ∧ z.2 ≠ e.2.2 ∧ orientR e.1 e.2 z ≠ 0 := by
    induction E with
    | nil => simp
    | cons a E ih =>
      filter_upwards [generic_edge a (hE a List.mem_cons_self), ih fun e he => hE e (List.mem_cons_of_mem _ he)] with z h1 h2 e he
      rcases List.mem_cons.1 he with rfl | he
      · exact h1
      · exact h2 e he
  filter_upwards [this] with z hz
  have ev : ∀ᶠ w in nhds z, ∀ e ∈ E, crossingR w e.1 e.2 = crossingR z e.1 e.2 ∧ orientR e.1 e.2 w ≠ 0 := by
    clear this hE
    induction E with
    | nil => simp
    | cons a E ih =>
      filter_upwards [crossingR_near a z (hz a List.mem_cons_self), ih fun e he => hz e (List.mem_cons_of_mem _ he)] with w h1 h2 e he
      rcases List.mem_cons.1 he with rfl | he
      · exact h1
      · exact h2 e he
  have e1 : ∀ᶠ w : ℝ × ℝ in nhds z, |z.1 - w.1| < ε := by
    have : Continuous fun w : ℝ × ℝ => |z.1 - w.1| := by fun_prop
    exact this.continuousAt.eventually_lt continuousAt_const (by simpa using hε)
  have e2 : ∀ᶠ w : ℝ × ℝ in nhds z, |z.2 - w.2| < ε := by
    have : Continuous fun w : ℝ × ℝ => |z.2 - w.2| := by fun_prop
    exact this.continuousAt.eventually_lt continuousAt_const (by simpa using hε)
  have hd : Dense (range toR) := by
    have : range toR = (range ((↑) : ℚ → ℝ)) ×ˢ (range ((↑) : ℚ → ℝ)) := by
      ext z
      simp only [mem_range, mem_prod, toR]
      constructor
      · rintro ⟨p, rfl⟩; exact ⟨⟨p.1, rfl⟩, ⟨p.2, rfl⟩⟩
      · rintro ⟨⟨a, ha⟩, ⟨b, hb⟩⟩; exact ⟨(a, b), Prod.ext ha hb⟩
    rw [this]
    exact Rat.denseRange_cast.prod Rat.denseRange_cast
  obtain ⟨w, ⟨p, rfl⟩, hw, c1, c2⟩ := (mem_closure_iff_frequently.1 (hd z)).and_eventually (ev.and (e1.and e2)) |>.exists
  refine ⟨p, fun e he => ?_, c1, c2⟩
  obtain ⟨h1, h2⟩ := hw e he
  rw [crossingR_toR] at h1
  rw [orientR_toR] at h2
  exact ⟨h1, by exact_mod_cast h2⟩

theorem stable_close {δ : ℚ} : Stable fun v => |v.1| < δ ∧ |v.2| < δ := by
  intro v ⟨h1, h2⟩ u
  have key : ∀ a b : ℚ, |a| < δ → ∀ᶠ ε in 𝓝[>] (0 : ℚ), |a + ε * b| < δ := by
    intro a b hab
    have c : Continuous fun ε : ℚ => |a + ε * b| := by fun_prop
    exact (c.continuousAt.eventually_lt continuousAt_const (by simpa using hab)).filter_mono nhdsWithin_le_nhds
  filter_upwards [key v.1 u.1 h1, key v.2 u.2 h2] with ε k1 k2
  exact ⟨by simpa using k1, by simpa using k2⟩

/-- Next to every point of a geom there are real points of it, and such that have what almost all points have. -/
theorem has_close {g : Geom2D} (hg : g.Fine) {y : Pt} (hy : g.Has y) {A : ℝ × ℝ → Prop} (hA : ∀ᵐ z : ℝ × ℝ, A z)
    {ε : ℚ} (hε : 0 < ε) : ∃ w, A w ∧ w ∈ g.region ∧ |(y.1 : ℝ) - w.1| < ε ∧ |(y.2 : ℝ) - w.2| < ε := by
  have hm := hg.proper.made
  obtain ⟨v, ⟨v1, v2⟩, v3⟩ : ∃ v : Pt, (|v.1| < ε / 2 ∧ |v.2| < ε / 2) ∧ Geom2D.locate g (y + v) = .ok 1 := by
    rcases (hg.crisp.has hm y).1 hy with h | h
    · exact ⟨0, by simpa using half_pos hε, by rwa [add_zero]⟩
    · exact (hg.crisp.near hm h (stable_close (δ := ε / 2)) (by simpa using half_pos hε)).1
  obtain ⟨u, ⟨u1, u2, u3⟩, hu⟩ := real_witness [g] (by simpa using hm) (y + v)
    ((stable_inside hm (y + v)).and (stable_close (δ := ε / 4))) (by
      rw [add_zero]
      refine ⟨v3, ?_, ?_⟩ <;> simpa using hε)
  set q := y + v + u with hq
  have e1 : ∀ᶠ w : ℝ × ℝ in nhds (toR q), |(q.1 : ℝ) - w.1| < ε / 4 := by
    have : Continuous fun w : ℝ × ℝ => |(q.1 : ℝ) - w.1| := by fun_prop
    refine this.continuousAt.eventually_lt continuousAt_const ?_
    simpa [toR] using hε
  have e2 : ∀ᶠ w : ℝ × ℝ in nhds (toR q), |(q.2 : ℝ) - w.2| < ε / 4 := by
    have : Continuous fun w : ℝ × ℝ => |(q.2 : ℝ) - w.2| := by fun_prop
    refine this.continuousAt.eventually_lt continuousAt_const ?_
    simpa [toR] using hε
  obtain ⟨U, hU, hUo, hqU⟩ := mem_nhds_iff.1 (hu.and (e1.and e2))
  have hpos := hUo.measure_pos (volume : Measure (ℝ × ℝ)) ⟨_, hqU⟩
  obtain ⟨w, hw, hAw⟩ : ∃ w ∈ U, A w := by
    by_contra hc
    push Not at hc
    exact hpos.ne' (measure_mono_null (fun w hw => hc w hw) hA)
  obtain ⟨k1, k2, k3⟩ := hU hw
  refine ⟨w, hAw, (k1 g (by simp)).2 u1, ?_, ?_⟩
  · have a1 : |(v.1 : ℝ)| < (ε : ℝ) / 2 := by exact_mod_cast v1
    have a2 : |(u.1 : ℝ)| < (ε : ℝ) / 4 := by exact_mod_cast u2
    have e : (q.1 : ℝ) = y.1 + v.1 + u.1 := by rw [hq]; push_cast [Prod.fst_add]; ring
    rw [e] at k2
    rw [abs_lt] at *
    constructor <;> linarith [k2.1, k2.2, a1.1, a1.2, a2.1, a2.2]
  · have a1 : |(v.2 : ℝ)| < (ε : ℝ) / 2 := by exact_mod_cast v2
    have a2 : |(u.2 : ℝ)| < (ε : ℝ) / 4 := by exact_mod_cast u3
    have e : (q.2 : ℝ) = y.2 + v.2 + u.2 := by rw [hq]; push_cast [Prod.snd_add]; ring
    rw [e] at k3
    rw [abs_lt] at *
    constructor <;> linarith [k3.1, k3.2, a1.1, a1.2, a2.1, a2.2]

/-- Growing a geom by 2/1000 adds nothing farther than 3/1000 from it in a coordinate. -/
theorem grown_close {ch : Choices} {sq : ℚ → ℚ} (hch : ch.Valid) (hsq : RootLike sq) (hone : sq 1 = 1) {g r : Geom2D}
    (hg : g.Fine) (hr : r.Fine) (h : Geom2D.bufferBy (arrangementOp ch) sq g (2 / 1000) = .ok r) {A : ℝ × ℝ → Prop}
    (hA : ∀ᵐ z : ℝ × ℝ, A z) :
    ∀ᵐ z : ℝ × ℝ, z ∈ r.region → ∃ w, A w ∧ w ∈ g.region ∧ |z.1 - w.1| < 3 / 1000 ∧ |z.2 - w.2| < 3 / 1000 := by
  filter_upwards [near_close [r] (by simpa using hr.proper.made) (ε := 1 / 20000) (by norm_num)] with z hz hzr
  obtain ⟨p, hN, c1, c2⟩ := hz
  have hp : Geom2D.locate r p = .ok 1 := (hN.region hr.proper.made fun e he => by simpa using he).1 hzr
  obtain ⟨y, hy, hd⟩ := c71_far ch hch hsq hg h hone (by norm_num) (Or.inl hp)
  obtain ⟨w, w1, w2, w3, w4⟩ := has_close hg hy hA (ε := 1 / 20000) (by norm_num)
  have hmax : max 1 (2 / sq 2 ^ 2) ≤ 2 := by
    have := hsq.lt
    rw [hone] at this
    refine max_le (by norm_num) ?_
    rw [div_le_iff₀ (by positivity)]
    nlinarith
  have hd' : dist2 p y ≤ (283 / 100000) ^ 2 := by
    refine hd.trans ?_
    calc (2 / 1000 : ℚ) ^ 2 * max 1 (2 / sq 2 ^ 2) ≤ (2 / 1000) ^ 2 * 2 := by gcongr
      _ ≤ _ := by norm_num
  unfold dist2 at hd'
  have b1 : |p.1 - y.1| ≤ 283 / 100000 := abs_le_of_sq_le_sq (by nlinarith [sq_nonneg (p.2 - y.2)]) (by norm_num)
  have b2 : |p.2 - y.2| ≤ 283 / 100000 := abs_le_of_sq_le_sq (by nlinarith [sq_nonneg (p.1 - y.1)]) (by norm_num)
  have cast : ∀ a b : ℚ, |a - b| ≤ 283 / 100000 → |(a : ℝ) - b| ≤ 283 / 100000 := by
    intro a b hab
    have : ((|a - b| : ℚ) : ℝ) ≤ ((283 / 100000 : ℚ) : ℝ) := by exact_mod_cast hab
    push_cast at this
    exact this
  have b1' := cast _ _ b1
  have b2' := cast _ _ b2
  refine ⟨w, w1, w2, ?_, ?_⟩
  · push_cast at w3
    rw [abs_lt] at *
    rw [abs_le] at b1'
    constructor <;> linarith [c1.1, c1.2, w3.1, w3.2, b1'.1, b1'.2]
  · push_cast at w4
    rw [abs_lt] at *
    rw [abs_le] at b2'
    constructor <;> linarith [c2.1, c2.2, w4.1, w4.2, b2'.1, b2'.2]

/-- Growing a geom without islands reaches the points within the inner radius of the octagon. -/
theorem grown_reach {ch : Choices} {sq : ℚ → ℚ} (hch : ch.Valid) (hsq : RootLike sq) (hone : sq 1 = 1) {g r : Geom2D}
    (hg : g.Fine) (hr : r.Fine) {amount : ℚ} (h0 : 0 < amount) (hn : g.NoIslands)
    (h : Geom2D.bufferBy (arrangementOp ch) sq g amount = .ok r) :
    ∀ᵐ z : ℝ × ℝ, ∀ y : Pt, g.Has y →
      ((z.1 - y.1) ^ 2 + (z.2 - y.2) ^ 2) * (1 + ((sq 2 : ℝ) - 1) ^ 2) < (amount : ℝ) ^ 2 → z ∈ r.region := by
  have key : ∀ᵐ z : ℝ × ℝ, ∀ n : ℕ, ∃ p : Pt, Near ([r].flatMap Geom2D.allSegments) z p ∧ |z.1 - p.1| < 1 / ((n : ℝ) + 1) ∧
      |z.2 - p.2| < 1 / ((n : ℝ) + 1) :=
    ae_all_iff.2 fun n => near_close [r] (by simpa using hr.proper.made) (by positivity)
  filter_upwards [key] with z hz y hy hd
  have cont : Continuous fun w : ℝ × ℝ => ((w.1 - y.1) ^ 2 + (w.2 - y.2) ^ 2) * (1 + ((sq 2 : ℝ) - 1) ^ 2) := by fun_prop
  obtain ⟨δ, hδ, hball⟩ := Metric.eventually_nhds_iff.1 (cont.continuousAt.eventually_lt continuousAt_const hd)
  obtain ⟨n, hnδ⟩ := exists_nat_one_div_lt hδ
  obtain ⟨p, hN, c1, c2⟩ := hz n
  have hp := hball (y := toR p) (by
    rw [Prod.dist_eq, Real.dist_eq, Real.dist_eq, abs_sub_comm, abs_sub_comm (toR p).2]
    exact max_lt (c1.trans hnδ) (c2.trans hnδ))
  have hd' : dist2 p y * (1 + (sq 2 - 1) ^ 2) ≤ amount ^ 2 := by
    have : ((p.1 : ℝ) - y.1) ^ 2 + ((p.2 : ℝ) - y.2) ^ 2 = ((dist2 p y : ℚ) : ℝ) := by unfold dist2; push_cast; rfl
    unfold toR at hp
    dsimp only at hp
    rw [this] at hp
    exact_mod_cast hp.le
  have sub : ∀ e ∈ Geom2D.allSegments r, e ∈ [r].flatMap Geom2D.allSegments := fun e he => by simpa using he
  rw [hN.region hr.proper.made sub]
  refine ((hr.crisp.has hr.proper.made p).1 (c71_near ch hch hsq hg h hone h0 hn hy hd')).resolve_right fun hc => ?_
  obtain ⟨e, he, hx⟩ := (onEdge_iff r p).2 hc
  exact hN.off ⟨e, sub e he, hx⟩

/-! ### What a sheet loses -/

/-- A place of a sheet on a joint that the other side may have and no side of the sheet may have. -/
def OnlyOther (sb : SheetBuild Geom2D) (k : Name) (w : ℝ × ℝ) : Prop :=
  (∃ s t, Joint sb.sheetplex s t ∧ s.sheet = k ∧ w ∈ s.strip (pts sb.interOk t.id)) ∧
  ∀ s t, Joint sb.sheetplex s t → s.sheet = k → w ∉ s.strip (pts sb.interOk s.id)

/-- A place of a sheet in a connected piece of what the sheet may have that is off what both faces have. -/
def LooseAt (o : G2Ops Geom2D) (geoms : Name → SheetGeoms Geom2D) (sb : SheetBuild Geom2D) (k : Name) (z : ℝ × ℝ) : Prop :=
  ∃ c ok possible q, sb.sheetChosen.get? k = some c ∧ sb.sheetOk.get? k = some ok ∧ o.or c ok = .ok possible ∧
    q ∈ o.polygons possible ∧ z ∈ q.region ∧
    ∀ᵐ x : ℝ × ℝ, ¬ (x ∈ q.region ∧ x ∈ (geoms k).face0.region ∧ x ∈ (geoms k).face1.region)

/-- The reasons for which a place of a sheet may have been forbidden between two states. -/
def Lost (o : G2Ops Geom2D) (geoms : Name → SheetGeoms Geom2D) (sb sb' : SheetBuild Geom2D) (k : Name) (z : ℝ × ℝ) : Prop :=
  (∃ s t, Joint sb'.sheetplex s t ∧ s.sheet = k ∧ z ∈ s.strip (pts sb'.interChosen t.id)) ∨
  (∃ mid, Trace o geoms sb mid ∧ Trace o geoms mid sb' ∧ LooseAt o geoms mid k z) ∨
  ∃ mid, Trace o geoms sb mid ∧ Trace o geoms mid sb' ∧
    ∃ w, OnlyOther mid k w ∧ |z.1 - w.1| < 3 / 1000 ∧ |z.2 - w.2| < 3 / 1000

theorem Lost.before {o : G2Ops Geom2D} {geoms : Name → SheetGeoms Geom2D} {a b c : SheetBuild Geom2D} {k : Name}
    {z : ℝ × ℝ} (h : Trace o geoms a b) (hl : Lost o geoms b c k z) : Lost o geoms a c k z := by
  rcases hl with hl | ⟨m, h1, h2, h3⟩ | ⟨m, h1, h2, h3⟩
  · exact Or.inl hl
  · exact Or.inr (Or.inl ⟨m, h.trans h1, h2, h3⟩)
  · exact Or.inr (Or.inr ⟨m, h.trans h1, h2, h3⟩)

theorem Lost.after {o : G2Ops Geom2D} (hpm : ProjectMade o) {geoms : Name → SheetGeoms Geom2D} {a b c : SheetBuild Geom2D}
    {k : Name} {z : ℝ × ℝ} (hb : Excl b) (h : Trace o geoms b c) (hl : Lost o geoms a b k z) : Lost o geoms a c k z := by
  have st := Trace.step hpm hb h
  rcases hl with ⟨s, t, h1, h2, h3⟩ | ⟨m, h1, h2, h3⟩ | ⟨m, h1, h2, h3⟩
  · exact Or.inl ⟨s, t, by rw [st.plex]; exact h1, h2, strip_mono s (st.chosen _) h3⟩
  · exact Or.inr (Or.inl ⟨m, h1, h2.trans h, h3⟩)
  · exact Or.inr (Or.inr ⟨m, h1, h2.trans h, h3⟩)

section

variable {ch : Choices} {sq : ℚ → ℚ} (hch : ch.Valid) (hsq : RootLike sq)
include hch

/-- The areas that `update_sheet_ok` collects from the sides of a sheet. -/
theorem onSides_strips {sb : SheetBuild Geom2D} (hg : Good Geom2D.Fine sb) (hp : sb.sheetplex.SidesProper) :
    ∀ (ss : List InterSide), (∀ s ∈ ss, sb.sheetplex.interside s.id = .ok s) → ∀ (a b : Geom2D) (r : Geom2D × Geom2D),
    a.Fine → b.Fine → Heu.onSides (codeOps ch sq) sb ss a b = .ok r →
    (∀ᵐ z : ℝ × ℝ, z ∈ r.1.region → z ∈ a.region ∨ ∃ s ∈ ss, ∃ t, Joint sb.sheetplex s t ∧
      z ∈ s.strip (pts sb.interOk s.id ∪ pts sb.interOk t.id)) ∧
    ∀ᵐ z : ℝ × ℝ, (z ∈ b.region ∨ ∃ s ∈ ss, z ∈ s.strip (pts sb.interOk s.id)) → z ∈ r.2.region
  | [], _, a, b, r, ha, hb, h => by
    cases h
    exact ⟨Eventually.of_forall fun z hz => Or.inl hz, Eventually.of_forall fun z hz => by simpa using hz⟩
  | s :: ss, hss, a, b, r, ha, hb, h => by
    have L := fine_lawful ch hch (Geom2D.bufferBy (arrangementOp ch) sq)
    rw [Heu.onSides, bind_ok] at h; obtain ⟨opp, a1, h⟩ := h
    rw [bind_ok] at h; obtain ⟨ok, a2, h⟩ := h
    rw [bind_ok] at h; obtain ⟨f, a3, h⟩ := h
    rw [bind_ok] at h; obtain ⟨b', a4, h⟩ := h
    rw [bind_ok] at h; obtain ⟨ok2, a5, h⟩ := h
    rw [bind_ok] at h; obtain ⟨u, a6, h⟩ := h
    rw [bind_ok] at h; obtain ⟨g, a7, h⟩ := h
    rw [bind_ok] at h; obtain ⟨a', a8, h⟩ := h
    have hs := hss s List.mem_cons_self
    have m1 := made_of_get hg.madeO a2
    have m2 := made_of_get hg.madeO a5
    obtain ⟨u', o1, o2, pu⟩ := or_denotes m1.nf m2.nf
    rw [a6] at o1
    cases o1
    have mu := (made_iff_nf _).2 o2
    have vf := L.fingers _ _ _ m1 a3
    have vg := L.fingers _ _ _ mu a7
    obtain ⟨va, da⟩ := L.or _ _ _ ha vg a8
    obtain ⟨vb, db⟩ := L.or _ _ _ hb vf a4
    have sf := c37_area ch hch s (hp _ _ hs) ok m1 f a3
    have sg := c37_area ch hch s (hp _ _ hs) u mu g a7
    rw [← pts_of_get a2] at sf
    rw [pu, ← pts_of_get a2, ← pts_of_get a5] at sg
    obtain ⟨i1, i2⟩ := onSides_strips hg hp ss (fun s h => hss s (List.mem_cons_of_mem _ h)) a' b' r va vb h
    constructor
    · filter_upwards [i1, da, sg] with z z1 z2 z3 hz
      rcases z1 hz with hz | ⟨s', h1, h2⟩
      · rcases z2.1 hz with hz | hz
        · exact Or.inl hz
        · exact Or.inr ⟨s, List.mem_cons_self, opp, ⟨hs, a1⟩, z3.1 hz⟩
      · exact Or.inr ⟨s', List.mem_cons_of_mem _ h1, h2⟩
    · filter_upwards [i2, db, sf] with z z1 z2 z3 hz
      refine z1 ?_
      rcases hz with hz | ⟨s', h1, h2⟩
      · exact Or.inl (z2.2 (Or.inl hz))
      · rcases List.mem_cons.1 h1 with rfl | h1
        · exact Or.inl (z2.2 (Or.inr (z3.2 h2)))
        · exact Or.inr ⟨s', h1, h2⟩

include hsq

theorem Lost.prim (hone : sq 1 = 1) {geoms : Name → SheetGeoms Geom2D} (hgm : ValidGeoms Geom2D.Fine geoms)
    {sb sb' : SheetBuild Geom2D} (hg : Good Geom2D.Fine sb) (hp : sb.sheetplex.SidesProper)
    (hprim : Prim (codeOps ch sq) geoms sb sb') (k : Name) :
    ∀ᵐ z : ℝ × ℝ, z ∈ dens Geom2D.region sb.sheetOk k →
      z ∈ dens Geom2D.region sb'.sheetOk k ∨ Lost (codeOps ch sq) geoms sb sb' k z := by
  have L := fine_lawful ch hch (Geom2D.bufferBy (arrangementOp ch) sq)
  have tr : Trace (codeOps ch sq) geoms sb sb' := .single hprim
  cases hprim with
  | choose id v hv h =>
    obtain ⟨s, t, hef⟩ := choose_effect _ sb sb' hg.madeC hg.madeO id v hv false h
    obtain ⟨F, c, both, a, f1, f2, f3, f4, f5, f6⟩ := hef.sheetOk
    obtain ⟨-, k2, k3⟩ := subGeom_2d L sb.sheetOk sb'.sheetOk hg.validO t.sheet F (L.fingers t v F hv f1) f6
    have hid := (interside_spec _ hg.paired id s hef.here).1
    have hj : Joint sb.sheetplex s t := ⟨by rw [hid]; exact hef.here, hef.opp⟩
    have hj' := (hj.symm hg.paired).1
    by_cases hk : k = t.sheet
    · subst hk
      filter_upwards [k2, c37_area ch hch t (hp _ _ hj'.1) v hv F f1] with z z1 z2 hz
      by_cases hF : z ∈ F.region
      · refine Or.inr (Or.inl ⟨t, s, by rw [hef.plex]; exact hj', rfl, strip_mono t ?_ (z2.1 hF)⟩)
        rw [hef.chosen, if_pos hid]
        exact subset_union_right
      · exact Or.inl (z1.2 ⟨hz, hF⟩)
    · unfold dens
      rw [k3 k hk]
      exact Eventually.of_forall fun _ hx => Or.inl hx
  | unchoose id v hv h =>
    obtain ⟨-, -, h3, -⟩ := unchoose_effect sb sb' hg.paired hg.madeC hg.madeO id v hv h
    rw [h3]
    exact Eventually.of_forall fun _ hx => Or.inl hx
  | loose e h =>
    obtain ⟨-, h2, c, ok, possible, qs, q1, q2, q3, q4, q5, q6, -⟩ :=
      c52_loose_sheet L (fine_area _ _) (fine_polygons ch hch _) geoms hgm e sb sb' hg h
    by_cases hk : k = e.2.id
    · subst hk
      filter_upwards [q5] with z z1 hz
      by_cases hq : ∃ q ∈ qs, z ∈ q.region
      · obtain ⟨q, hq, hzq⟩ := hq
        exact Or.inr (Or.inr (Or.inl ⟨sb, .refl, tr, c, ok, possible, q, q1, q2, q3, q4.subset hq, hzq, (q6 q hq).1⟩))
      · push Not at hq
        refine Or.inl (z1.2 ⟨?_, hq⟩)
        unfold dens at hz
        rw [q2] at hz
        exact hz
    · unfold dens
      rw [h2 k hk]
      exact Eventually.of_forall fun _ hx => Or.inl hx
  | inter s h =>
    obtain ⟨h1, -⟩ := interOkAt_effect code_project sb sb' hg.madeO s h
    rw [h1]
    exact Eventually.of_forall fun _ hx => Or.inl hx
  | sheet e h =>
    have hs := h
    unfold Heu.sheetOkAt at hs
    rw [bind_ok] at hs; obtain ⟨r, a1, hs⟩ := hs
    rw [bind_ok] at hs; obtain ⟨d, a2, hs⟩ := hs
    rw [bind_ok] at hs; obtain ⟨bf, a3, hs⟩ := hs
    rw [bind_ok] at hs; obtain ⟨c, a4, hs⟩ := hs
    rw [bind_ok] at hs; obtain ⟨w, a5, hs⟩ := hs
    obtain ⟨v1, v2⟩ := onSides_valid L sb hg _ _ _ r L.empty.1 L.empty.1 a1
    obtain ⟨vd, dd⟩ := L.sub _ _ _ v1 v2 a2
    have vb := code_buffer hch hsq _ _ _ vd a3
    rw [PMap.get_ok] at a4
    obtain ⟨vw, dw⟩ := L.sub _ _ _ vb (hg.validC _ _ a4) a5
    obtain ⟨_, _, _, _, _, _, _, u6, -⟩ := unchooseArea_effect _ sb sb' _ _ hs
    obtain ⟨-, k2, k3⟩ := subGeom_2d L sb.sheetOk sb'.sheetOk hg.validO e.2.id w vw u6
    by_cases hk : k = e.2.id
    · subst hk
      have mem := (paired_intersides sb.sheetplex hg.paired _ (List.Perm.refl _) e.2.id).1
      obtain ⟨o1, o2⟩ := onSides_strips hch hg hp (Heu.sidesOf sb.sheetplex e.2.id) (fun s hs => ((mem s).1 hs).2) _ _ r
        L.empty.1 L.empty.1 a1
      have hA : ∀ᵐ x : ℝ × ℝ, x ∈ d.region → OnlyOther sb e.2.id x := by
        filter_upwards [o1, o2, dd, L.empty.2] with x x1 x2 x3 x4 hx
        obtain ⟨y1, y2⟩ := x3.1 hx
        have own : ∀ s t, Joint sb.sheetplex s t → s.sheet = e.2.id → x ∉ s.strip (pts sb.interOk s.id) :=
          fun s t hj hs hc => y2 (x2 (Or.inr ⟨s, (mem s).2 ⟨hs, hj.1⟩, hc⟩))
        refine ⟨?_, own⟩
        rcases x1 y1 with hc | ⟨s, hs, t, hj, hx⟩
        · exact absurd hc x4
        · have hsk := ((mem s).1 hs).1
          rw [strip_union] at hx
          exact ⟨s, t, hj, hsk, hx.resolve_left (own s t hj hsk)⟩
      filter_upwards [k2, dw, grown_close hch hsq hone vd vb a3 hA] with z z1 z2 z3 hz
      by_cases hw : z ∈ w.region
      · obtain ⟨x, x1, x2, x3, x4⟩ := z3 (z2.1 hw).1
        exact Or.inr (Or.inr (Or.inr ⟨sb, .refl, tr, x, x1 x2, x3, x4⟩))
      · exact Or.inl (z1.2 ⟨hz, hw⟩)
    · unfold dens
      rw [k3 k hk]
      exact Eventually.of_forall fun _ hx => Or.inl hx

/-- C91: along the elementary changes of a run, a sheet may lose an allowed place only to the other side of a joint,
as loose, or next to a place that only the other side of a joint may have. -/
theorem c91_trace (hone : sq 1 = 1) {geoms : Name → SheetGeoms Geom2D} (hgm : ValidGeoms Geom2D.Fine geoms)
    {sb sb' : SheetBuild Geom2D} (he : Excl sb) (hg : Good Geom2D.Fine sb) (hp : sb.sheetplex.SidesProper)
    (h : Trace (codeOps ch sq) geoms sb sb') (k : Name) :
    ∀ᵐ z : ℝ × ℝ, z ∈ dens Geom2D.region sb.sheetOk k →
      z ∈ dens Geom2D.region sb'.sheetOk k ∨ Lost (codeOps ch sq) geoms sb sb' k z := by
  induction h with
  | refl => exact Eventually.of_forall fun _ hx => Or.inl hx
  | @tail b c h1 h2 ih =>
    have g := Grow.trace hch hsq hgm he hg hp h1
    filter_upwards [ih, Lost.prim hch hsq hone hgm g.good (by rw [g.step.plex]; exact hp) h2 k] with z z1 z2 hz
    rcases z1 hz with hz | hz
    · exact (z2 hz).imp_right (Lost.before h1)
    · exact Or.inr (hz.after code_project g.step.inv (.single h2))

/-- C91: a fresh build allows a sheet to have its slices within the support radius of both faces (the inner radius
of the octagon). -/
theorem c91_fresh (hone : sq 1 = 1) (sp : SheetPlex) (hsp : sp.Paired) (hsh : sp.Sheeted)
    (geoms : Name → SheetGeoms Geom2D) (hgm : ValidGeoms Geom2D.Fine geoms) (rad : ℚ) (hrad : 0 < rad)
    (sb0 : SheetBuild Geom2D) (h : createSheetbuild (codeOps ch sq) sp geoms rad = .ok sb0) {e : Name × Sheet}
    (he : e ∈ sp.sheets) (hn : (geoms e.2.id).face0.NoIslands ∧ (geoms e.2.id).face1.NoIslands) :
    ∀ᵐ z : ℝ × ℝ, z ∈ (geoms e.2.id).slicesMax.region →
      (∀ face, face = (geoms e.2.id).face0 ∨ face = (geoms e.2.id).face1 → ∃ y : Pt, face.Has y ∧
        ((z.1 - y.1) ^ 2 + (z.2 - y.2) ^ 2) * (1 + ((sq 2 : ℝ) - 1) ^ 2) < (rad : ℝ) ^ 2) →
      z ∈ dens Geom2D.region sb0.sheetOk e.2.id := by
  have L := fine_lawful ch hch (Geom2D.bufferBy (arrangementOp ch) sq)
  have B := code_buffer hch hsq
  obtain ⟨-, -, -, -, -, -, -, h8⟩ := c46_fresh L B sp hsp hsh geoms hgm rad sb0 h
  obtain ⟨_, k, -, hk, hok, -, -⟩ := h8 e he
  obtain ⟨g0, g1, g2⟩ := hgm e.2.id
  unfold freshOk at hk
  rw [bind_ok] at hk; obtain ⟨e0, e1, hk⟩ := hk
  rw [bind_ok] at hk; obtain ⟨e2, e3, hk⟩ := hk
  rw [bind_ok] at hk; obtain ⟨e4, e5, hk⟩ := hk
  rw [bind_ok] at hk; obtain ⟨e6, e7, hk⟩ := hk
  have e7' : Geom2D.bufferBy (arrangementOp ch) sq (geoms e.2.id).slicesMax 0 = .ok e6 := e7
  unfold Geom2D.bufferBy at e7'
  rw [if_pos rfl] at e7'
  cases e7'
  have v0 := B _ _ _ g0 e1
  have v1 := B _ _ _ g1 e3
  obtain ⟨va, da⟩ := L.and _ _ _ v0 v1 e5
  obtain ⟨-, dk⟩ := L.and _ _ _ va g2 hk
  filter_upwards [da, dk, grown_reach hch hsq hone g0 v0 hrad hn.1 e1, grown_reach hch hsq hone g1 v1 hrad hn.2 e3]
    with z z1 z2 z3 z4 hz hf
  obtain ⟨y0, a1, a2⟩ := hf _ (Or.inl rfl)
  obtain ⟨y1, b1, b2⟩ := hf _ (Or.inr rfl)
  unfold dens
  rw [hok]
  exact z2.2 ⟨z1.2 ⟨z3 y0 a1 a2, z4 y1 b1 b2⟩, hz⟩

end

/-! ### Successful runs -/

section

variable {ch : Choices} {sq : ℚ → ℚ} (hch : ch.Valid) (hsq : RootLike sq) (hone : sq 1 = 1)
  (p : Canned.Params Geom2D) (ho : p.o = codeOps ch sq) (hp : p.Valid) (hgm : ValidGeoms Geom2D.Fine p.geoms)
  (sp : SheetPlex) (hsp : sp.Paired) (hsh : sp.Sheeted) (hpr : sp.SidesProper) (rof : Option Bool)
  (r : Canned.Result Geom2D) (h : Canned.run p sp none rof = .ok r) (hr : r.ok = true)
include hch hsq hone ho hp hgm hsp hsh hpr h hr

/-- C91 for a successful run: wherever the fresh build allowed a sheet to have material, the chosen fingers of the
sheet are cut, but for what is also a chosen finger of the other side of a joint, what was loose at some time, and
what was next to a place that only the other side of a joint could have at some time. -/
theorem c91_run : ∃ sb0 sb1, createSheetbuild (codeOps ch sq) sp p.geoms p.supportRadius = .ok sb0 ∧
    r.history[0]? = some sb0 ∧ Trace (codeOps ch sq) p.geoms sb0 sb1 ∧
    sb1.interChosen = r.sheetbuild.interChosen ∧ sb1.sheetplex = sp ∧
    ∀ k, ∀ᵐ z : ℝ × ℝ, z ∈ fingersOn r.sheetbuild k → z ∈ dens Geom2D.region sb0.sheetOk k →
      z ∈ dens Geom2D.region r.sheetCuts k ∨ Lost (codeOps ch sq) p.geoms sb0 sb1 k z := by
  obtain ⟨sb0, sb1, h1, h2, h3, h4, h5, h6⟩ := Canned.run_trace p hp sp hsp rof r h hr
  obtain ⟨c1, c2, c3, -⟩ := Canned.c66_run p hp sp hsp rof r h hr
  rw [ho] at h1 h5 h6
  obtain ⟨f1, f2, g0, f4, -⟩ := c46_fresh (fine_lawful ch hch _) (code_buffer hch hsq) sp hsp hsh p.geoms hgm _ sb0 h1
  have hp0 : sb0.sheetplex.SidesProper := by rw [h4]; exact hpr
  have g := Grow.trace hch hsq hgm h3 g0 hp0 h5
  obtain ⟨o1, -, -⟩ := c52_clean_2d hch hsq sb1 r.sheetbuild g.good h6
  unfold OnlySheetOk at o1
  refine ⟨sb0, sb1, h1, h2, h5, by rw [o1], g.step.plex.trans h4, fun k => ?_⟩
  have e : fingersOn r.sheetbuild k = fingersOn sb1 k := by
    unfold fingersOn
    rw [o1]
  have e' : r.sheetbuild.sheetChosen = sb1.sheetChosen := by rw [o1]
  rw [c2, e, e']
  filter_upwards [g.fill k, c91_trace hch hsq hone hgm h3 g0 hp0 h5 k] with z z1 z2 hz hz0
  rcases z2 hz0 with hok | hl
  · refine Or.inl ((z1 hz hok).resolve_right ?_)
    rintro ⟨s, k1, -, k3⟩
    obtain ⟨c, hcs⟩ := f4.chosen s.id s k1
    have he := (f2.nothing _ _ hcs).2
    have : pts sb0.interChosen s.id = ∅ := by
      unfold pts
      rw [hcs]
      dsimp only
      rw [he, pointsOf_nil]
    rw [this] at k3
    obtain ⟨q, hq, -⟩ := (mem_strip _ _ _).1 k3
    exact hq
  · exact Or.inr hl

/-- C91 for a successful run, in terms of the input: a chosen finger of a sheet is cut where the sheet has material
in a slice and within the support radius of both faces, but for what is lost as above. -/
theorem c91_fingers (hrad : 0 < p.supportRadius) : ∃ sb0 sb1, createSheetbuild (codeOps ch sq) sp p.geoms p.supportRadius = .ok sb0 ∧
    Trace (codeOps ch sq) p.geoms sb0 sb1 ∧ sb1.interChosen = r.sheetbuild.interChosen ∧ sb1.sheetplex = sp ∧
    ∀ e ∈ sp.sheets, (p.geoms e.2.id).face0.NoIslands ∧ (p.geoms e.2.id).face1.NoIslands →
    ∀ᵐ z : ℝ × ℝ, z ∈ fingersOn r.sheetbuild e.2.id → z ∈ (p.geoms e.2.id).slicesMax.region →
      (∀ face, face = (p.geoms e.2.id).face0 ∨ face = (p.geoms e.2.id).face1 → ∃ y : Pt, face.Has y ∧
        ((z.1 - y.1) ^ 2 + (z.2 - y.2) ^ 2) * (1 + ((sq 2 : ℝ) - 1) ^ 2) < (p.supportRadius : ℝ) ^ 2) →
      z ∈ dens Geom2D.region r.sheetCuts e.2.id ∨ Lost (codeOps ch sq) p.geoms sb0 sb1 e.2.id z := by
  obtain ⟨sb0, sb1, h1, -, h3, h4, h5, h6⟩ := c91_run hch hsq hone p ho hp hgm sp hsp hsh hpr rof r h hr
  refine ⟨sb0, sb1, h1, h3, h4, h5, fun e he hn => ?_⟩
  filter_upwards [h6 e.2.id, c91_fresh hch hsq hone sp hsp hsh p.geoms hgm _ hrad sb0 h1 he hn] with z z1 z2 k1 k2 k3
  exact z1 k1 (z2 k2 k3)

end

end Ply
