import Verif.Proofs.TotalRings
import Verif.Props.Total

/-!
# Fingers are always made; operations on rings that do not touch never raise
-/

namespace Ply

open Arr Filter Topology
open Geom1D (Made)

/-! ### `union` is right at every point (C78) -/

/-- C78: a point is in the union of any number of geoms or on its edges if and only if this holds for one of them. -/
theorem c78_union (ch : Choices) (hch : ch.Valid) (gs : List Geom2D) (hg : ∀ g ∈ gs, Geom2D.Fine g) (fuel : ℕ)
    (hf : gs.length + 4 ≤ fuel) {r : Geom2D} (h : Geom2D.union (arrangementOp ch) fuel gs = .ok r) (p : Pt) :
    r.Has p ↔ ∃ g ∈ gs, Geom2D.Has g p := by
  have hr := union_fine ch hch fuel gs (fun g h => (hg g h).usable) r h
  obtain ⟨-, -, h3⟩ := union_sound _ (arrangementOp_sound ch hch) gs (fun g h => (hg g h).proper.made) fuel hf r h
  have off : ∀ x, ¬ OnAny (gs.flatMap Geom2D.allSegments) x → ∀ g ∈ gs, ¬ Geom2D.OnEdge g x := fun x hx g hg' hc =>
    hx ((onAny_flat gs x).2 ⟨g, hg', hc⟩)
  constructor
  · intro hp
    by_contra hc
    push Not at hc
    obtain ⟨v, v1, v2, v3⟩ := hr.near_in (gs.flatMap Geom2D.allSegments) hp
      (stable_all gs fun g hg' => stable_outside (hg g hg').proper.made p) (fun g hg' => by
        rw [add_zero]; exact (not_has (hg g hg').proper.made p).1 (hc g hg'))
    obtain ⟨g, hg', k⟩ := (h3 _ (off _ v3)).1 v2
    rw [v1 g hg'] at k; cases k
  · rintro ⟨g, hg', hp⟩
    by_contra hc
    obtain ⟨v, v1, v2, v3⟩ := (hg g hg').near_in (gs.flatMap Geom2D.allSegments) hp (stable_outside hr.proper.made p) (by
      rw [add_zero]; exact (not_has hr.proper.made p).1 hc)
    rw [(h3 _ (off _ v3)).2 ⟨g, hg', v2⟩] at v1; cases v1

/-! ### Fingers (C37) -/

/-- Next to a point in no open interval there are points in no closed one. -/
theorem gap_near {ivs : List (ℚ × ℚ)} (hlt : ∀ e ∈ ivs, e.1 < e.2) (hgap : ivs.Pairwise fun p q => p.2 < q.1) {x : ℚ}
    (hx : ∀ e ∈ ivs, ¬ (e.1 < x ∧ x < e.2)) :
    ∃ σ : ℚ, ∀ᶠ ε in 𝓝[>] (0 : ℚ), ∀ e ∈ ivs, ¬ (e.1 ≤ x + ε * σ ∧ x + ε * σ ≤ e.2) := by
  have all : ∀ P : ℚ → (ℚ × ℚ) → Prop, (∀ e ∈ ivs, ∀ᶠ ε in 𝓝[>] (0 : ℚ), P ε e) → ∀ᶠ ε in 𝓝[>] (0 : ℚ), ∀ e ∈ ivs, P ε e := by
    intro P h
    have := (eventually_all_finset (l := 𝓝[>] (0 : ℚ)) (p := fun e ε => P ε e) ivs.toFinset).2 fun e he => h e (List.mem_toFinset.1 he)
    filter_upwards [this] with ε hε e he
    exact hε e (List.mem_toFinset.2 he)
  by_cases h : ∃ e ∈ ivs, x = e.1
  · obtain ⟨e, he, rfl⟩ := h
    refine ⟨-1, all _ fun k hk => ?_⟩
    have : k.2 < e.1 ∨ e.1 ≤ k.1 := by
      obtain ⟨i, hi, rfl⟩ := List.mem_iff_getElem.1 he
      obtain ⟨j, hj, rfl⟩ := List.mem_iff_getElem.1 hk
      rcases lt_trichotomy i j with hij | rfl | hij
      · have := List.pairwise_iff_getElem.1 hgap i j hi hj hij
        right; linarith [hlt _ he]
      · exact Or.inr le_rfl
      · exact Or.inl (List.pairwise_iff_getElem.1 hgap j i hj hi hij)
    rcases this with h | h
    · filter_upwards [small_lt (e.1 - k.2) (by linarith)] with ε hε hc
      linarith [hc.2]
    · filter_upwards [small_pos] with ε hε hc
      linarith [hc.1]
  · push Not at h
    refine ⟨1, all _ fun k hk => ?_⟩
    rcases lt_or_ge x k.1 with h1 | h1
    · filter_upwards [small_lt (k.1 - x) (by linarith)] with ε hε hc
      linarith [hc.1]
    · have h2 : k.2 ≤ x := by
        by_contra hc
        exact hx k hk ⟨lt_of_le_of_ne h1 (h k hk).symm, not_le.1 hc⟩
      filter_upwards [small_pos] with ε hε hc
      linarith [hc.2]

theorem point_add (s : InterSide) (al nc a b ε : ℚ) :
    s.point (al + ε * a) (nc + ε * b) = s.point al nc + ε • ((a * s.direction.1 + b * s.normal.1,
      a * s.direction.2 + b * s.normal.2) : Pt) := by
  unfold InterSide.point
  ext <;> simp <;> ring

/-- C37: `make_fingers` gives a geom for every bounded `where`, and its points are exactly those of the requested part of
the joint whose coordinate along the joint is in `where`. -/
theorem c37_fingers (ch : Choices) (hch : ch.Valid) (s : InterSide) (h : s.Proper) (f0 f1 : ℚ) (hf : f0 < f1) (w : Geom1D)
    (hw : w.Made) (hb : Bornology.IsBounded (pointsOf w.intervals)) :
    ∃ r, s.makeFingers (arrangementOp ch) w f0 f1 = .ok r ∧ r.Fine ∧
      (∀ al nc, Geom2D.locate r (s.point al nc) = .ok 1 ↔
        (∃ iv ∈ w.intervals, iv.1 < Ext.fin al ∧ Ext.fin al < iv.2) ∧ s.acrossAt f0 < nc ∧ nc < s.acrossAt f1) ∧
      (∀ al nc, r.Has (s.point al nc) ↔
        (∃ iv ∈ w.intervals, iv.1 ≤ Ext.fin al ∧ Ext.fin al ≤ iv.2) ∧ s.acrossAt f0 ≤ nc ∧ nc ≤ s.acrossAt f1) ∧
      (s.direction.1 ^ 2 + s.direction.2 ^ 2 = 1 → s.projectTo1d r = .ok w) := by
  obtain ⟨ivs, res, hi, h1, h2, -⟩ := c37_rectangles s h f0 f1 hf w hw hb
  have hnf := hw.nf
  rw [hi] at hnf
  have hlt : ∀ e ∈ ivs, e.1 < e.2 := fun e he =>
    Ext.fin_lt_fin.1 (hnf.1 _ (List.mem_map_of_mem (f := fun e : ℚ × ℚ => (Ext.fin e.1, Ext.fin e.2)) he))
  have hgap : ivs.Pairwise fun p q => p.2 < q.1 := by
    have := hnf.2
    rw [List.pairwise_map] at this
    exact this.imp fun h => Ext.fin_lt_fin.1 h
  have hn : s.acrossAt f0 < s.acrossAt f1 := by
    unfold InterSide.acrossAt
    nlinarith [h.width, mul_pos (sub_pos.2 h.width) (sub_pos.2 hf)]
  obtain ⟨r, hr, hfine, -⟩ := forkless_union ch hch (separate_forkless (fingers_separate s h hf ivs hlt hgap)) (res.length + 4)
    res le_rfl (fingerLoop_usable s f0 f1 _ res h1) (fingerLoop_rings s f0 f1 ivs res (by rw [← hi]; exact h1))
  have hmk : s.makeFingers (arrangementOp ch) w f0 f1 = .ok r := by
    unfold InterSide.makeFingers
    show (_ >>= _) = _
    rw [h1]; exact hr
  have hm := hfine.proper.made
  obtain ⟨-, u1, u2⟩ := c37_union _ (arrangementOp_sound ch hch) s h f0 f1 hf w hw hb r hmk
  have o1 : ∀ al, (∃ iv ∈ w.intervals, iv.1 < Ext.fin al ∧ Ext.fin al < iv.2) ↔ ∃ e ∈ ivs, e.1 < al ∧ al < e.2 := by
    intro al
    rw [hi]
    simp only [List.mem_map, exists_exists_and_eq_and, Ext.fin_lt_fin]
  have o2 : ∀ al, (∃ iv ∈ w.intervals, iv.1 ≤ Ext.fin al ∧ Ext.fin al ≤ iv.2) ↔ ∃ e ∈ ivs, e.1 ≤ al ∧ al ≤ e.2 := by
    intro al
    rw [hi]
    simp only [List.mem_map, exists_exists_and_eq_and, Ext.fin_le_fin]
  refine ⟨r, hmk, hfine, fun al nc => ⟨fun hp => ?_, fun ⟨k1, k2, k3⟩ => u1 al nc k1 k2 k3⟩, fun al nc => ⟨fun hp => ?_, ?_⟩,
    fun hu => c37_roundtrip_2d ch hch s h hu f0 f1 hf w hw hb r hmk⟩
  · -- an inner point can be moved
    have near : ∀ a b : ℚ, ∀ᶠ ε in 𝓝[>] (0 : ℚ), (∃ e ∈ ivs, e.1 ≤ al + ε * a ∧ al + ε * a ≤ e.2) ∧
        s.acrossAt f0 ≤ nc + ε * b ∧ nc + ε * b ≤ s.acrossAt f1 := by
      intro a b
      filter_upwards [locate_small hm hp (a * s.direction.1 + b * s.normal.1, a * s.direction.2 + b * s.normal.2)] with ε hε
      rw [← point_add] at hε
      have := u2 _ _ (Or.inr hε)
      rwa [o2] at this
    refine ⟨(o1 al).2 ?_, ?_, ?_⟩
    · by_contra hc
      push Not at hc
      obtain ⟨σ, hσ⟩ := gap_near hlt hgap (x := al) fun e he hx => absurd hx.2 (not_lt.2 (hc e he hx.1))
      obtain ⟨ε, -, k1, k2⟩ := small_exists (hσ.and (near σ 0))
      obtain ⟨e, he, k3⟩ := k2.1
      exact k1 e he k3
    · obtain ⟨ε, e0, k⟩ := small_exists (near 0 (-1))
      linarith [k.2.1]
    · obtain ⟨ε, e0, k⟩ := small_exists (near 0 1)
      linarith [k.2.2]
  · rcases (hfine.crisp.has hm _).1 hp with hp | hp
    · exact u2 al nc (Or.inr hp)
    · exact u2 al nc (Or.inl hp)
  · rintro ⟨k1, k2, k3⟩
    obtain ⟨e, he, k1⟩ := (o2 al).1 k1
    by_contra hc
    rw [not_has hm] at hc
    have hlt' := hlt e he
    have := stable_outside hm (s.point al nc) 0 (by simpa using hc)
      (((e.1 + e.2) / 2 - al) * s.direction.1 + ((s.acrossAt f0 + s.acrossAt f1) / 2 - nc) * s.normal.1,
       ((e.1 + e.2) / 2 - al) * s.direction.2 + ((s.acrossAt f0 + s.acrossAt f1) / 2 - nc) * s.normal.2)
    obtain ⟨ε, e0, k, e1⟩ := small_exists (this.and (small_lt 1 one_pos))
    rw [zero_add, ← point_add, u1 _ _ ((o1 _).2 ⟨e, he, by nlinarith, by nlinarith⟩) (by nlinarith) (by nlinarith)] at k
    cases k

/-! ### Rings that do not touch (C86) -/

/-- Each edge of the geom is part of an edge of one of the rings. -/
def OnRings (Ls : List (List Pt)) (g : Geom2D) : Prop :=
  ∀ s ∈ g.allSegments, ∃ L ∈ Ls, ∃ t ∈ polyEdges L, OnSeg t s.1 ∧ OnSeg t s.2

theorem onRings_iff {Ls : List (List Pt)} {g : Geom2D} : OnRings Ls g ↔ Runs (Ls.flatMap polyEdges) g := by
  unfold OnRings Runs
  refine forall₂_congr fun s _ => ⟨?_, ?_⟩
  · rintro ⟨L, hL, t, ht, h⟩
    exact ⟨t, List.mem_flatMap.2 ⟨L, hL, ht⟩, h⟩
  · rintro ⟨t, ht, h⟩
    obtain ⟨L, hL, ht⟩ := List.mem_flatMap.1 ht
    exact ⟨L, hL, t, ht, h⟩

/-- C86: `a | b` of geoms whose edges are on rings that do not touch returns a geom of the same kind, the union. -/
theorem c86_or (ch : Choices) (hch : ch.Valid) {Ls : List (List Pt)} (hL : Separate Ls) (a b : Geom2D) (ha : a.Fine)
    (hb : b.Fine) (ra : OnRings Ls a) (rb : OnRings Ls b) :
    ∃ r, Geom2D.or (arrangementOp ch) a b = .ok r ∧ r.Fine ∧ OnRings Ls r ∧ ∀ p, r.Has p ↔ a.Has p ∨ b.Has p := by
  obtain ⟨r, h1, h2⟩ : ∃ r, Geom2D.or (arrangementOp ch) a b = .ok r ∧ OnRings Ls r := by
    unfold Geom2D.or
    split_ifs
    · exact ⟨b, rfl, rb⟩
    · exact ⟨a, rfl, ra⟩
    · obtain ⟨r, h1, h2⟩ := forkless_total ch hch [a, b] (fun v => match v with | [x, y] => x || y | _ => false) rfl
        (pair_usable ha.usable hb.usable) (separate_forkless hL) (by
          intro g hg
          rcases List.mem_cons.1 hg with rfl | hg
          · exact onRings_iff.1 ra
          · rw [List.mem_singleton.1 hg]; exact onRings_iff.1 rb)
      exact ⟨r, h1, onRings_iff.2 h2⟩
  exact ⟨r, h1, or_fine ch hch ha hb h1, h2, c78_or ch hch ha hb h1⟩

/-- C86: the same for the union of any number of geoms. -/
theorem c86_union (ch : Choices) (hch : ch.Valid) {Ls : List (List Pt)} (hL : Separate Ls) (gs : List Geom2D)
    (hg : ∀ g ∈ gs, Geom2D.Fine g) (hr : ∀ g ∈ gs, OnRings Ls g) (fuel : ℕ) (hf : gs.length + 4 ≤ fuel) :
    ∃ r, Geom2D.union (arrangementOp ch) fuel gs = .ok r ∧ r.Fine ∧ OnRings Ls r ∧
      ∀ p, r.Has p ↔ ∃ g ∈ gs, Geom2D.Has g p := by
  obtain ⟨r, h1, h2, h3⟩ := forkless_union ch hch (separate_forkless hL) fuel gs hf (fun g h => (hg g h).usable)
    fun g h => onRings_iff.1 (hr g h)
  exact ⟨r, h1, h2, onRings_iff.2 h3, c78_union ch hch gs hg fuel hf h1⟩

/-- C86: the same for any other combination of geoms, at points off all edges. -/
theorem c86_any (ch : Choices) (hch : ch.Valid) {Ls : List (List Pt)} (hL : Separate Ls) (gs : List Geom2D)
    (hg : ∀ g ∈ gs, Geom2D.Fine g) (hr : ∀ g ∈ gs, OnRings Ls g) (op : List Bool → Bool)
    (hop : op (gs.map fun _ => false) = false) :
    ∃ r, arrangementOp ch gs op = .ok r ∧ r.Fine ∧ OnRings Ls r ∧
      ∀ p, (∀ g ∈ gs, ¬ Geom2D.OnEdge g p) →
        (Geom2D.locate r p = .ok 1 ↔ op (gs.map fun g => decide (Geom2D.locate g p = .ok 1)) = true) := by
  obtain ⟨r, h1, h2⟩ := forkless_total ch hch gs op hop (fun g h => (hg g h).usable) (separate_forkless hL)
    fun g h => onRings_iff.1 (hr g h)
  exact ⟨r, h1, arr_fine ch hch gs op r hop (fun g h => (hg g h).usable) h1, onRings_iff.2 h2,
    (arrangementOp_sound ch hch gs op r hop (fun g h => (hg g h).proper.made) h1).2.2⟩

/-! ### Examples -/

/-- A frame and a square inside it. -/
def nestedRings : List (List Pt) := [boxLoop 0 0 20 20, boxLoop 2 2 18 18, boxLoop 4 4 8 8]

theorem nestedRings_separate : Separate nestedRings := by
  refine ⟨fun L hL => ?_, fun L hL M hM x hx hy => ?_⟩
  · simp only [nestedRings, List.mem_cons, List.not_mem_nil, or_false] at hL
    rcases hL with rfl | rfl | rfl <;> exact boxLoop_simple (by norm_num) (by norm_num)
  · simp only [nestedRings, List.mem_cons, List.not_mem_nil, or_false] at hL hM
    rcases hL with rfl | rfl | rfl <;> rcases hM with rfl | rfl | rfl <;> first | rfl | exfalso
    all_goals
      rw [boxLoop_boundary _ _ _ _ (by norm_num)] at hx hy
      norm_num at hx hy
      obtain ⟨⟨a1, a2, a3, a4⟩, a5⟩ := hx
      obtain ⟨⟨b1, b2, b3, b4⟩, b5⟩ := hy
      first
        | (have := a5 (by linarith) (by linarith) (by linarith); linarith)
        | (have := b5 (by linarith) (by linarith) (by linarith); linarith)

/-- A square frame. -/
def holeFrame : Geom2D := [⟨[(0, 0), (0, 20), (20, 20), (20, 0)], [[(18, 18), (18, 2), (2, 2), (2, 18)]]⟩]

/-- A square. -/
def block : Geom2D := [⟨[(4, 4), (4, 8), (8, 8), (8, 4)], []⟩]

theorem onRings_of {Ls : List (List Pt)} {g : Geom2D}
    (h : (g.allSegments.all fun s => (Ls.flatMap polyEdges).any fun t => decide (t = s) || decide (t = (s.2, s.1))) = true) :
    OnRings Ls g := by
  rw [onRings_iff]
  intro s hs
  obtain ⟨t, ht, k⟩ := List.any_eq_true.1 (List.all_eq_true.1 h s hs)
  refine ⟨t, ht, ?_⟩
  rw [Bool.or_eq_true] at k
  rcases k with k | k
  · rw [of_decide_eq_true k]; exact ⟨onSeg_left s, onSeg_right s⟩
  · rw [of_decide_eq_true k]
    exact ⟨onSeg_right (s.2, s.1), onSeg_left (s.2, s.1)⟩

theorem holeFrame_fine : holeFrame.Fine :=
  fine_of [⟨[(0, 0), (0, 20), (20, 20), (20, 0)], [[(2, 2), (2, 18), (18, 18), (18, 2)]]⟩]
    (made_of _ (by decide +kernel)) (by decide +kernel) (by decide +kernel)

theorem block_fine : block.Fine := fine_of block (made_of _ (by decide +kernel)) (by decide +kernel) (by decide +kernel)

/-- C86: a square in the hole of a frame. -/
theorem c86_run (ch : Choices) (hch : ch.Valid) : ∃ r, Geom2D.or (arrangementOp ch) holeFrame block = .ok r ∧
    r.Has (4, 5) ∧ r.Has (1, 1) ∧ ¬ r.Has (3, 3) := by
  obtain ⟨r, h1, -, -, h2⟩ := c86_or ch hch nestedRings_separate holeFrame block holeFrame_fine block_fine
    (onRings_of (by decide +kernel)) (onRings_of (by decide +kernel))
  have no : ∀ g : Geom2D, Geom2D.locate g (3, 3) = .ok (-1) → ¬ g.Has (3, 3) := by
    intro g hg hc
    unfold Geom2D.Has at hc
    rw [hg] at hc
    rcases hc with hc | hc <;> cases hc
  refine ⟨r, h1, (h2 _).2 (Or.inr (Or.inr (by decide +kernel))), (h2 _).2 (Or.inl (Or.inl (by decide +kernel))), fun hc => ?_⟩
  rcases (h2 _).1 hc with hc | hc
  · exact no _ (by decide +kernel) hc
  · exact no _ (by decide +kernel) hc

theorem side2_proper : (side2 0).Proper := by
  refine ⟨fun h => ?_, ?_, ?_⟩
  · have : (1 : ℚ) = 0 := congrArg Prod.fst h
    norm_num at this
  · show ((0 * 1, 1 * -1) : Pt) = (0, -1)
    norm_num
  · decide +kernel

/-- C37: two fingers, for any order of the sets. -/
theorem c37_any_run (ch : Choices) (hch : ch.Valid) :
    ∃ r, (side2 0).makeFingers (arrangementOp ch) ⟨[(Ext.fin 0, Ext.fin 1), (Ext.fin 2, Ext.fin 4)]⟩ 0 1 = .ok r ∧
      (side2 0).projectTo1d r = .ok ⟨[(Ext.fin 0, Ext.fin 1), (Ext.fin 2, Ext.fin 4)]⟩ := by
  have hn : NormalForm [(Ext.fin 0, Ext.fin 1), (Ext.fin 2, Ext.fin 4)] := by
    refine ⟨?_, ?_⟩
    · intro iv hi
      simp only [List.mem_cons, List.not_mem_nil, or_false] at hi
      rcases hi with rfl | rfl <;> exact Ext.fin_lt_fin.2 (by norm_num)
    · simp only [List.pairwise_cons, List.mem_cons, List.not_mem_nil, or_false,
        forall_eq, List.Pairwise.nil, and_true, false_implies, implies_true]
      exact Ext.fin_lt_fin.2 (by norm_num)
  obtain ⟨r, h1, -, -, -, h2⟩ := c37_fingers ch hch (side2 0) side2_proper 0 1 one_pos
    ⟨[(Ext.fin 0, Ext.fin 1), (Ext.fin 2, Ext.fin 4)]⟩ ((Geom1D.made_iff_nf _).2 hn) (by
      rw [pointsOf_cons, pointsOf_cons, pointsOf_nil, Set.union_empty, icoSet_fin, icoSet_fin]
      exact (Metric.isBounded_Ico _ _).union (Metric.isBounded_Ico _ _))
  exact ⟨r, h1, h2 (by show (1 : ℚ) ^ 2 + 0 ^ 2 = 1; norm_num)⟩

end Ply
