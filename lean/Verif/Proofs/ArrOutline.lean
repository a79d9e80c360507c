import Verif.Proofs.MergerFaces
import Verif.Proofs.Outline
import Verif.Proofs.Area

/-!
# The loops of a result are outlines
-/

namespace Ply

open Filter Topology

/-- Every loop is an outline. -/
def Geom2D.Outlined (g : Geom2D) : Prop := ∀ s ∈ g, Outline s.outer ∧ ∀ h ∈ s.holes, Outline h

/-- Every loop winds differently around the two sides of every stretch of it. -/
def Geom2D.Cutting (g : Geom2D) : Prop := ∀ s ∈ g, Cuts s.outer ∧ ∀ h ∈ s.holes, Cuts h

theorem Geom2D.Outlined.cutting {g : Geom2D} (h : g.Outlined) : g.Cutting := fun s hs =>
  ⟨(h s hs).1.forward.cuts, fun k hk => ((h s hs).2 k hk).forward.cuts⟩

/-! ### Both sides of an edge -/

theorem clear_small {H : List Seg} (hP : Planar H) {h : Seg} (hh : h ∈ H) {s : ℚ} (s0 : 0 < s) (s1 : s < 1) (u u' : Pt) :
    ∀ᶠ ε in 𝓝[>] (0 : ℚ), ∀ k ∈ H, k ≠ h → k ≠ (h.2, h.1) → ∀ x,
      OnSeg (along h s + ε • u, along h s + ε • u') x → ¬ OnSeg k x := by
  refine small_list H (fun k ε => k ≠ h → k ≠ (h.2, h.1) → ∀ x,
      OnSeg (along h s + ε • u, along h s + ε • u') x → ¬ OnSeg k x) fun k hk => ?_
  by_cases h1 : k = h
  · exact Eventually.of_forall fun _ c => absurd h1 c
  by_cases h2 : k = (h.2, h.1)
  · exact Eventually.of_forall fun _ _ c => absurd h2 c
  have := push (along h s, along h s) k u u' (by
    rintro x ⟨⟨t, _, _, rfl⟩, hx⟩
    have e : along (along h s, along h s) t = along h s := by unfold along; ext <;> simp
    rw [e] at hx
    rcases hP.inner hh s0 s1 hk hx with c | c
    · exact h1 c
    · exact h2 c)
  filter_upwards [this] with ε hε _ _ using hε

theorem cross_along (h : Seg) (s : ℚ) (v : Pt) : cross (dir h) (along h s + v - h.1) = cross (dir h) v := by
  unfold cross dir along
  simp only [Prod.fst_add, Prod.snd_add, Prod.fst_sub, Prod.snd_sub]
  ring

theorem sees_small {H : List Seg} (hP : Planar H) {h : Seg} (hh : h ∈ H) {s : ℚ} (s0 : 0 < s) (s1 : s < 1) {u : Pt}
    (hu : cross (dir h) u < 0) : ∀ᶠ ε in 𝓝[>] (0 : ℚ), Sees H h (along h s + ε • u) := by
  filter_upwards [clear_small hP hh s0 s1 0 u, small_pos] with ε hε e0
  have key : ∀ τ : ℚ, 0 < τ → cross (dir h) (τ • ε • u) < 0 := by
    intro τ τ0
    have : cross (dir h) (τ • ε • u) = τ * ε * cross (dir h) u := by
      unfold cross; simp only [Prod.smul_fst, Prod.smul_snd, smul_eq_mul]; ring
    rw [this]
    exact mul_neg_of_pos_of_neg (by positivity) hu
  refine ⟨s, ε • u, s0, s1, by simpa using key 1 one_pos, rfl, ?_⟩
  rintro τ τ0 τ1 ⟨k, hk, hon⟩
  have off : ¬ OnSeg h (along h s + τ • ε • u) := fun hc => by
    have := cross_on _ _ hc
    rw [cross_along] at this
    exact (key τ τ0).ne this
  by_cases h1 : k = h
  · exact off (h1 ▸ hon)
  by_cases h2 : k = (h.2, h.1)
  · exact off ((onSeg_rev h _).1 (h2 ▸ hon))
  refine hε k hk h1 h2 _ ⟨τ, τ0.le, τ1, ?_⟩ hon
  unfold along
  ext <;> simp only [Prod.fst_add, Prod.snd_add, Prod.smul_fst, Prod.smul_snd, smul_eq_mul, Prod.fst_zero, Prod.snd_zero] <;> ring

/-- A direction to the right of a segment. -/
theorem right_exists {h : Seg} (hne : h.1 ≠ h.2) : ∃ u : Pt, cross (dir h) u < 0 := by
  refine ⟨((dir h).2, -(dir h).1), ?_⟩
  have : cross (dir h) ((dir h).2, -(dir h).1) = -((dir h).1 ^ 2 + (dir h).2 ^ 2) := by unfold cross; ring
  rw [this, neg_lt_zero]
  have hd : (dir h).1 ≠ 0 ∨ (dir h).2 ≠ 0 := by
    by_contra hc
    push Not at hc
    unfold dir at hc
    dsimp only at hc
    exact hne (Prod.ext (by linarith [hc.1]) (by linarith [hc.2]))
  rcases hd with hd | hd
  · have := sq_pos_of_ne_zero hd; positivity
  · have := sq_pos_of_ne_zero hd; positivity

theorem across_exists {H : List Seg} (hP : Planar H) {h : Seg} (hh : h ∈ H) : ∃ l r, Across H h l r := by
  obtain ⟨u, hu⟩ := right_exists (hP.ne h hh)
  obtain ⟨ε, e0, hε⟩ := small_exists (clear_small hP hh (s := 1 / 2) (by norm_num) (by norm_num) (-u) u)
  refine ⟨_, _, ⟨1 / 2, 1 / 2, by norm_num, by norm_num, by norm_num, by norm_num, ?_⟩, ?_, ?_, hε⟩
  · unfold along
    ext <;> simp only [Prod.fst_add, Prod.snd_add, Prod.smul_fst, Prod.smul_snd, smul_eq_mul, Prod.fst_neg, Prod.snd_neg] <;> ring
  · rw [orient_cross, cross_along]
    have : cross (dir h) (ε • -u) = -(ε * cross (dir h) u) := by
      unfold cross; simp only [Prod.smul_fst, Prod.smul_snd, smul_eq_mul, Prod.fst_neg, Prod.snd_neg]; ring
    rw [this]; nlinarith
  · rw [orient_cross, cross_along]
    have : cross (dir h) (ε • u) = ε * cross (dir h) u := by
      unfold cross; simp only [Prod.smul_fst, Prod.smul_snd, smul_eq_mul]; ring
    rw [this]; nlinarith

/-- The two sides of an edge that runs along a loop are different faces. -/
theorem two_faces {H : List Seg} (hP : Planar H) {h : Seg} (hh : h ∈ H) {L : List Pt} (hL : Cuts L)
    (hin : Within H L) (hb : ∀ x, OnSeg h x → OnBoundary L x) {p q : Pt}
    (hp : Sees H h p) (hq : Sees H (h.2, h.1) q) : ¬ SameFace H p q := by
  intro hsame
  obtain ⟨s, s0, s1, hs⟩ := hL h (hP.ne h hh) hb
  obtain ⟨u, hu⟩ := right_exists (hP.ne h hh)
  have r1 := sees_small hP hh s0 s1 hu
  have r2 := sees_small hP (hP.rev h hh) (s := 1 - s) (by linarith) (by linarith) (u := -u) (by
    have : cross (dir (h.2, h.1)) (-u) = cross (dir h) u := by
      unfold cross dir; simp only [Prod.fst_neg, Prod.snd_neg]; ring
    rw [this]; exact hu)
  obtain ⟨ε, -, x1, x2, x3⟩ := small_exists ((hs u hu.ne).and (r1.and r2))
  rw [along_rev, sub_sub_cancel, smul_neg, ← sub_eq_add_neg] at x3
  apply x1
  rw [← sees_same hP hh hp x2 L hin, ← sees_same hP (hP.rev h hh) hq x3 L hin]
  exact hsame L hin

theorem onSeg_between {e h : Seg} (h1 : OnSeg e h.1) (h2 : OnSeg e h.2) {x : Pt} (hx : OnSeg h x) : OnSeg e x := by
  obtain ⟨t1, a0, a1, e1⟩ := h1
  obtain ⟨t2, b0, b1, e2⟩ := h2
  obtain ⟨t, c0, c1, rfl⟩ := hx
  refine ⟨t1 + t * (t2 - t1), by nlinarith, by nlinarith, ?_⟩
  unfold along at e1 e2 ⊢
  have x1 := congrArg Prod.fst e1; have x2 := congrArg Prod.snd e1
  have y1 := congrArg Prod.fst e2; have y2 := congrArg Prod.snd e2
  dsimp only at x1 x2 y1 y2
  ext
  · dsimp only; rw [x1, y1]; ring
  · dsimp only; rw [x2, y2]; ring

/-! ### Orientation -/

theorem shoelace_nonneg {L : List Pt} (hne : ∀ e ∈ polyEdges L, e.1 ≠ e.2)
    (h : ∀ p, ¬ OnBoundary L p → 0 ≤ windingNumber L p) : 0 ≤ shoelace L := by
  obtain ⟨m, hm⟩ : ∃ m : ℚ, ∀ v ∈ L, m ≤ v.1 := by
    clear h hne
    induction L with
    | nil => exact ⟨0, by simp⟩
    | cons a L ih =>
      obtain ⟨m, hm⟩ := ih
      refine ⟨min m a.1, fun v hv => ?_⟩
      rcases List.mem_cons.1 hv with rfl | hv
      · exact min_le_right _ _
      · exact (min_le_left _ _).trans (hm v hv)
  have key := (cutW_integral m L hm).2
  have : (0 : ℝ) ≤ ∫ z, cutW m L z := by
    refine MeasureTheory.integral_nonneg_of_ae ?_
    filter_upwards [generic_rational _ hne] with z ⟨p, hp⟩
    have hN : Near (polyEdges L) z p := hp
    unfold cutW
    split_ifs
    · rw [hN.winding fun e he => he]
      have := h p fun hc => hN.off hc
      simpa using (Int.cast_nonneg (R := ℝ) this)
    · exact le_refl _
  rw [key] at this
  exact_mod_cast this

theorem Sides.shoelace {L : List Pt} (h : Sides L 1 0) (hL : L ≠ []) : 0 ≤ shoelace L := by
  refine shoelace_nonneg (fun e he hc => h.nd e he ?_) fun p hp => ?_
  · have : dir e = e.2 - e.1 := rfl
    rw [this, hc, sub_self]
  · rcases h.winding hL hp with e | e <;> rw [e]
    exact zero_le_one

namespace Arr

open CellMerger

/-! ### Loops of merged cells -/

open Classical in
/-- The winding number of the loop to the right of the edge. -/
noncomputable def sideOf (H : List Seg) (L : List Pt) (h : Seg) : ℤ :=
  if hh : ∃ p, Sees H h p then windingNumber L hh.choose else 0

theorem sideOf_eq {H : List Seg} (hP : Planar H) {L : List Pt} (hL : ∀ e ∈ polyEdges L, e ∈ H) {h : Seg} (hh : h ∈ H)
    {p : Pt} (hp : Sees H h p) : sideOf H L h = windingNumber L p := by
  have hex : ∃ p, Sees H h p := ⟨p, hp⟩
  unfold sideOf
  rw [dif_pos hex]
  exact (sees_same hP hh hex.choose_spec hp).winding hL

/-- An edge of a loop, of merged cells that are no longer adjacent, is not an edge of the cells the other way round. -/
theorem final_once {E F D : List Seg} (hE : E.Nodup) (hp : E.Perm ((D ++ D.map opp) ++ F))
    (hF : ∀ e ∈ F, opp e ∉ F) {e : Seg} (he : e ∈ F) : opp e ∉ E := by
  intro hc
  have hn := (List.nodup_append.1 (hp.nodup_iff.1 hE)).2.2
  rcases List.mem_append.1 (hp.mem_iff.1 hc) with h | h
  · rcases List.mem_append.1 h with h | h
    · exact hn e (List.mem_append_right _ (List.mem_map.2 ⟨_, h, opp_opp e⟩)) e he rfl
    · obtain ⟨x, hx, hxe⟩ := List.mem_map.1 h
      rw [opp_inj] at hxe
      exact hn e (List.mem_append_left _ (hxe ▸ hx)) e he rfl
  · exact hF e he h

theorem loop_sides {H : List Seg} (hP : Planar H) {L : List Pt} (hL : ∀ e ∈ polyEdges L, e ∈ H) (hnd : (polyEdges L).Nodup)
    (hone : ∀ e ∈ polyEdges L, opp e ∉ polyEdges L) (hne : L ≠ [])
    (hconst : ∀ e ∈ polyEdges L, ∀ f ∈ polyEdges L, sideOf H L e = sideOf H L f) :
    Sides L 0 (-1) ∨ Sides L 1 0 := by
  obtain ⟨v, hv⟩ := List.exists_mem_of_ne_nil L hne
  obtain ⟨e0, he0, _⟩ := polyEdges_fst hv
  obtain ⟨b, hb⟩ : ∃ b, b = sideOf H L e0 := ⟨_, rfl⟩
  have hr : ∀ e ∈ polyEdges L, ∀ p, Sees H e p → windingNumber L p = b := by
    intro e he p hp
    rw [← sideOf_eq hP hL (hL e he) hp, hb]
    exact hconst e he e0 he0
  have hl : ∀ e ∈ polyEdges L, ∀ p, Sees H (e.2, e.1) p → windingNumber L p = b + 1 := by
    intro e he p hp
    obtain ⟨l, r, hlr⟩ := across_exists hP (hL e he)
    have h1 := hr e he r hlr.sees
    rw [(sees_same hP (hP.rev e (hL e he)) hp hlr.rev.sees).winding hL]
    obtain ⟨⟨t, s, t0, t1, s0, s1, hx⟩, a, c, o⟩ := hlr
    have h2 := winding_jump L l r e t0 t1 hx a c fun k hk => o k (hL k hk)
    have h3 : (e.2, e.1) ∉ polyEdges L := hone e he
    rw [List.count_eq_one_of_mem hnd he, List.count_eq_zero_of_not_mem h3, h1] at h2
    push_cast at h2
    linarith
  have hS : Sides L (b + 1) b := by
    refine ⟨by omega, fun e he hc => hP.ne e (hL e he) ?_, ?_, ?_, ?_⟩
    · have : e.2 - e.1 = 0 := hc
      exact (sub_eq_zero.1 this).symm
    · intro e he e' he' s s0 s1 ho
      rcases hP.inner (hL e he) s0 s1 (hL e' he') ho with h | h
      · exact h
      · rw [h] at he'; exact absurd he' (hone e he)
    · intro e he s s0 s1 u hu
      have := sees_small hP (hP.rev e (hL e he)) (s := 1 - s) (by linarith) (by linarith) (u := u) (by
        have : cross (dir (e.2, e.1)) u = -cross (dir e) u := by unfold cross dir; dsimp only; ring
        rw [this]; linarith)
      rw [along_rev, sub_sub_cancel] at this
      filter_upwards [this] with ε hε using hl e he _ hε
    · intro e he s s0 s1 u hu
      filter_upwards [sees_small hP (hL e he) s0 s1 hu] with ε hε using hr e he _ hε
  obtain ⟨M, -, hM⟩ := far_bound [] [L]
  have hfar : windingNumber L (M + 1, 0) = 0 := winding_far L _ fun v hv => by
    have := hM L (by simp) v hv
    dsimp only; linarith
  have hoff : ¬ OnBoundary L (M + 1, 0) := by
    rintro ⟨e, he, t, t0, t1, hx⟩
    have h1 := hM L (by simp) _ (polyEdges_mem he).1
    have h2 := hM L (by simp) _ (polyEdges_mem he).2
    have h3 := congrArg Prod.fst hx
    unfold along at h3
    dsimp only at h3
    nlinarith
  rcases hS.winding hne hoff with h | h
  · have : b = -1 := by omega
    subst this
    exact Or.inl hS
  · have : b = 0 := by omega
    subst this
    exact Or.inr hS

/-- Every loop of the merged cells has one winding number on its left and one on its right. -/
theorem merged_sides {A : Arrangement} (hB : BuildOK A)
    (hself : ∀ c ∈ A.cells, ∀ e ∈ polyEdges c.vertices, (e.2, e.1) ∉ polyEdges c.vertices)
    (runs : List (Orders Pt × ℕ × List Pt)) (hr : CompleteRuns runs) (hnd : (runEdges runs).Nodup)
    (hc : ∀ r ∈ runs, ∃ c ∈ A.cells, c.vertices = r.2.2) {m : Merger Pt} (hm : addCells Merger.empty runs = .ok m) :
    ∀ k ∈ m.cells, (∀ e ∈ polyEdges k.vertices, (e.2, e.1) ∉ runEdges runs) ∧
      (k.vertices ≠ [] → Sides k.vertices 0 (-1) ∨ Sides k.vertices 1 0) := by
  set H := A.net.halfEdges with hH
  set E := runEdges runs with hE
  have hEm : ∀ r ∈ runs, ∀ e ∈ polyEdges r.2.2, e ∈ E := fun r hr e he =>
    List.mem_flatMap.2 ⟨_, List.mem_map_of_mem hr, he⟩
  have hEH : ∀ e ∈ E, e ∈ H := by
    intro e he
    obtain ⟨v, hv, he⟩ := List.mem_flatMap.1 he
    obtain ⟨r, hr, rfl⟩ := List.mem_map.1 hv
    obtain ⟨c, hc1, hc2⟩ := hc r hr
    refine hB.sub e (List.mem_flatMap.2 ⟨c.vertices, List.mem_map_of_mem hc1, ?_⟩)
    rw [hc2]; exact he
  have hstart : (cellsEdges (Merger.empty : Merger Pt).cells ++ runs.flatMap fun r => polyEdges r.2.2).Nodup := by
    have : (cellsEdges (Merger.empty : Merger Pt).cells ++ runs.flatMap fun r => polyEdges r.2.2) = E := by
      rw [hE]
      simp [Merger.empty, cellsEdges, runEdges, allEdges, List.flatMap_map]
    rw [this]; exact hnd
  have good : ∀ {β : Type} (Φ : Seg → β), (∀ e ∈ E, opp e ∈ E → Φ e = Φ (opp e)) →
      (∀ c ∈ A.cells, ∀ e ∈ polyEdges c.vertices, ∀ f ∈ polyEdges c.vertices, Φ e = Φ f) →
      ∀ k ∈ m.cells, Good E Φ k := by
    intro β Φ h1 h2
    refine addCells_good h1 runs Merger.empty m (fun r h => (hr r h).1) (by simp [Separate, Merger.empty]) hstart
      (by simp [Merger.empty]) ?_ hm
    intro r hr o
    obtain ⟨c, hc1, hc2⟩ := hc r hr
    refine ⟨hEm r hr, ?_, ?_⟩
    · unfold Cell.edges; dsimp only; rw [← hc2]; exact h2 c hc1
    · unfold Cell.edges; dsimp only; rw [← hc2]; exact hself c hc1
  obtain ⟨D, hD, hsep⟩ : ∃ D, E.Perm ((D ++ D.map opp) ++ allEdges (m.cells.map Cell.vertices)) ∧ Separate m.cells := by
    rcases c28_main runs hr hnd with h' | ⟨s, h', hs, _, D, hD⟩
    · rw [hm] at h'; cases h'
    · rw [hm] at h'
      cases h'
      exact ⟨D, hD, hs⟩
  have g0 := good (fun _ => ()) (fun _ _ _ => rfl) (fun _ _ _ _ _ _ => rfl)
  have hF : ∀ e ∈ allEdges (m.cells.map Cell.vertices), opp e ∉ allEdges (m.cells.map Cell.vertices) := by
    intro e he hc'
    obtain ⟨v, hv, he⟩ := List.mem_flatMap.1 he
    obtain ⟨k, hk, rfl⟩ := List.mem_map.1 hv
    obtain ⟨v', hv', he'⟩ := List.mem_flatMap.1 hc'
    obtain ⟨k', hk', rfl⟩ := List.mem_map.1 hv'
    by_cases hkk : k = k'
    · subst hkk
      exact (g0 k hk).once e he he'
    · have : Std.Symm fun a b : Cell Pt => NoOpp a.edges b.edges := ⟨fun _ _ h => h.symm⟩
      have : NoOpp k.edges k'.edges := List.Pairwise.forall hsep hk hk' hkk
      exact this e he he'
  have hFn : (allEdges (m.cells.map Cell.vertices)).Nodup := (List.nodup_append.1 (hD.nodup_iff.1 hnd)).2.1
  have hFE : ∀ e ∈ allEdges (m.cells.map Cell.vertices), e ∈ E := fun e he => hD.mem_iff.2 (List.mem_append_right _ he)
  intro k hk
  have hkF : ∀ e ∈ polyEdges k.vertices, e ∈ allEdges (m.cells.map Cell.vertices) := fun e he =>
    List.mem_flatMap.2 ⟨_, List.mem_map_of_mem hk, he⟩
  refine ⟨fun e he => final_once hnd hD hF (hkF e he), fun hkne => ?_⟩
  have hkH : ∀ e ∈ polyEdges k.vertices, e ∈ H := fun e he => hEH e (hFE e (hkF e he))
  have hkn : (polyEdges k.vertices).Nodup := by
    exact (List.nodup_flatMap.1 hFn).1 _ (List.mem_map_of_mem hk)
  refine loop_sides hB.planar hkH hkn (g0 k hk).once hkne (good (sideOf H k.vertices) ?_ ?_ k hk).const
  · intro e he he'
    have n1 : e ∉ polyEdges k.vertices := fun hc' => final_once hnd hD hF (hkF e hc') he'
    have n2 : opp e ∉ polyEdges k.vertices := fun hc' => final_once hnd hD hF (hkF _ hc') (by rw [opp_opp]; exact he)
    obtain ⟨l, r, hlr⟩ := across_exists hB.planar (hEH e he)
    rw [sideOf_eq hB.planar hkH (hEH e he) hlr.sees, sideOf_eq hB.planar hkH (hEH _ he') hlr.rev.sees]
    obtain ⟨⟨t, s, t0, t1, s0, s1, hx⟩, a, c, o⟩ := hlr
    have h2 := winding_jump k.vertices l r e t0 t1 hx a c fun j hj => o j (hkH j hj)
    have n2' : (e.2, e.1) ∉ polyEdges k.vertices := n2
    rw [List.count_eq_zero_of_not_mem n1, List.count_eq_zero_of_not_mem n2'] at h2
    simp at h2
    linarith
  · intro c hcA e he f hf
    have hin : ∀ e ∈ polyEdges c.vertices, e ∈ H := fun e he =>
      hB.sub e (List.mem_flatMap.2 ⟨c.vertices, List.mem_map_of_mem hcA, he⟩)
    obtain ⟨p, hp, hpc⟩ := hB.sees c hcA e he
    obtain ⟨q, hq, hqc⟩ := hB.sees c hcA f hf
    rw [sideOf_eq hB.planar hkH (hin e he) hp, sideOf_eq hB.planar hkH (hin f hf) hq]
    exact (hpc.trans hqc.symm).winding hkH

/-- Every edge of an arrangement runs along one of the segments it was built from. -/
theorem build_along (ch : Choices) (hch : ch.Valid) (segments : List Seg) (hd : ∀ s ∈ segments, s.1 ≠ s.2)
    (A : Arrangement) (h : build ch segments = .ok A) :
    ∀ k ∈ A.net.halfEdges, ∃ s ∈ segments, OnSeg s k.1 ∧ OnSeg s k.2 := by
  obtain ⟨net, aabb, verts, hb, _, _, hn, hon, _⟩ := buildNet_spec ch hch segments hd
  unfold build at h
  obtain ⟨na, h1, h⟩ := (bind_ok _ _ _).1 h
  rw [hb] at h1
  cases h1
  dsimp only at h
  obtain ⟨_, _, h⟩ := (bind_ok _ _ _).1 h
  obtain ⟨R, hR, h⟩ := (bind_ok _ _ _).1 h
  obtain ⟨st, hst, h⟩ := (bind_ok _ _ _).1 h
  obtain ⟨cells, hcells, h⟩ := (bind_ok _ _ _).1 h
  obtain ⟨info, _, h⟩ := (bind_ok _ _ _).1 h
  obtain ⟨conts, _, h⟩ := (bind_ok _ _ _).1 h
  cases h
  intro k hk
  obtain ⟨s, hs, h1, h2⟩ := (hn.elem k hk).on
  have hs' := (hch.segs (normSegs segments)).mem_iff.1 hs
  unfold normSegs at hs'
  rw [List.mem_dedup, List.mem_map] at hs'
  obtain ⟨t, ht, rfl⟩ := hs'
  refine ⟨t, ht, ?_⟩
  rcases segSorted_cases t with e | e <;> rw [e] at h1 h2
  · exact ⟨h1, h2⟩
  · exact ⟨(onSeg_rev _ _).1 h1, (onSeg_rev _ _).1 h2⟩

theorem polyCells_sides (ch : Choices) (hch : ch.Valid) {A : Arrangement} (hB : BuildOK A)
    (hself : ∀ c ∈ A.cells, ∀ e ∈ polyEdges c.vertices, (e.2, e.1) ∉ polyEdges c.vertices) (cells : List (List Pt))
    (hsub : cells.Sublist (A.cells.map Cell1.vertices)) (r : Geom2D) (h : polyCells ch A cells = .ok r) :
    r.Outlined ∧ ∀ s ∈ r, (∀ e ∈ polyEdges s.outer, (e.2, e.1) ∉ allEdges cells) ∧
      ∀ k ∈ s.holes, ∀ e ∈ polyEdges k, e ∉ allEdges cells := by
  have hnd : (allEdges cells).Nodup := (allEdges_sublist hsub).nodup hB.nodup
  unfold polyCells at h
  dsimp only at h
  set cs := ch.cells cells with hcs
  set n := (cs.map List.length).sum with hn
  set runs := cs.zipIdx.map fun c => (ch.merger c.2, (n + 1) * (n + 1), c.1) with hruns
  have hperm : cs.Perm cells := hch.cells cells
  have hre : runEdges runs = allEdges cs := by
    unfold runEdges
    rw [hruns, List.map_map]
    have : ((fun r : Orders Pt × ℕ × List Pt => r.2.2) ∘ fun c : List Pt × ℕ =>
        (ch.merger c.2, (n + 1) * (n + 1), c.1)) = Prod.fst := rfl
    rw [this, List.zipIdx_map_fst]
  have hlen : (allEdges cs).length = n := by
    unfold allEdges
    rw [List.length_flatMap, hn]
    congr 1
    exact List.map_congr_left fun l _ => polyEdges_length l
  have hpe : (allEdges cs).Perm (allEdges cells) := hperm.flatMap_right _
  have hcr : CompleteRuns runs := by
    intro x hx
    obtain ⟨c, _, rfl⟩ := List.mem_map.1 hx
    refine ⟨hch.merger _, ?_⟩
    rw [hre, hlen]
  have hcell : ∀ r ∈ runs, ∃ c ∈ A.cells, c.vertices = r.2.2 := by
    intro x hx
    obtain ⟨c, hc, rfl⟩ := List.mem_map.1 hx
    have : c.1 ∈ cs := by
      have : c.1 ∈ cs.zipIdx.map Prod.fst := List.mem_map_of_mem hc
      rwa [List.zipIdx_map_fst] at this
    exact List.mem_map.1 (hsub.subset (hperm.mem_iff.1 this))
  obtain ⟨m, hm, h⟩ := (bind_ok _ _ _).1 h
  obtain ⟨co, hco, h⟩ := (bind_ok _ _ _).1 h
  obtain ⟨⟨pos, neg⟩, hsp, h⟩ := (bind_ok _ _ _).1 h
  dsimp only at h
  obtain ⟨pm, hpm, h⟩ := (bind_ok _ _ _).1 h
  obtain ⟨pn, hpn, h⟩ := (bind_ok _ _ _).1 h
  obtain ⟨hw, hr⟩ := makePolys_spec ch hch pn _ r h
  have hsides := merged_sides hB hself runs hcr (by rw [hre]; exact hpe.nodup_iff.2 hnd) hcell hm
  have hmerged : ∀ c ∈ co, (∀ e ∈ polyEdges c.1, (e.2, e.1) ∉ allEdges cells) ∧
      (c.1 ≠ [] → Sides c.1 0 (-1) ∨ Sides c.1 1 0) := by
    unfold getCellsOriginals at hco
    obtain ⟨_, _, hco⟩ := (bind_ok _ _ _).1 hco
    cases hco
    intro c hc
    obtain ⟨k, hk, rfl⟩ := List.mem_map.1 hc
    refine ⟨fun e he hE => ?_, (hsides k hk).2⟩
    have := (hsides k hk).1 e he
    rw [hre, hpe.mem_iff] at this
    exact this hE
  obtain ⟨s1, s2⟩ := splitSign_spec _ _ _ hsp
  have hpn' := posNegatives_spec _ _ _ _ hpn
  have out : ∀ L : List Pt, shoelace L < 0 → Sides L 0 (-1) ∨ Sides L 1 0 → Outline L := by
    intro L hL h
    rcases h with h | h
    · exact h.outline
    · exact absurd hL (not_lt.2 (h.shoelace (ne_nil_of_shoelace hL)))
  have outer : ∀ s ∈ r, ∃ c ∈ co, c.1 = s.outer := by
    intro s hs
    obtain ⟨c, hc, e⟩ := List.mem_map.1 (hr s hs).1
    exact ⟨c, (hch.merged co).mem_iff.1 (s1 c hc), e⟩
  have hole : ∀ s ∈ r, ∀ k ∈ s.holes, ∃ c ∈ co, c.1 = k.reverse := by
    intro s hs k hk
    have hk' := (hr s hs).2 k hk
    rw [hpn'] at hk'
    obtain ⟨c, hc, ec⟩ := List.mem_map.1 hk'
    exact ⟨c, (hch.merged co).mem_iff.1 (s2 c hc), ec⟩
  refine ⟨fun s hs => ?_, fun s hs => ⟨?_, fun k hk e he => ?_⟩⟩
  · obtain ⟨-, v1, v2⟩ := ((SPWH.mk'_iff _ _ _).1 (hw s hs)).2
    refine ⟨?_, fun k hk => ?_⟩
    · obtain ⟨c, hc, e⟩ := outer s hs
      have := (hmerged c hc).2
      rw [e] at this
      exact out _ v1 (this (ne_nil_of_shoelace v1))
    · obtain ⟨c, hc, ec⟩ := hole s hs k hk
      have := (hmerged c hc).2
      rw [ec] at this
      have hkn := ne_nil_of_shoelace (v2 k hk).1
      refine out k (v2 k hk).1 ?_
      rcases this (by simpa using hkn) with h | h
      · have := h.reverse
        rw [List.reverse_reverse] at this
        exact Or.inr (by simpa using this)
      · have := h.reverse
        rw [List.reverse_reverse] at this
        exact Or.inl (by simpa using this)
  · obtain ⟨c, hc, e⟩ := outer s hs
    rw [← e]
    exact (hmerged c hc).1
  · obtain ⟨c, hc, ec⟩ := hole s hs k hk
    have := (hmerged c hc).1 (e.2, e.1)
    rw [ec] at this
    exact this (mem_reverse_edges.2 he)

/-- The geom is inside just right of the edge and outside just left of it. -/
def Parts (g : Geom2D) (e : Seg) : Prop :=
  ∀ s : ℚ, 0 < s → s < 1 → ∀ u : Pt, cross (dir e) u < 0 →
    ∃ δ : ℚ, 0 < δ ∧ ∀ ε : ℚ, 0 < ε → ε < δ →
      Geom2D.locate g (along e s + (ε * u.1, ε * u.2)) = .ok 1 ∧
      Geom2D.locate g (along e s - (ε * u.1, ε * u.2)) = .ok (-1)

/-- Every edge is between the inside and the outside of the geom. -/
def _root_.Ply.Geom2D.Crisp (g : Geom2D) : Prop :=
  ∀ s ∈ g, (∀ e ∈ polyEdges s.outer, Parts g e) ∧ ∀ h ∈ s.holes, ∀ e ∈ polyEdges h, Parts g (e.2, e.1)

theorem locate_off {g : Geom2D} (hg : g.WellMade) {p : Pt} (hp : ¬ g.OnEdge p) (h : Geom2D.locate g p ≠ .ok 1) :
    Geom2D.locate g p = .ok (-1) := by
  obtain ⟨v, e1, e2, e3, e4⟩ := c31_locate g hg p
  have h1 : v ≠ 1 := fun hc => h (by rw [e1, hc])
  rw [e1, Except.ok.injEq, e4]
  intro s hs
  have hoff : OffEdges s.outer s.holes p :=
    ⟨fun hc => hp ⟨s, hs, Or.inl hc⟩, fun k hk hc => hp ⟨s, hs, Or.inr ⟨k, hk, hc⟩⟩⟩
  obtain ⟨i1, -, i3, -⟩ := c31_locate_polygon _ _ s (hg s hs) p
  rcases c31_locate_off_edges _ _ s (hg s hs) p hoff with h' | h'
  · exact absurd (e2.2 ⟨s, hs, i1.1 h'⟩) h1
  · exact i3.1 h'

theorem parts_of {H : List Seg} (hP : Planar H) {g : Geom2D} (hg : g.WellMade) (hin : ∀ x, g.OnEdge x → OnAny H x) {h : Seg}
    (hh : h ∈ H) (hr : ∀ p, Sees H h p → Geom2D.locate g p = .ok 1)
    (hl : ∀ p, Sees H (h.2, h.1) p → Geom2D.locate g p ≠ .ok 1) : Parts g h := by
  intro s s0 s1 u hu
  have r1 := sees_small hP hh s0 s1 hu
  have r2 := sees_small hP (hP.rev h hh) (s := 1 - s) (by linarith) (by linarith) (u := -u) (by
    have : cross (dir (h.2, h.1)) (-u) = cross (dir h) u := by
      unfold cross dir; simp only [Prod.fst_neg, Prod.snd_neg]; ring
    rw [this]; exact hu)
  rw [along_rev, sub_sub_cancel] at r2
  refine eventually_right.1 ((r1.and r2).mono fun ε hε => ⟨hr _ hε.1, ?_⟩)
  have e : along h s - (ε * u.1, ε * u.2) = along h s + ε • -u := by
    ext <;> simp only [Prod.fst_sub, Prod.snd_sub, Prod.fst_add, Prod.snd_add, Prod.smul_fst, Prod.smul_snd, smul_eq_mul,
      Prod.fst_neg, Prod.snd_neg] <;> ring
  rw [e]
  exact locate_off hg (fun hc => hε.2.off (hin _ hc)) (hl _ hε.2)

/-- An edge is an edge of the cells selected if and only if the points on its right are selected. -/
theorem selected_side {A : Arrangement} (hB : BuildOK A) (gs : List Geom2D) (op : List Bool → Bool)
    (hg : ∀ g ∈ gs, Geom2D.WellMade g)
    (hin : ∀ g ∈ gs, ∀ x, Geom2D.OnEdge g x → OnAny A.net.halfEdges x) (cells : List (List Pt))
    (hcells : selectCells gs op A.cells = .ok cells) (h : Seg) (hh : h ∈ A.net.halfEdges) (r : Pt)
    (hr : Sees A.net.halfEdges h r) :
    h ∈ allEdges cells ↔ op (gs.map fun g => decide (Geom2D.locate g r = .ok 1)) = true := by
  set H := A.net.halfEdges with hH
  set S : Pt → Bool := fun p => op (gs.map fun g => decide (Geom2D.locate g p = .ok 1)) with hS
  have hsel := selectCells_eq gs op A.cells cells hcells
  have hface : ∀ p q, ¬ OnAny H p → ¬ OnAny H q → SameFace H p q → S p = S q := by
    intro p q h1 h2 h3
    rw [hS]
    refine congrArg op ?_
    refine List.map_congr_left fun g hg' => ?_
    rw [decide_eq_decide]
    exact locate_face g (hg g hg') (hin g hg') h1 h2 h3
  constructor
  · intro hm
    obtain ⟨v, hv, he⟩ := List.mem_flatMap.1 hm
    rw [hsel] at hv
    obtain ⟨c, hc, rfl⟩ := List.mem_map.1 hv
    obtain ⟨hc1, hc2⟩ := List.mem_filter.1 hc
    obtain ⟨y, hy, hyc⟩ := hB.sees c hc1 h he
    change S r = true
    rw [hface r c.point hr.off (hB.off c hc1) ((sees_same hB.planar hh hr hy).trans hyc)]
    exact hc2
  · intro hs
    change S r = true at hs
    obtain ⟨c, hc, he⟩ := hB.every h hh
    obtain ⟨y, hy, hyc⟩ := hB.sees c hc h he
    rw [hface r c.point hr.off (hB.off c hc) ((sees_same hB.planar hh hr hy).trans hyc)] at hs
    refine List.mem_flatMap.2 ⟨c.vertices, ?_, he⟩
    rw [hsel]
    exact List.mem_map_of_mem (List.mem_filter.2 ⟨hc, hs⟩)

/-- The loops of the result of an operation on geoms whose loops do not run back along themselves are outlines,
and if nothing is selected where no operand is, they are between the inside and the outside of the result. -/
theorem arrangementOp_outlined (ch : Choices) (hch : ch.Valid) (gs : List Geom2D) (op : List Bool → Bool) (r : Geom2D)
    (hg : ∀ g ∈ gs, Geom2D.WellMade g) (ho : ∀ g ∈ gs, Geom2D.Cutting g) (h : arrangementOp ch gs op = .ok r) :
    r.Outlined ∧ (op (gs.map fun _ => false) = false → r.Crisp) := by
  have h' := h
  unfold arrangementOp at h
  obtain ⟨A, hA, h⟩ := (bind_ok _ _ _).1 h
  obtain ⟨cells, hcells, h⟩ := (bind_ok _ _ _).1 h
  obtain ⟨polys, hpolys, h⟩ := (bind_ok _ _ _).1 h
  obtain ⟨_, hcheck, h⟩ := (bind_ok _ _ _).1 h
  cases h
  obtain ⟨hB, hon⟩ := build_spec ch hch _ (segments_ne gs hg) A hA
  have hal := build_along ch hch _ (segments_ne gs hg) A hA
  have hself : ∀ c ∈ A.cells, ∀ e ∈ polyEdges c.vertices, (e.2, e.1) ∉ polyEdges c.vertices := by
    intro c hc e he he'
    have heH : e ∈ A.net.halfEdges := hB.sub e (List.mem_flatMap.2 ⟨c.vertices, List.mem_map_of_mem hc, he⟩)
    obtain ⟨p, hp, hpc⟩ := hB.sees c hc e he
    obtain ⟨q, hq, hqc⟩ := hB.sees c hc _ he'
    obtain ⟨s, hs, h1, h2⟩ := hal e heH
    obtain ⟨g, hg', hs⟩ := List.mem_flatMap.1 hs
    obtain ⟨sp, hsp, hs'⟩ := List.mem_flatMap.1 hs
    have within : ∀ L : List Pt, (∀ e ∈ polyEdges L, e ∈ g.allSegments) → Within A.net.halfEdges L := fun L hL e he x hx =>
      (hon x).2 ⟨e, List.mem_flatMap.2 ⟨g, hg', hL e he⟩, hx⟩
    obtain ⟨m1, m2⟩ := mem_edges hsp
    unfold SPWH.segments at hs'
    rcases List.mem_append.1 hs' with h | h
    · rw [edgesIter_eq] at h
      exact two_faces hB.planar heH (ho g hg' sp hsp).1 (within _ m1) (fun x hx => ⟨s, h, onSeg_between h1 h2 hx⟩) hp hq
        (hpc.trans hqc.symm)
    · obtain ⟨k, hk, h⟩ := List.mem_flatMap.1 h
      rw [edgesIter_eq] at h
      exact two_faces hB.planar heH ((ho g hg' sp hsp).2 k hk) (within _ (m2 k hk)) (fun x hx => ⟨s, h, onSeg_between h1 h2 hx⟩)
        hp hq (hpc.trans hqc.symm)
  have hsub := selectCells_spec gs op A.cells cells hcells
  have hnd : (allEdges cells).Nodup := (allEdges_sublist hsub).nodup hB.nodup
  obtain ⟨k1, k2⟩ := polyCells_sides ch hch hB hself cells hsub r hpolys
  refine ⟨k1, fun hop => ?_⟩
  obtain ⟨hw, hedge, hloc⟩ := arrangementOp_sound ch hch gs op r hop hg h'
  obtain ⟨-, c2⟩ := polyCells_spec ch hch A cells hnd r hpolys
  have hon' : ∀ x, OnAny A.net.halfEdges x ↔ ∃ g ∈ gs, Geom2D.OnEdge g x := fun x => (hon x).trans (onAny_flat gs x)
  have hloc' : ∀ p, ¬ OnAny A.net.halfEdges p →
      (Geom2D.locate r p = .ok 1 ↔ op (gs.map fun g => decide (Geom2D.locate g p = .ok 1)) = true) := by
    intro p hp
    exact hloc p fun g hg' hx => hp ((hon' p).2 ⟨g, hg', hx⟩)
  have hmem := selected_side hB gs op hg (fun g hg' x hx => (hon' x).2 ⟨g, hg', hx⟩) cells hcells
  have hEH : ∀ e ∈ allEdges cells, e ∈ A.net.halfEdges := fun e he => hB.sub e ((allEdges_sublist hsub).subset he)
  have part : ∀ e ∈ allEdges cells, (e.2, e.1) ∉ allEdges cells → Parts r e := by
    intro e he he'
    refine parts_of hB.planar hw (fun x hx => (hon' x).2 (hedge x hx)) (hEH e he) (fun p hp => ?_) fun p hp => ?_
    · rw [hloc' p hp.off]
      exact (hmem e (hEH e he) p hp).1 he
    · rw [ne_eq, hloc' p hp.off]
      exact fun hc => he' ((hmem _ (hB.planar.rev e (hEH e he)) p hp).2 hc)
  intro s hs
  exact ⟨fun e he => part e ((c2 s hs).1 e he) ((k2 s hs).1 e he),
    fun k hk e he => part _ ((c2 s hs).2 k hk e he) ((k2 s hs).2 k hk e he)⟩

end Arr

end Ply
