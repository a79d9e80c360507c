import Verif.Proofs.SimpleRing
import Verif.Proofs.Perturb

/-! # A simple ring has an area -/

namespace Ply

open Filter Topology MeasureTheory Arr

/-- Close to a point inside there is one that is level with no corner and on no line of an edge. -/
theorem inPoly_generic {L : List Pt} (hne : ∀ e ∈ polyEdges L, e.1 ≠ e.2) {p : Pt} (hp : InPoly L p) :
    ∃ q, InPoly L q ∧ ∀ e ∈ polyEdges L, q.2 ≠ e.1.2 ∧ q.2 ≠ e.2.2 ∧ orient e.1 e.2 q ≠ 0 := by
  obtain ⟨u, hu⟩ := exists_generic (0 : Pt) ((1, 0) :: (polyEdges L).map dir) (by
    intro v hv
    rcases List.mem_cons.1 hv with rfl | hv
    · intro h; have := congrArg Prod.fst h; simp at this
    · obtain ⟨e, he, rfl⟩ := List.mem_map.1 hv
      intro hc
      have : e.2 - e.1 = 0 := hc
      exact hne e he (sub_eq_zero.1 this).symm)
  have hor : ∀ v : Pt, orient u v 0 = cross u v := fun v => by unfold orient cross; simp; ring
  have h2 : u.2 ≠ 0 := by
    have := hu (1, 0) (List.mem_cons_self ..)
    rw [hor] at this
    simpa [cross] using this
  have hc : ∀ e ∈ polyEdges L, cross (dir e) u ≠ 0 := by
    intro e he h
    refine hu (dir e) (List.mem_cons_of_mem _ (List.mem_map_of_mem he)) ?_
    rw [hor]
    have : cross u (dir e) = -cross (dir e) u := by unfold cross; ring
    rw [this, h, neg_zero]
  have lev : ∀ c : ℚ, ∀ᶠ ε in 𝓝[>] (0 : ℚ), p.2 + ε * u.2 ≠ c := by
    intro c
    filter_upwards [small_ne ((c - p.2) / u.2)] with ε hε h
    apply hε
    rw [eq_div_iff h2]; linarith
  have key := small_list (polyEdges L) (fun e ε => (p + ε • u).2 ≠ e.1.2 ∧ (p + ε • u).2 ≠ e.2.2 ∧
      orient e.1 e.2 (p + ε • u) ≠ 0) fun e he => by
    filter_upwards [lev e.1.2, lev e.2.2, small_ne (-orient e.1 e.2 p / cross (dir e) u)] with ε a b c
    refine ⟨a, b, fun h => c ?_⟩
    rw [eq_div_iff (hc e he)]
    have : orient e.1 e.2 (p + ε • u) = orient e.1 e.2 p + ε * cross (dir e) u := by
      unfold orient cross dir
      simp only [Prod.fst_add, Prod.snd_add, Prod.smul_fst, Prod.smul_snd, smul_eq_mul]
      ring
    linarith
  obtain ⟨ε, -, a, b⟩ := small_exists ((inPoly_small hp u).and key)
  exact ⟨_, a, b⟩

theorem shoelace_pos {L : List Pt} (hne : ∀ e ∈ polyEdges L, e.1 ≠ e.2)
    (h : ∀ p, ¬ OnBoundary L p → 0 ≤ windingNumber L p) {p : Pt} (hp : InPoly L p) : 0 < shoelace L := by
  refine (shoelace_nonneg hne h).lt_of_ne fun h0 => ?_
  obtain ⟨q, hq, hgen⟩ := inPoly_generic hne hp
  obtain ⟨m, hm⟩ : ∃ m : ℚ, m < q.1 ∧ ∀ v ∈ L, m ≤ v.1 := by
    clear h hne h0 hgen hp hq
    induction L with
    | nil => exact ⟨q.1 - 1, by linarith, by simp⟩
    | cons a L ih =>
      obtain ⟨m, h1, hm⟩ := ih
      refine ⟨min m a.1, (min_le_left _ _).trans_lt h1, fun v hv => ?_⟩
      rcases List.mem_cons.1 hv with rfl | hv
      · exact min_le_right _ _
      · exact (min_le_left _ _).trans (hm v hv)
  obtain ⟨hi, key⟩ := cutW_integral m L hm.2
  have hnn : 0 ≤ᵐ[volume] cutW m L := by
    filter_upwards [generic_rational _ hne] with z ⟨p, hp⟩
    have hN : Near (polyEdges L) z p := hp
    show (0 : ℝ) ≤ cutW m L z
    unfold cutW
    split_ifs
    · rw [hN.winding fun e he => he]
      have := h p fun hc => hN.off hc
      simpa using (Int.cast_nonneg (R := ℝ) this)
    · exact le_refl _
  rw [← h0, Rat.cast_zero, integral_eq_zero_iff_of_nonneg_ae hnn hi] at key
  have ev : ∀ᶠ w in 𝓝 (toR q), cutW m L w ≠ 0 := by
    have e1 : ∀ᶠ w in 𝓝 (toR q), ∀ e ∈ polyEdges L, crossingR w e.1 e.2 = crossingR (toR q) e.1 e.2 := by
      generalize polyEdges L = E at hgen
      induction E with
      | nil => simp
      | cons a E ih =>
        have ha := hgen a List.mem_cons_self
        filter_upwards [crossingR_near a (toR q) ⟨fun h => ha.1 (Rat.cast_injective (α := ℝ) h),
          fun h => ha.2.1 (Rat.cast_injective (α := ℝ) h), by
          rw [orientR_toR]; exact_mod_cast ha.2.2⟩, ih fun e he => hgen e (List.mem_cons_of_mem _ he)] with w h1 h2 e he
        rcases List.mem_cons.1 he with rfl | he
        · exact h1.1
        · exact h2 e he
    have e2 : ∀ᶠ w in 𝓝 (toR q), (m : ℝ) < w.1 :=
      continuousAt_const.eventually_lt continuous_fst.continuousAt (by
        show (m : ℝ) < (q.1 : ℝ)
        exact_mod_cast hm.1)
    filter_upwards [e1, e2] with w w1 w2
    unfold cutW
    rw [if_pos w2]
    have : windingR L w = windingNumber L q := by
      rw [← windingR_toR]
      unfold windingR
      congr 1
      exact List.map_congr_left fun e he => w1 e he
    rw [this]
    exact_mod_cast hq.2
  obtain ⟨U, hU, hUo, hqU⟩ := mem_nhds_iff.1 ev
  have hpos := hUo.measure_pos (volume : Measure (ℝ × ℝ)) ⟨_, hqU⟩
  refine hpos.ne' ?_
  refine measure_mono_null (fun w hw => ?_) key
  exact hU hw

/-- There are points on the side of an edge. -/
theorem Sides.point {L : List Pt} {a b : ℤ} (h : Sides L a b) (hL : L ≠ []) :
    (∃ p, ¬ OnBoundary L p ∧ windingNumber L p = a) ∧ ∃ p, ¬ OnBoundary L p ∧ windingNumber L p = b := by
  obtain ⟨v, hv⟩ := List.exists_mem_of_ne_nil L hL
  obtain ⟨e, he, -⟩ := polyEdges_fst hv
  have hP := h.planar
  have hm : e ∈ bothWays L := mem_bothWays.2 (Or.inl he)
  obtain ⟨u, hu⟩ := right_exists (hP.ne e hm)
  constructor
  · have hu' : 0 < cross (dir e) (-u) := by
      have : cross (dir e) (-u) = -cross (dir e) u := by unfold cross; simp only [Prod.fst_neg, Prod.snd_neg]; ring
      linarith
    have s1 := sees_small hP (hP.rev e hm) (s := 1 / 2) (by norm_num) (by norm_num) (u := -u) (by
      have : cross (dir (e.2, e.1)) (-u) = cross (dir e) u := by
        unfold cross dir; simp only [Prod.fst_neg, Prod.snd_neg]; ring
      rw [this]; exact hu)
    obtain ⟨ε, -, x1, x2⟩ := small_exists (s1.and (h.left e he (1 / 2) (by norm_num) (by norm_num) _ hu'))
    refine ⟨_, fun hc => x1.off (onAny_bothWays.2 hc), ?_⟩
    rw [along_rev]
    norm_num at x2 ⊢
    exact x2
  · have s1 := sees_small hP hm (s := 1 / 2) (by norm_num) (by norm_num) hu
    obtain ⟨ε, -, x1, x2⟩ := small_exists (s1.and (h.right e he (1 / 2) (by norm_num) (by norm_num) _ hu))
    exact ⟨_, fun hc => x1.off (onAny_bothWays.2 hc), x2⟩

theorem SimpleRing.ne_nil {L : List Pt} (h : SimpleRing L) : L ≠ [] := by
  have := h.long; rintro rfl; simp at this

/-- A simple ring encloses an area. -/
theorem SimpleRing.area {L : List Pt} (h : SimpleRing L) : shoelace L ≠ 0 := by
  have key : ∀ M : List Pt, M ≠ [] → Sides M 1 0 → 0 < shoelace M := by
    intro M hM hS
    obtain ⟨⟨p, p1, p2⟩, -⟩ := hS.point hM
    refine shoelace_pos (fun e he => hS.planar.ne e (mem_bothWays.2 (Or.inl he))) (fun q hq => ?_) (p := p) ⟨p1, by rw [p2]; decide⟩
    rcases hS.winding hM hq with e | e <;> rw [e]
    exact zero_le_one
  rcases h.sides with h' | h'
  · have := key L.reverse (by simpa using h.ne_nil) h'.reverse
    rw [shoelace_reverse] at this
    linarith
  · exact (key L h.ne_nil h').ne'

/-- The ring in clockwise direction. -/
theorem SimpleRing.cw {L : List Pt} (h : SimpleRing L) : Outline (if 0 < shoelace L then L.reverse else L) := by
  split_ifs with hs
  · exact h.reverse.outline (by rw [shoelace_reverse]; linarith)
  · exact h.outline (lt_of_le_of_ne (not_lt.1 hs) h.area)

end Ply
