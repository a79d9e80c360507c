import Verif.Proofs.Minkowski

/-! # Moving a point a little -/

namespace Ply

open Filter Topology

theorem off_small {S : List Seg} {p : Pt} (h : ¬ OnAny S p) (u : Pt) :
    ∀ᶠ ε in 𝓝[>] (0 : ℚ), ∀ x, OnSeg (p, p + ε • u) x → ¬ OnAny S x := by
  have := small_list S (fun s ε => ∀ x, OnSeg (p, p + ε • u) x → ¬ OnSeg s x) fun s hs => by
    filter_upwards [push (p, p) s 0 u (fun x hx => h ⟨s, hs, by
      obtain ⟨t, _, _, rfl⟩ := hx.1
      have : along (p, p) t = p := by unfold along; simp
      rw [this] at hx
      exact hx.2⟩)] with ε hε
    simpa using hε
  filter_upwards [this] with ε hε x hx
  rintro ⟨s, hs, ho⟩
  exact hε s hs x hx ho

theorem poly_small {L : List Pt} {p : Pt} (h : ¬ OnBoundary L p) (u : Pt) :
    ∀ᶠ ε in 𝓝[>] (0 : ℚ), ¬ OnBoundary L (p + ε • u) ∧ windingNumber L (p + ε • u) = windingNumber L p := by
  filter_upwards [off_small (S := polyEdges L) h u] with ε hε
  exact ⟨hε _ (onSeg_right _), (winding_const L _ _ hε).symm⟩

theorem inPoly_small {L : List Pt} {p : Pt} (h : InPoly L p) (u : Pt) : ∀ᶠ ε in 𝓝[>] (0 : ℚ), InPoly L (p + ε • u) := by
  filter_upwards [poly_small h.1 u] with ε hε
  exact ⟨hε.1, hε.2 ▸ h.2⟩

theorem outPoly_small {L : List Pt} {p : Pt} (h : OutPoly L p) (u : Pt) : ∀ᶠ ε in 𝓝[>] (0 : ℚ), OutPoly L (p + ε • u) := by
  filter_upwards [poly_small h.1 u] with ε hε
  exact ⟨hε.1, hε.2 ▸ h.2⟩

theorem locate_small {g : Geom2D} (hg : g.WellMade) {p : Pt} (h : Geom2D.locate g p = .ok 1) (u : Pt) :
    ∀ᶠ ε in 𝓝[>] (0 : ℚ), Geom2D.locate g (p + ε • u) = .ok 1 := by
  obtain ⟨s, hs, h1, h2⟩ := (locate_one hg p).1 h
  filter_upwards [inPoly_small h1 u, small_list s.holes (fun h ε => OutPoly h (p + ε • u)) fun h hh => outPoly_small (h2 h hh) u]
    with ε a b
  exact (locate_one hg _).2 ⟨s, hs, a, b⟩

/-- Off the edges, being outside is kept as well. -/
theorem locate_small_not {g : Geom2D} (hg : g.WellMade) {p : Pt} (h : ¬ Geom2D.locate g p = .ok 1) (he : ¬ g.OnEdge p) (u : Pt) :
    ∀ᶠ ε in 𝓝[>] (0 : ℚ), ¬ Geom2D.locate g (p + ε • u) = .ok 1 := by
  have := small_list g (fun s ε => ¬ InRegion s.outer s.holes (p + ε • u)) fun s hs => by
    have hn : ¬ InRegion s.outer s.holes p := fun hc => h ((locate_one hg p).2 ⟨s, hs, hc⟩)
    have ho : ¬ OnBoundary s.outer p := fun hc => he ⟨s, hs, Or.inl hc⟩
    by_cases hi : InPoly s.outer p
    · unfold InRegion at hn
      push Not at hn
      obtain ⟨k, hk, hk'⟩ := hn hi
      have hb : ¬ OnBoundary k p := fun hc => he ⟨s, hs, Or.inr ⟨k, hk, hc⟩⟩
      have hik : InPoly k p := ⟨hb, fun hc => hk' ⟨hb, hc⟩⟩
      filter_upwards [inPoly_small hik u] with ε hε hc
      exact hε.2 (hc.2 k hk).2
    · have : OutPoly s.outer p := ⟨ho, by by_contra hc; exact hi ⟨ho, hc⟩⟩
      filter_upwards [outPoly_small this u] with ε hε hc
      exact hc.1.2 hε.2
  filter_upwards [this] with ε hε hc
  obtain ⟨s, hs, hr⟩ := (locate_one hg _).1 hc
  exact hε s hs hr

/-- A direction that leaves finitely many segments at once. -/
theorem generic_dir (S : List Seg) (p : Pt) : ∃ u : Pt, ∀ᶠ ε in 𝓝[>] (0 : ℚ), ¬ OnAny S (p + ε • u) := by
  obtain ⟨u, hu⟩ := exists_generic (0 : Pt) ((1, 0) :: (S.map dir).filter (fun d => decide (d ≠ 0))) (by
    intro v hv
    rcases List.mem_cons.1 hv with rfl | hv
    · intro h; have := congrArg Prod.fst h; simp at this
    · simpa using (List.mem_filter.1 hv).2)
  refine ⟨u, ?_⟩
  have hor : ∀ v : Pt, orient u v 0 = cross u v := fun v => by unfold orient cross; simp; ring
  have hu0 : u ≠ 0 := by
    rintro rfl
    have := hu (1, 0) (List.mem_cons_self ..)
    rw [hor] at this
    simp [cross] at this
  have := small_list S (fun s ε => ¬ OnSeg s (p + ε • u)) fun s hs => by
    by_cases hd : dir s = 0
    · have hss : ∀ x, OnSeg s x → x = s.1 := by
        rintro x ⟨t, _, _, rfl⟩
        rw [along_eq, hd, smul_zero, add_zero]
      by_cases hp : p = s.1
      · filter_upwards [small_pos] with ε hε ho
        have := hss _ ho
        rw [← hp, add_eq_left] at this
        exact smul_ne hε.ne' hu0 this
      · filter_upwards [off_small (S := [s]) (p := p) (by
          rintro ⟨s', hs', ho⟩
          rw [List.mem_singleton] at hs'
          exact hp (hss _ (hs' ▸ ho))) u] with ε hε ho
        exact hε _ (onSeg_right _) ⟨s, List.mem_singleton.2 rfl, ho⟩
    · have hc : cross u (dir s) ≠ 0 := by
        rw [← hor]
        exact hu _ (List.mem_cons_of_mem _ (List.mem_filter.2 ⟨List.mem_map_of_mem hs, by simpa using hd⟩))
      by_cases hp : OnSeg s p
      · obtain ⟨t, _, _, rfl⟩ := hp
        filter_upwards [small_pos] with ε hε
        rintro ⟨t', _, _, e⟩
        rw [along_eq, along_eq] at e
        have : ε • u = (t' - t) • dir s := by
          rw [sub_smul, eq_sub_iff_add_eq]
          have := congrArg (fun x => x - s.1) e
          simp only [add_sub_cancel_left] at this
          rw [← this]; abel
        have h2 := congrArg (fun x => cross x (dir s)) this
        simp only [cross_smul_left, cross_self, mul_zero] at h2
        rcases mul_eq_zero.1 h2 with h | h
        · exact hε.ne' h
        · exact hc h
      · filter_upwards [off_small (S := [s]) (p := p) (by
          rintro ⟨s', hs', ho⟩
          rw [List.mem_singleton] at hs'
          exact hp (hs' ▸ ho)) u] with ε hε ho
        exact hε _ (onSeg_right _) ⟨s, List.mem_singleton.2 rfl, ho⟩
  filter_upwards [this] with ε hε
  rintro ⟨s, hs, ho⟩
  exact hε s hs ho

/-- Being out of reach is kept when moving a little. -/
theorem reach_small {C : List Pt} (hC : Conv C) {L : List Pt} (hL : L ≠ []) {p : Pt} (h : ¬ Reach C 1 L p) (u : Pt) :
    ∀ᶠ ε in 𝓝[>] (0 : ℚ), ¬ Reach C 1 L (p + ε • u) := by
  obtain ⟨z, t, hT⟩ := exists_touch hC L hL p
  have ht : 1 < t := by
    by_contra hc
    push Not at hc
    refine h ⟨z, hT.on, (hC.in_iff _).2 fun k => ?_⟩
    have := hT.le k
    have h2 := hC.hh_pos k
    simp only [Int.cast_one, one_smul]
    nlinarith
  -- `k` ranges over finitely many edges
  have key := small_list (List.range C.length) (fun k ε => hh C k - ε * cross (ce C k) u < t * hh C k) fun k _ => by
    have h2 := hC.hh_pos k
    filter_upwards [small_affine_lt (hh C k) (-cross (ce C k) u) (t * hh C k) (by nlinarith)] with ε hε
    linarith
  filter_upwards [key] with ε hε
  rintro ⟨z', hz', hin⟩
  rw [hC.in_iff] at hin
  obtain ⟨k, hk⟩ := hT.min z' hz'
  have hn : (0 : ℤ) < C.length := by have := hC.pos; omega
  set j := (k % (C.length : ℤ)).toNat with hj
  have hj' : (j : ℤ) = k % (C.length : ℤ) := by rw [hj, Int.toNat_of_nonneg (Int.emod_nonneg _ hn.ne')]
  have hlt : j < C.length := by have := Int.emod_lt_of_pos k hn; omega
  have e1 : ce C k = ce C j := by rw [hj', ce_emod]
  have e2 : hh C k = hh C j := by
    unfold hh
    rw [cv_congr C (k := k) (l := (j : ℤ)) (by rw [hj', Int.emod_emod]),
      cv_congr C (k := k + 1) (l := (j : ℤ) + 1) (by rw [hj', Int.emod_add_emod])]
  have h1 := hε j (List.mem_range.2 hlt)
  have h3 := hin j
  rw [e1, e2] at hk
  simp only [Int.cast_one, one_smul] at h3
  have : p + ε • u - z' = (p - z') + ε • u := by abel
  rw [this, cross_add_right, cross_smul_right] at h3
  linarith

/-- Between points that differ by a vector of the shape, the loop is not met when it is out of reach. -/
theorem path_clear {C : List Pt} (hC : Conv C) {L : List Pt} {p y : Pt} (h : ¬ Reach C 1 L p) (hy : InConvex C (p - y)) :
    ∀ x, OnSeg (p, y) x → ¬ OnBoundary L x := by
  rintro x ⟨t, t0, t1, rfl⟩ hb
  refine h ⟨_, hb, ?_⟩
  have : p - along (p, y) t = t • (p - y) := by
    rw [along_eq]; unfold dir; ext <;> simp <;> ring
  rw [Int.cast_one, one_smul, this]
  exact hC.in_smul hy t0 t1

theorem path_winding {C : List Pt} (hC : Conv C) {L : List Pt} {p y : Pt} (h : ¬ Reach C 1 L p) (hy : InConvex C (p - y)) :
    ¬ OnBoundary L p ∧ ¬ OnBoundary L y ∧ windingNumber L p = windingNumber L y :=
  ⟨path_clear hC h hy _ (onSeg_left _), path_clear hC h hy _ (onSeg_right _), winding_const L _ _ (path_clear hC h hy)⟩

end Ply
