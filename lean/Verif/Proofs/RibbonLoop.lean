import Verif.Proofs.Corner

/-! # The pieces of the ribbon along a loop -/

namespace Ply

theorem cw_neg_neg {a b : Pt} (ha : a ≠ 0) (hb : b ≠ 0) : cw (ang (-a)) (ang (-b)) = cw (ang a) (ang b) := by
  have h1 := cw_neg ha
  have h2 := cw_neg hb
  obtain ⟨a0, a8⟩ := ang_range ha
  obtain ⟨b0, b8⟩ := ang_range hb
  obtain ⟨c0, c8⟩ := ang_range (neg_ne_zero.2 ha)
  obtain ⟨d0, d8⟩ := ang_range (neg_ne_zero.2 hb)
  generalize ang a = x at *
  generalize ang b = y at *
  generalize ang (-a) = z at *
  generalize ang (-b) = w at *
  unfold cw at *
  split_ifs at * <;> linarith

theorem cycGet_map {C : List Pt} (hC : C ≠ []) (f : Pt → Pt) (k : ℤ) : cycGet (C.map f) k = f (cycGet C k) := by
  have hn : (0 : ℤ) < C.length := by have := List.length_pos_iff.2 hC; omega
  have h1 := Int.emod_nonneg k hn.ne'
  have h2 := Int.emod_lt_of_pos k hn
  unfold cycGet
  rw [List.length_map, List.getD_eq_getElem _ _ (by rw [List.length_map]; omega), List.getD_eq_getElem _ _ (by omega),
    List.getElem_map]

theorem cycGet_reverse {L : List Pt} (hL : L ≠ []) (k : ℤ) : cycGet L.reverse k = cycGet L (-1 - k) := by
  have hn : (0 : ℤ) < L.length := by have := List.length_pos_iff.2 hL; omega
  have h1 := Int.emod_nonneg k hn.ne'
  have h2 := Int.emod_lt_of_pos k hn
  have e : (-1 - k) % (L.length : ℤ) = L.length - 1 - k % L.length := by
    have : (-1 - k) % (L.length : ℤ) = (L.length - 1 - k % L.length) % L.length := by
      rw [Int.emod_eq_emod_iff_emod_sub_eq_zero]
      have := Int.emod_add_mul_ediv k L.length
      rw [show -1 - k - ((L.length : ℤ) - 1 - k % L.length) = L.length * (-(k / L.length) - 1) by linarith]
      exact Int.mul_emod_right _ _
    rw [this, Int.emod_eq_of_lt (by omega) (by omega)]
  unfold cycGet
  rw [e, List.length_reverse, List.getD_eq_getElem _ _ (by rw [List.length_reverse]; omega),
    List.getD_eq_getElem _ _ (by omega), List.getElem_reverse]
  congr 1
  omega

/-- The polygon turned round the origin by half a turn. -/
abbrev negC (C : List Pt) : List Pt := C.map (fun c => -c)

theorem cv_neg {C : List Pt} (hC : C ≠ []) (k : ℤ) : cv (negC C) k = -cv C k := cycGet_map hC _ k

theorem ce_neg {C : List Pt} (hC : C ≠ []) (k : ℤ) : ce (negC C) k = -ce C k := by
  unfold ce; rw [cv_neg hC, cv_neg hC]; abel

theorem ce_reverse {L : List Pt} (hL : L ≠ []) (k : ℤ) : ce L.reverse k = -ce L (-2 - k) := by
  unfold ce cv
  rw [cycGet_reverse hL, cycGet_reverse hL, show -1 - (k + 1) = -2 - k by ring, show -2 - k + 1 = -1 - k by ring]
  abel

theorem Conv.neg {C : List Pt} (hC : Conv C) : Conv (negC C) := by
  have hne := hC.ne
  refine ⟨by simpa using hC.three, fun k => ?_, fun k j h2 hj => ?_, fun k i j hij hj => ?_⟩
  · rw [cv_neg hne, cv_neg hne, cross_neg_left, cross_neg_right, neg_neg]; exact hC.org k
  · rw [ce_neg hne, cv_neg hne, cv_neg hne, ← neg_sub', cross_neg_left, cross_neg_right, neg_neg]
    exact hC.cvx k j h2 (by simpa using hj)
  · rw [ce_neg hne, ce_neg hne, ce_neg hne, cw_neg_neg (hC.ce_ne _) (hC.ce_ne _), cw_neg_neg (hC.ce_ne _) (hC.ce_ne _)]
    exact hC.order k i j hij (by simpa using hj)

theorem inConvex_neg {C : List Pt} (hC : Conv C) (w : Pt) : InConvex (negC C) w ↔ InConvex C (-w) := by
  rw [hC.neg.in_iff, hC.in_iff]
  refine forall_congr' fun k => ?_
  have : hh (negC C) k = hh C k := by
    unfold hh; rw [cv_neg hC.ne, cv_neg hC.ne, cross_neg_left, cross_neg_right, neg_neg]
  rw [this, ce_neg hC.ne, cross_neg_left, cross_neg_right]

theorem Conv.in_smul {C : List Pt} (hC : Conv C) {w : Pt} (hw : InConvex C w) {τ : ℚ} (h0 : 0 ≤ τ) (h1 : τ ≤ 1) :
    InConvex C (τ • w) := by
  rw [hC.in_iff] at *
  intro k
  rw [cross_smul_right]
  nlinarith [hw k, hC.hh_pos k]

theorem Conv.in_zero {C : List Pt} (hC : Conv C) : InConvex C 0 := by
  rw [hC.in_iff]; intro k; rw [cross_zero_right]; exact (hC.hh_pos k).le

theorem mem_triples {L : List Pt} (hL : L ≠ []) {c : Pt × Pt × Pt} :
    c ∈ tripleVerticesIter L ↔ ∃ k : ℤ, c = (cycGet L (k - 1), cycGet L k, cycGet L (k + 1)) := by
  have hn := List.length_pos_iff.2 hL
  have key : ∀ i : ℕ, i < L.length → (L.getD ((i + L.length - 1) % L.length) (0, 0), L.getD i (0, 0), L.getD ((i + 1) % L.length) (0, 0)) =
      (cycGet L ((i : ℤ) - 1), cycGet L i, cycGet L ((i : ℤ) + 1)) := by
    intro i hi
    have e1 : cycGet L ((i : ℤ) - 1) = cycGet L ((i + L.length - 1 : ℕ) : ℤ) := by
      rw [← cycGet_add_length]; congr 1; omega
    have e3 : cycGet L ((i : ℤ) + 1) = cycGet L ((i + 1 : ℕ) : ℤ) := by push_cast; rfl
    rw [e1, e3, cycGet_mod _ (i + L.length - 1) hL, cycGet_mod _ (i + 1) hL, cycGet_nat _ _ hi, List.getD_eq_getElem _ _ (Nat.mod_lt _ hn),
      List.getD_eq_getElem _ _ hi, List.getD_eq_getElem _ _ (Nat.mod_lt _ hn)]
  unfold tripleVerticesIter
  rw [List.mem_map]
  constructor
  · rintro ⟨i, hi, rfl⟩
    exact ⟨i, key i (List.mem_range.1 hi)⟩
  · rintro ⟨k, rfl⟩
    have hn' : (0 : ℤ) < L.length := by omega
    have h1 := Int.emod_nonneg k hn'.ne'
    have h2 := Int.emod_lt_of_pos k hn'
    refine ⟨(k % L.length).toNat, List.mem_range.2 (by omega), ?_⟩
    rw [key _ (by omega), Int.toNat_of_nonneg h1]
    have a : cycGet L (k % L.length - 1) = cycGet L (k - 1) := by
      rw [← cycGet_emod L (k % L.length - 1), Int.emod_sub_emod, cycGet_emod]
    have b : cycGet L (k % L.length + 1) = cycGet L (k + 1) := by
      rw [← cycGet_emod L (k % L.length + 1), Int.emod_add_emod, cycGet_emod]
    rw [a, b, cycGet_emod]

theorem winding_short {r : List Pt} (hr : r.length ≤ 2) (p : Pt) : windingNumber r p = 0 := by
  match r, hr with
  | [], _ => rfl
  | [a], _ =>
    have h := crossing_swap p a a
    have : windingNumber [a] p = crossing p a a := by simp [windingNumber, polyEdges]
    omega
  | [a, b], _ =>
    have h := crossing_swap p a b
    have : windingNumber [a, b] p = crossing p a b + crossing p b a := by simp [windingNumber, polyEdges]
    omega

/-- The loop over the corners. -/
theorem Conv.ribbonLoop {C : List Pt} (hC : Conv C) {m : FrMap} (hm : FrInv C m)
    (hall : ∀ k : ℤ, ∃ y ∈ m, y.1 = fr C k) {σ : ℤ} (hσ : σ = 1 ∨ σ = -1) (T : List (Pt × Pt × Pt))
    (hT : ∀ c ∈ T, c.2.1 - c.1 ≠ 0 ∧ c.2.2 - c.2.1 ≠ 0) :
    ∃ (exts : List (List Pt)) (S : List Seg), ribbonLoop m C σ T = .ok exts ∧
      (∀ E ∈ exts, 2 < E.length ∧ (∀ j : ℕ, j < E.length → triAt E j ≠ 0) ∧ Cuts E) ∧
      ∀ p, ¬ OnAny S p → (∀ E ∈ exts, ∃ c ∈ T, CornerAt C σ c.1 c.2.1 c.2.2 E p) ∧
        ∀ c ∈ T, ∃ r, CornerAt C σ c.1 c.2.1 c.2.2 r p ∧ (windingNumber r p ≠ 0 → r ∈ exts) := by
  induction T with
  | nil => exact ⟨[], [], rfl, by simp, by simp⟩
  | cons c T ih =>
    obtain ⟨exts, S, h1, h2, h3⟩ := ih fun c hc => hT c (List.mem_cons_of_mem _ hc)
    obtain ⟨vp, v, vn⟩ := c
    obtain ⟨r, S', k1, k2, k3⟩ := hC.cornerPiece hm hall hσ (hT _ List.mem_cons_self).1 (hT _ List.mem_cons_self).2
    refine ⟨if r.length > 2 then r :: exts else exts, S ++ S', ?_, ?_, ?_⟩
    · unfold Ply.ribbonLoop
      dsimp only at k1
      rw [k1, h1]; rfl
    · intro E hE
      split_ifs at hE with hr
      · rcases List.mem_cons.1 hE with rfl | hE
        · exact ⟨hr, k2⟩
        · exact h2 E hE
      · exact h2 E hE
    · intro p hp
      have a := h3 p fun ⟨s, hs, h⟩ => hp ⟨s, List.mem_append_left _ hs, h⟩
      have b := k3 p fun ⟨s, hs, h⟩ => hp ⟨s, List.mem_append_right _ hs, h⟩
      constructor
      · intro E hE
        have old : E ∈ exts → ∃ c ∈ (vp, v, vn) :: T, CornerAt C σ c.1 c.2.1 c.2.2 E p := fun hE => by
          obtain ⟨c, hc, h⟩ := a.1 E hE
          exact ⟨c, List.mem_cons_of_mem _ hc, h⟩
        split_ifs at hE with hr
        · rcases List.mem_cons.1 hE with rfl | hE
          · exact ⟨_, List.mem_cons_self, b⟩
          · exact old hE
        · exact old hE
      · intro c hc
        rcases List.mem_cons.1 hc with rfl | hc
        · refine ⟨r, b, fun hw => ?_⟩
          have : r.length > 2 := by
            by_contra hl
            exact hw (winding_short (by omega) p)
          rw [if_pos this]
          exact List.mem_cons_self
        · obtain ⟨r', h, h'⟩ := a.2 c hc
          refine ⟨r', h, fun hw => ?_⟩
          split_ifs
          · exact List.mem_cons_of_mem _ (h' hw)
          · exact h' hw

/-- Off finitely many segments, the pieces cover what is near the loop on the side of the sign, and nothing
that is not near the loop. -/
theorem Conv.ribbon {C : List Pt} (hC : Conv C) {σ : ℤ} (hσ : σ = 1 ∨ σ = -1) {L : List Pt} (hL : L ≠ [])
    (hnd : ∀ e ∈ polyEdges L, dir e ≠ 0) :
    ∃ (exts : List (List Pt)) (S : List Seg), minkowskiRibbon L C σ = .ok exts ∧
      (∀ E ∈ exts, 2 < E.length ∧ (∀ j : ℕ, j < E.length → triAt E j ≠ 0) ∧ Cuts E) ∧
      ∀ p, ¬ OnAny S p → (∀ E ∈ exts, ¬ OnBoundary E p) ∧
        ((∃ E ∈ exts, windingNumber E p ≠ 0) → ∃ z, OnBoundary L z ∧ InConvex C ((σ : ℚ) • (p - z))) ∧
        (σ = 1 ∧ Covered C L p ∨ σ = -1 ∧ Covered (negC C) L.reverse p → ∃ E ∈ exts, windingNumber E p ≠ 0) := by
  obtain ⟨m, h1, hm, hall⟩ := hC.starts
  have hne : ∀ k : ℤ, ce L k ≠ 0 := fun k => hnd _ (cyc_mem hL k)
  obtain ⟨exts, S, h2, h3, h4⟩ := hC.ribbonLoop hm hall hσ (tripleVerticesIter L) (by
    intro c hc
    obtain ⟨k, rfl⟩ := (mem_triples hL).1 hc
    refine ⟨?_, hne k⟩
    have := hne (k - 1)
    unfold ce cv at this
    rwa [sub_add_cancel] at this)
  refine ⟨exts, S, ?_, h3, fun p hp => ?_⟩
  · unfold minkowskiRibbon
    rw [if_pos hC.three, if_pos hσ.symm, h1]
    exact h2
  obtain ⟨a, b⟩ := h4 p hp
  refine ⟨fun E hE => ?_, ?_, ?_⟩
  · obtain ⟨c, _, h⟩ := a E hE
    exact h.off
  · rintro ⟨E, hE, hw⟩
    obtain ⟨c, hc, h⟩ := a E hE
    obtain ⟨k, rfl⟩ := (mem_triples hL).1 hc
    rcases h.near hw with ⟨J, x, τ, x0, x1, t0, t1, e⟩ | ⟨j, μ, τ, m0, m1, t0, t1, e⟩
    · refine ⟨cycGet L k + x • ce L k, ⟨_, cyc_mem hL k, x, x0, x1, ?_⟩, ?_⟩
      · rw [along_eq]; rfl
      · have : (σ : ℚ) • (p - (cycGet L k + x • ce L k)) = τ • cv C J := by
          dsimp only at e
          rw [e]
          unfold ce cv
          rcases hσ with rfl | rfl <;> ext <;> simp
        rw [this]
        exact hC.in_smul (hC.vertex_in J) t0 t1
    · refine ⟨cycGet L k, ⟨_, cyc_mem hL k, onSeg_left _⟩, ?_⟩
      have : (σ : ℚ) • (p - cycGet L k) = τ • (cv C j + μ • ce C j) := by
        dsimp only at e
        rw [e]
        rcases hσ with rfl | rfl <;> ext <;> simp
      rw [this]
      exact hC.in_smul ((hC.in_iff _).2 fun i => hC.form_le i j m0 m1) t0 t1
  · rintro (⟨rfl, k, h⟩ | ⟨rfl, k, h⟩)
    · obtain ⟨r, hr, hmem⟩ := b _ ((mem_triples hL).2 ⟨k, rfl⟩)
      have hw : windingNumber r p ≠ 0 := by
        rcases h with ⟨J, x, τ, hJ, x0, x1, t0, t1, e⟩ | ⟨j, μ, τ, c1, c2, c3, m0, m1, t0, t1, e⟩
        · exact hr.par J hJ ⟨x, τ, x0, x1, t0, t1, by rw [e]; simp [ce, cv]⟩
        · refine hr.fan j (Or.inl ⟨rfl, ?_⟩) ⟨μ, τ, m0, m1, t0, t1, by rw [e]; simp⟩
          have : cycGet L k - cycGet L (k - 1) = ce L (k - 1) := by unfold ce cv; rw [sub_add_cancel]
          dsimp only
          rw [this]
          exact ⟨c1, c2, c3⟩
      exact ⟨r, hmem hw, hw⟩
    · rcases h with ⟨J, x, τ, hJ, x0, x1, t0, t1, e⟩ | ⟨j, μ, τ, c1, c2, c3, m0, m1, t0, t1, e⟩
      · obtain ⟨r, hr, hmem⟩ := b _ ((mem_triples hL).2 ⟨-2 - k, rfl⟩)
        have hw : windingNumber r p ≠ 0 := by
          refine hr.par J ?_ ⟨1 - x, τ, by linarith, by linarith, t0, t1, ?_⟩
          · unfold Cone at hJ ⊢
            rw [ce_reverse hL, ce_neg hC.ne, ce_neg hC.ne, cw_neg_neg (hC.ce_ne _) (hne _), cw_neg_neg (hC.ce_ne _) (hC.ce_ne _)] at hJ
            exact hJ
          · rw [e, ce_reverse hL, cycGet_reverse hL, cv_neg hC.ne]
            dsimp only
            unfold ce cv
            rw [show -2 - k + 1 = -1 - k by ring]
            ext <;> simp <;> ring
        exact ⟨r, hmem hw, hw⟩
      · obtain ⟨r, hr, hmem⟩ := b _ ((mem_triples hL).2 ⟨-1 - k, rfl⟩)
        have hw : windingNumber r p ≠ 0 := by
          refine hr.fan j (Or.inr ⟨rfl, ?_⟩) ⟨μ, τ, m0, m1, t0, t1, ?_⟩
          · simp only [ce_reverse hL, ce_neg hC.ne, show -2 - (k - 1) = -1 - k by ring] at c1 c2 c3
            rw [cw_neg_neg (hne _) (hC.ce_ne _)] at c2 c3
            rw [cw_neg_neg (hne _) (hne _)] at c1 c3
            have e1 : cycGet L (-1 - k) - cycGet L (-1 - k - 1) = ce L (-2 - k) := by
              unfold ce cv; rw [show -1 - k - 1 = -2 - k by ring, show -2 - k + 1 = -1 - k by ring]
            dsimp only
            rw [e1]
            exact ⟨c1, c2, c3⟩
          · rw [e, cycGet_reverse hL, cv_neg hC.ne, ce_neg hC.ne]
            ext <;> simp
        exact ⟨r, hmem hw, hw⟩

end Ply
