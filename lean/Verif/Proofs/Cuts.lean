import Verif.Proofs.Jump
import Verif.Proofs.Around
import Verif.Proofs.Simplify

/-!
# Loops that do not run back along themselves
-/

namespace Ply

open Filter Topology

/-- The edges have positive length, and where two of them run along each other they have the same direction. -/
structure Forward (L : List Pt) : Prop where
  pos : ∀ e ∈ polyEdges L, e.1 ≠ e.2
  same : ∀ e ∈ polyEdges L, ∀ e' ∈ polyEdges L, ∀ s s' : ℚ, 0 < s → s < 1 → 0 < s' → s' < 1 → along e s = along e' s' →
    ∀ k : ℚ, dir e' = k • dir e → 0 < k

/-- A move across edges that all have the start on their left. -/
theorem winding_drop (poly : List Pt) (l r : Pt) (hlr : l ≠ r)
    (hall : ∀ e ∈ polyEdges poly, (∀ x, OnSeg (l, r) x → ¬ OnSeg e x) ∨ 0 < orient e.1 e.2 l ∧ orient e.1 e.2 r < 0 ∧
      ∃ t s : ℚ, 0 < t ∧ t < 1 ∧ along e t = along (l, r) s)
    (hex : ∃ e ∈ polyEdges poly, 0 < orient e.1 e.2 l ∧ orient e.1 e.2 r < 0 ∧
      ∃ t s : ℚ, 0 < t ∧ t < 1 ∧ along e t = along (l, r) s) : windingNumber poly r < windingNumber poly l := by
  have onl : ∀ (e : Seg) (x : Pt), OnSeg e x → orient e.1 e.2 x = 0 := by
    rintro e x ⟨u, _, _, rfl⟩
    unfold orient along; ring
  have offl : ¬ OnBoundary poly l := by
    rintro ⟨e, he, ho⟩
    rcases hall e he with h | ⟨h, -, -⟩
    · exact h l (onSeg_left (l, r)) ho
    · exact h.ne' (onl e l ho)
  have offr : ¬ OnBoundary poly r := by
    rintro ⟨e, he, ho⟩
    rcases hall e he with h | ⟨-, h, -⟩
    · exact h r (onSeg_right (l, r)) ho
    · exact h.ne (onl e r ho)
  set A : Affine := ⟨r.1 - l.1, r.2 - l.2, -(r.2 - l.2), r.1 - l.1, 0, 0⟩ with hA
  have hdet : 0 < A.det := by
    unfold Affine.det
    rw [hA]
    dsimp only
    have : r.1 - l.1 ≠ 0 ∨ r.2 - l.2 ≠ 0 := by
      by_contra hc
      push Not at hc
      exact hlr (Prod.ext (by linarith [hc.1]) (by linarith [hc.2]))
    rcases this with h | h
    · nlinarith [mul_self_pos.2 h, mul_self_nonneg (r.2 - l.2)]
    · nlinarith [mul_self_pos.2 h, mul_self_nonneg (r.1 - l.1)]
  have e1 := windingNumber_affine A hdet.ne' poly l offl
  have e2 := windingNumber_affine A hdet.ne' poly r offr
  rw [if_pos hdet, one_mul] at e1 e2
  rw [← e1, ← e2]
  have hy : (A.app l).2 = (A.app r).2 := by rw [hA]; unfold Affine.app; dsimp only; ring
  have hdx : (A.app r).1 - (A.app l).1 = A.det := by rw [hA]; unfold Affine.app Affine.det; dsimp only; ring
  have hye : ∀ u, (A.app (along (l, r) u)).2 = (A.app l).2 := fun u => by
    rw [hA]; unfold Affine.app along; dsimp only; ring
  have through : ∀ e : Seg, 0 < orient e.1 e.2 l ∧ orient e.1 e.2 r < 0 ∧
      (∃ t s : ℚ, 0 < t ∧ t < 1 ∧ along e t = along (l, r) s) →
      crossing (A.app l) (A.app e.1) (A.app e.2) - crossing (A.app r) (A.app e.1) (A.app e.2) = 1 := by
    rintro e ⟨h1, h2, t, s, t0, t1, hx⟩
    exact (crossing_jump (A.app l) (A.app r) (A.app e.1) (A.app e.2) hy (by linarith)
      (by rw [orient_affine]; exact mul_pos hdet h1) (by rw [orient_affine]; exact mul_neg_of_pos_of_neg hdet h2) t0 t1
      (by rw [← along_affine, hx, hye])).1
  have term : ∀ e ∈ polyEdges poly,
      0 ≤ crossing (A.app l) (A.app e.1) (A.app e.2) - crossing (A.app r) (A.app e.1) (A.app e.2) := by
    intro e he
    rcases hall e he with hm | hm
    · refine (sub_eq_zero.2 (crossing_move _ _ _ _ hy (by linarith) fun x h1 h2 ho => ?_)).ge
      have hxx : (x, (A.app l).2) = A.app (along (l, r) ((x - (A.app l).1) / A.det)) := by
        set u := (x - (A.app l).1) / A.det with hu
        have hu' : u * A.det = x - (A.app l).1 := div_mul_cancel₀ _ hdet.ne'
        have e : x = (A.app l).1 + u * A.det := by linarith
        rw [e, hA]
        unfold Affine.app Affine.det along
        dsimp only
        ext <;> dsimp only <;> ring
      rw [hxx] at ho
      refine hm _ ⟨(x - (A.app l).1) / A.det, div_nonneg (by linarith) hdet.le,
        (div_le_one hdet).2 (by linarith), rfl⟩ ?_
      exact (onSeg_affine A hdet.ne' e _).1 ho
    · rw [through e hm]; exact zero_le_one
  obtain ⟨e0, he0, hm0⟩ := hex
  have t0 := through e0 hm0
  unfold windingNumber
  rw [polyEdges_map, List.map_map, List.map_map]
  refine List.sum_lt_sum _ _ (fun e he => ?_) ⟨e0, he0, ?_⟩
  · have := term e he
    simp only [Function.comp_apply, Prod.map_fst, Prod.map_snd]
    linarith
  · simp only [Function.comp_apply, Prod.map_fst, Prod.map_snd]
    linarith

/-- On every stretch of the boundary there is a point where the loop winds differently around the two sides. -/
def Cuts (L : List Pt) : Prop :=
  ∀ h : Seg, h.1 ≠ h.2 → (∀ x, OnSeg h x → OnBoundary L x) → ∃ s : ℚ, 0 < s ∧ s < 1 ∧ ∀ u, cross (dir h) u ≠ 0 →
    ∀ᶠ ε in 𝓝[>] (0 : ℚ), windingNumber L (along h s + ε • u) ≠ windingNumber L (along h s - ε • u)

theorem small_ne (c : ℚ) : ∀ᶠ ε in 𝓝[>] (0 : ℚ), ε ≠ c := by
  rcases le_or_gt c 0 with h | h
  · filter_upwards [small_pos] with ε hε hc
    linarith
  · filter_upwards [small_lt c h] with ε hε hc
    linarith

theorem parallel_smul {u v : Pt} (hu : u ≠ 0) (h : cross u v = 0) : ∃ k : ℚ, v = k • u := by
  unfold cross at h
  by_cases h1 : u.1 = 0
  · have h2 : u.2 ≠ 0 := fun h2 => hu (Prod.ext h1 h2)
    refine ⟨v.2 / u.2, ?_⟩
    have : v.1 = 0 := by
      rw [h1, zero_mul, zero_sub, neg_eq_zero] at h
      exact (mul_eq_zero.1 h).resolve_left h2
    ext
    · simp [this, h1]
    · simp [h2]
  · refine ⟨v.1 / u.1, ?_⟩
    ext
    · simp [h1]
    · simp only [Prod.smul_snd, smul_eq_mul]
      field_simp
      linarith

theorem dir_ne {e : Seg} (h : e.1 ≠ e.2) : dir e ≠ 0 := fun hc => h (by
  have : e.2 - e.1 = 0 := hc
  exact (sub_eq_zero.1 this).symm)

/-- A loop that does not run back along itself cuts; around the points chosen the two sides are off the loop. -/
theorem Forward.cuts_off {L : List Pt} (hL : Forward L) (h : Seg) (hne : h.1 ≠ h.2) (hb : ∀ x, OnSeg h x → OnBoundary L x) :
    ∃ s : ℚ, 0 < s ∧ s < 1 ∧ ∀ u, cross (dir h) u ≠ 0 → ∀ᶠ ε in 𝓝[>] (0 : ℚ),
      windingNumber L (along h s + ε • u) ≠ windingNumber L (along h s - ε • u) ∧
      ¬ OnBoundary L (along h s + ε • u) ∧ ¬ OnBoundary L (along h s - ε • u) := by
  have hd := dir_ne hne
  -- a point of the stretch off the vertices and off the edges across
  have g1 : ∀ᶠ ε in 𝓝[>] (0 : ℚ), ∀ e ∈ polyEdges L, cross (dir h) (dir e) ≠ 0 → ¬ OnSeg e (along h ε) := by
    refine small_list _ (fun e ε => cross (dir h) (dir e) ≠ 0 → ¬ OnSeg e (along h ε)) fun e _ => ?_
    by_cases hp : cross (dir h) (dir e) = 0
    · exact Eventually.of_forall fun _ c => absurd hp c
    · filter_upwards [small_ne (cross (e.1 - h.1) (dir e) / cross (dir h) (dir e))] with ε hε _
      rintro ⟨t, _, _, ht⟩
      apply hε
      rw [eq_div_iff hp]
      have a1 := congrArg Prod.fst ht
      have a2 := congrArg Prod.snd ht
      unfold along at a1 a2
      unfold cross dir
      simp only [Prod.fst_sub, Prod.snd_sub] at *
      linear_combination (e.2.2 - e.1.2) * a1 - (e.2.1 - e.1.1) * a2
  have g2 : ∀ᶠ ε in 𝓝[>] (0 : ℚ), ∀ v ∈ L, along h ε ≠ v := by
    refine small_list _ (fun v ε => along h ε ≠ v) fun v _ => ?_
    by_cases hv : ∃ c, along h c = v
    · obtain ⟨c, rfl⟩ := hv
      filter_upwards [small_ne c] with ε hε hc
      apply hε
      rw [along_eq, along_eq, add_right_inj, ← sub_eq_zero, ← sub_smul] at hc
      have := (smul_eq_zero.1 hc).resolve_right hd
      linarith
    · exact Eventually.of_forall fun ε hc => hv ⟨ε, hc⟩
  obtain ⟨s, s0, k1, k2, s1⟩ := small_exists (g1.and (g2.and (small_lt 1 one_pos)))
  refine ⟨s, s0, s1, fun u hu => ?_⟩
  obtain ⟨m, hm⟩ : ∃ m, m = along h s := ⟨_, rfl⟩
  rw [← hm] at k1 k2 ⊢
  obtain ⟨e0, he0, ho0⟩ := hb m ⟨s, s0.le, s1.le, hm⟩
  -- the edges through the point
  have thr : ∀ e ∈ polyEdges L, OnSeg e m → cross (dir h) (dir e) = 0 ∧ ∃ t : ℚ, 0 < t ∧ t < 1 ∧ m = along e t := by
    intro e he ho
    refine ⟨by by_contra hc; exact k1 e he hc ho, ?_⟩
    obtain ⟨t, t0, t1, ht⟩ := ho
    obtain ⟨v1, v2⟩ := polyEdges_mem he
    refine ⟨t, lt_of_le_of_ne t0 ?_, lt_of_le_of_ne t1 ?_, ht⟩
    · rintro rfl
      rw [along_zero] at ht
      exact k2 _ v1 ht
    · rintro rfl
      rw [along_one] at ht
      exact k2 _ v2 ht
  obtain ⟨p0, t0, t00, t01, ht0⟩ := thr e0 he0 ho0
  have hd0 := dir_ne (hL.pos e0 he0)
  have par : ∀ e ∈ polyEdges L, OnSeg e m → ∃ k : ℚ, 0 < k ∧ dir e = k • dir e0 := by
    intro e he ho
    obtain ⟨p, t, h1, h2, ht⟩ := thr e he ho
    obtain ⟨a, ha⟩ := parallel_smul hd p0
    obtain ⟨b, hb⟩ := parallel_smul hd p
    have a0 : a ≠ 0 := by rintro rfl; rw [zero_smul] at ha; exact hd0 ha
    have hk : dir e = (b / a) • dir e0 := by rw [ha, smul_smul, div_mul_cancel₀ _ a0, hb]
    exact ⟨b / a, hL.same e0 he0 e he t0 t t00 t01 h1 h2 (ht0 ▸ ht) _ hk, hk⟩
  have hu0 : cross (dir e0) u ≠ 0 := by
    obtain ⟨a, ha⟩ := parallel_smul hd p0
    rw [ha, cross_smul_left]
    refine mul_ne_zero ?_ hu
    rintro rfl; rw [zero_smul] at ha; exact hd0 ha
  -- the other edges are missed
  have miss : ∀ᶠ ε in 𝓝[>] (0 : ℚ), ∀ e ∈ polyEdges L, ¬ OnSeg e m → ∀ x, OnSeg (m + ε • -u, m + ε • u) x → ¬ OnSeg e x := by
    refine small_list _ (fun e ε => ¬ OnSeg e m → ∀ x, OnSeg (m + ε • -u, m + ε • u) x → ¬ OnSeg e x) fun e _ => ?_
    by_cases ho : OnSeg e m
    · exact Eventually.of_forall fun _ c => absurd ho c
    · filter_upwards [push (m, m) e (-u) u (by
        rintro x ⟨⟨t, _, _, rfl⟩, hx⟩
        have e' : along (m, m) t = m := by unfold along; ext <;> simp
        rw [e'] at hx
        exact ho hx)] with ε hε _ using hε
  have lin : ∀ (e : Seg) (t : ℚ) (w : Pt), m = along e t → orient e.1 e.2 (m + w) = cross (dir e) w := by
    intro e t w ht
    rw [ht]
    unfold orient cross dir along
    simp only [Prod.fst_add, Prod.snd_add]
    ring
  have key : ∀ u : Pt, cross (dir e0) u < 0 → ∀ ε : ℚ, 0 < ε →
      (∀ e ∈ polyEdges L, ¬ OnSeg e m → ∀ x, OnSeg (m + ε • -u, m + ε • u) x → ¬ OnSeg e x) →
      windingNumber L (m + ε • u) < windingNumber L (m + ε • -u) := by
    intro u hu ε e0' hε
    have one : ∀ e ∈ polyEdges L, OnSeg e m → 0 < orient e.1 e.2 (m + ε • -u) ∧ orient e.1 e.2 (m + ε • u) < 0 ∧
        ∃ t s : ℚ, 0 < t ∧ t < 1 ∧ along e t = along (m + ε • -u, m + ε • u) s := by
      intro e he ho
      obtain ⟨-, t, h1, h2, ht⟩ := thr e he ho
      obtain ⟨k, k0, hk⟩ := par e he ho
      rw [lin e t _ ht, lin e t _ ht, cross_smul_right, cross_smul_right, cross_neg_right, hk, cross_smul_left]
      have : k * cross (dir e0) u < 0 := mul_neg_of_pos_of_neg k0 hu
      refine ⟨mul_pos e0' (by linarith), mul_neg_of_pos_of_neg e0' this, t, 1 / 2, h1, h2, ?_⟩
      rw [← ht]
      unfold along
      ext <;> simp <;> ring
    refine winding_drop L _ _ ?_ (fun e he => ?_) ⟨e0, he0, one e0 he0 ho0⟩
    · intro hc
      have := add_left_cancel hc
      rw [smul_neg, neg_eq_iff_add_eq_zero, ← two_smul ℚ, smul_smul] at this
      have hu' := (smul_eq_zero.1 this).resolve_left (by positivity)
      rw [hu', cross_zero_right] at hu
      exact lt_irrefl _ hu
    · by_cases ho : OnSeg e m
      · exact Or.inr (one e he ho)
      · exact Or.inl (hε e he ho)
  have offs : ∀ ε : ℚ, 0 < ε →
      (∀ e ∈ polyEdges L, ¬ OnSeg e m → ∀ x, OnSeg (m + ε • -u, m + ε • u) x → ¬ OnSeg e x) →
      ¬ OnBoundary L (m + ε • u) ∧ ¬ OnBoundary L (m + ε • -u) := by
    intro ε e0' hε
    have : ∀ w : Pt, cross (dir e0) w ≠ 0 → OnSeg (m + ε • -u, m + ε • u) (m + ε • w) → ¬ OnBoundary L (m + ε • w) := by
      rintro w hw hseg ⟨e, he, ho⟩
      by_cases hom : OnSeg e m
      · obtain ⟨-, t, h1, h2, ht⟩ := thr e he hom
        obtain ⟨k, k0, hk⟩ := par e he hom
        obtain ⟨q, _, _, hq⟩ := ho
        have z : orient e.1 e.2 (m + ε • w) = 0 := by
          rw [hq]; unfold orient along; ring
        rw [lin e t _ ht, cross_smul_right, hk, cross_smul_left] at z
        exact mul_ne_zero e0'.ne' (mul_ne_zero k0.ne' hw) z
      · exact hε e he hom _ hseg ho
    exact ⟨this u hu0 (onSeg_right (m + ε • -u, m + ε • u)),
      this (-u) (by rw [cross_neg_right]; exact neg_ne_zero.2 hu0) (onSeg_left (m + ε • -u, m + ε • u))⟩
  filter_upwards [miss, small_pos] with ε hε e0'
  obtain ⟨o1, o2⟩ := offs ε e0' hε
  rw [sub_eq_add_neg, ← smul_neg]
  refine ⟨?_, o1, o2⟩
  rcases lt_or_gt_of_ne hu0 with hn | hp
  · exact (key u hn ε e0' hε).ne
  · refine (key (-u) (by rw [cross_neg_right]; linarith) ε e0' fun e he ho x hx => ?_).ne' ∘ fun h => by rw [neg_neg]; exact h
    rw [neg_neg] at hx
    exact hε e he ho x ((onSeg_rev _ x).1 hx)

theorem Forward.cuts {L : List Pt} (hL : Forward L) : Cuts L := by
  intro h hne hb
  obtain ⟨s, s0, s1, hs⟩ := hL.cuts_off h hne hb
  exact ⟨s, s0, s1, fun u hu => (hs u hu).mono fun ε hε => hε.1⟩

/-- Removing degeneracies keeps the cuts. -/
theorem Forward.cuts_same {L r : List Pt} (hL : Forward L) (h : Same r L) : Cuts r := by
  intro k hne hb
  obtain ⟨s, s0, s1, hs⟩ := hL.cuts_off k hne fun x hx => by
    by_contra hc
    exact (h.2 x hc).1 (hb x hx)
  refine ⟨s, s0, s1, fun u hu => (hs u hu).mono fun ε hε => ?_⟩
  rw [(h.2 _ hε.2.1).2, (h.2 _ hε.2.2).2]
  exact hε.1

theorem mem_reverse_edges {L : List Pt} {e : Seg} : e ∈ polyEdges L.reverse ↔ (e.2, e.1) ∈ polyEdges L := by
  rw [(polyEdges_reverse L).mem_iff, List.mem_map]
  constructor
  · rintro ⟨x, hx, rfl⟩; exact hx
  · intro h; exact ⟨_, h, rfl⟩

theorem Cuts.reverse {L : List Pt} (h : Cuts L) : Cuts L.reverse := by
  intro k hne hb
  obtain ⟨s, s0, s1, hs⟩ := h k hne fun x hx => by
    obtain ⟨e, he, ho⟩ := hb x hx
    exact ⟨_, mem_reverse_edges.1 he, (onSeg_rev e x).2 ho⟩
  refine ⟨s, s0, s1, fun u hu => (hs u hu).mono fun ε hε => ?_⟩
  rw [windingNumber_reverse, windingNumber_reverse]
  exact fun hc => hε (neg_inj.1 hc)

/-- A loop whose edges turn around a point, but for one edge from it and one edge to it. -/
theorem forward_star {L : List Pt} (v a d : Pt) (ς : ℚ) (hpos : ∀ e ∈ polyEdges L, e.1 ≠ e.2)
    (hrim : ∀ e ∈ polyEdges L, 0 < ς * orient v e.1 e.2 ∨ e = (v, v + a) ∨ e = (v + d, v))
    (had : ∀ k : ℚ, 0 < k → a ≠ k • d) : Forward L where
  pos := hpos
  same e he e' he' s s' s0 s1 s0' s1' heq k hk := by
    have on : ∀ (e : Seg) (s : ℚ), orient v e.1 e.2 = cross (along e s - v) (dir e) := by
      intro e s; unfold orient cross along dir; simp only [Prod.fst_sub, Prod.snd_sub]; ring
    have h1 := on e s
    have h2 := on e' s'
    rw [← heq, hk, cross_smul_right, ← h1] at h2
    by_contra hc
    push Not at hc
    have ov : ∀ x, orient v v x = 0 := fun x => by unfold orient; ring
    have ov' : ∀ x, orient v x v = 0 := fun x => by unfold orient; ring
    have k0 : k ≠ 0 := by
      rintro rfl
      rw [zero_smul] at hk
      exact dir_ne (hpos e' he') hk
    have da : dir (v, v + a) = a := by unfold dir; ext <;> simp
    have dd : dir (v + d, v) = -d := by unfold dir; ext <;> simp
    have kneg : k < 0 := lt_of_le_of_ne hc k0
    -- both are spokes
    have sp : (e = (v, v + a) ∨ e = (v + d, v)) ∧ (e' = (v, v + a) ∨ e' = (v + d, v)) := by
      rcases hrim e he with c1 | c1
      · exfalso
        rcases hrim e' he' with c2 | c2 | c2
        · rw [h2] at c2; nlinarith
        · rw [c2, ov] at h2
          rcases mul_eq_zero.1 h2.symm with h | h
          · exact k0 h
          · rw [h, mul_zero] at c1; exact lt_irrefl _ c1
        · rw [c2, ov'] at h2
          rcases mul_eq_zero.1 h2.symm with h | h
          · exact k0 h
          · rw [h, mul_zero] at c1; exact lt_irrefl _ c1
      · refine ⟨c1, ?_⟩
        refine (hrim e' he').resolve_left fun c2 => ?_
        have : orient v e.1 e.2 = 0 := by rcases c1 with c1 | c1 <;> rw [c1] <;> [exact ov _; exact ov' _]
        rw [h2, this, mul_zero, mul_zero] at c2
        exact lt_irrefl _ c2
    have ne1 : ∀ w : Pt, w ≠ 0 → w = k • w → False := by
      intro w hw h
      have : (1 - k) • w = 0 := by rw [sub_smul, one_smul, ← h, sub_self]
      have := (smul_eq_zero.1 this).resolve_right hw
      linarith
    rcases sp with ⟨rfl | rfl, rfl | rfl⟩
    · exact ne1 _ (dir_ne (hpos _ he)) hk
    · rw [da, dd] at hk
      refine had (-k)⁻¹ (inv_pos.2 (by linarith)) ?_
      rw [eq_inv_smul_iff₀ (by linarith : -k ≠ 0), neg_smul, ← hk, neg_neg]
    · rw [da, dd] at hk
      exact had (-k) (by linarith) (by rw [hk, smul_neg, neg_smul])
    · exact ne1 _ (dir_ne (hpos _ he)) hk

end Ply
