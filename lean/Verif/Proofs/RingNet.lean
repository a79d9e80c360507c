import Verif.Proofs.TotalDiscs
import Verif.Proofs.TotalRings
import Verif.Spec.Touch

/-!
# The cells of rings that do not overlap
-/

namespace Ply.Arr

open CellMerger Filter Topology
open Relation (ReflTransGen)

theorem on_line {h : Seg} (hh : h.1 ≠ h.2) {y : Pt} (hy : cross (dir h) (y - h.1) = 0) : ∃ t, y = along h t := by
  unfold cross dir at hy
  simp only [Prod.fst_sub, Prod.snd_sub] at hy
  by_cases hd : h.2.1 - h.1.1 = 0
  · have hd2 : h.2.2 - h.1.2 ≠ 0 := fun hc => hh (Prod.ext (by linarith) (by linarith))
    refine ⟨(y.2 - h.1.2) / (h.2.2 - h.1.2), ?_⟩
    rw [hd, zero_mul, zero_sub, neg_eq_zero] at hy
    have := (mul_eq_zero.1 hy).resolve_left hd2
    unfold along
    ext
    · dsimp only; rw [hd]; linarith
    · dsimp only; rw [div_mul_cancel₀ _ hd2]; ring
  · refine ⟨(y.1 - h.1.1) / (h.2.1 - h.1.1), ?_⟩
    unfold along
    ext
    · dsimp only; rw [div_mul_cancel₀ _ hd]; ring
    · dsimp only
      field_simp
      linarith

/-- A point between two others. -/
theorem onSeg_between {h : Seg} {a b t : ℚ} (hab : a ≠ b) (ht : a ≤ t ∧ t ≤ b ∨ b ≤ t ∧ t ≤ a) :
    OnSeg (along h a, along h b) (along h t) := by
  refine ⟨(t - a) / (b - a), ?_, ?_, ?_⟩
  · rcases ht with ⟨h1, h2⟩ | ⟨h1, h2⟩
    · exact div_nonneg (by linarith) (by linarith)
    · rw [← neg_div_neg_eq]; exact div_nonneg (by linarith) (by linarith)
  · rcases ht with ⟨h1, h2⟩ | ⟨h1, h2⟩
    · have : 0 < b - a := sub_pos.2 (lt_of_le_of_ne (h1.trans h2) hab)
      rw [div_le_one this]; linarith
    · have : 0 < a - b := sub_pos.2 (lt_of_le_of_ne (h1.trans h2) hab.symm)
      rw [← neg_div_neg_eq, neg_sub, neg_sub, div_le_one this]; linarith
  · rw [along_along, div_mul_cancel₀ _ (sub_ne_zero.2 hab.symm)]
    congr 1; ring

/-- A piece without event points inside lies on each segment that passes through its inside. -/
theorem elem_within {S : List Seg} {h s : Seg} (hh : Elem S h) (hs : s ∈ S) {t : ℚ} (t0 : 0 < t) (t1 : t < 1)
    (hx : OnSeg s (along h t)) : OnSeg s h.1 ∧ OnSeg s h.2 := by
  have hev : ¬ EventPoint S (along h t) := by
    intro he
    rcases hh.gap _ he ⟨t, t0.le, t1.le, rfl⟩ with e | e
    · rw [← along_zero h] at e
      exact t0.ne' (along_inj hh.ne e)
    · rw [← along_one h] at e
      exact t1.ne (along_inj hh.ne e)
  obtain ⟨s', hs', s1, s2⟩ := hh.on
  obtain ⟨r, r0, hr⟩ := dir_piece s1 s2 hh.ne
  have hpar : cross (dir h) (dir s) = 0 := by
    have : Parallel s' s := by
      by_contra hc
      exact hev (Or.inr ⟨s', hs', s, hs, hc, onSeg_sub s1 s2 ⟨t, t0.le, t1.le, rfl⟩, hx⟩)
    unfold Parallel at this
    rw [hr]
    unfold cross at this ⊢
    simp only [Prod.smul_fst, Prod.smul_snd, smul_eq_mul]
    linear_combination r * this
  obtain ⟨u, u0, u1, hu⟩ := hx
  have kl : ∀ v, cross (dir h) (along s v - h.1) = 0 := by
    intro v
    have e1 := congrArg Prod.fst hu
    have e2 := congrArg Prod.snd hu
    unfold along at e1 e2
    dsimp only at e1 e2
    unfold cross dir at hpar
    unfold cross dir along
    simp only [Prod.fst_sub, Prod.snd_sub] at hpar ⊢
    linear_combination (h.2.2 - h.1.2) * e1 - (h.2.1 - h.1.1) * e2 + (v - u) * hpar
  obtain ⟨a, ha⟩ := on_line hh.ne (by have := kl 0; rwa [along_zero] at this)
  obtain ⟨b, hb⟩ := on_line hh.ne (by have := kl 1; rwa [along_one] at this)
  have htu : t = a + u * (b - a) := by
    have : along s u = along h (a + u * (b - a)) := by rw [← along_along, ← ha, ← hb]
    rw [this] at hu
    exact along_inj hh.ne hu
  have out : ∀ v, EventPoint S (along h v) → v ≤ 0 ∨ 1 ≤ v := by
    intro v hv
    by_contra hc
    push Not at hc
    rcases hh.gap _ hv ⟨v, hc.1.le, hc.2.le, rfl⟩ with e | e
    · rw [← along_zero h] at e
      exact hc.1.ne' (along_inj hh.ne e)
    · rw [← along_one h] at e
      exact hc.2.ne (along_inj hh.ne e)
  have oa := out a (ha ▸ Or.inl ⟨s, hs, Or.inl rfl⟩)
  have ob := out b (hb ▸ Or.inl ⟨s, hs, Or.inr rfl⟩)
  have hs12 : s = (along h a, along h b) := Prod.ext ha hb
  have hcase : a ≤ 0 ∧ 1 ≤ b ∨ b ≤ 0 ∧ 1 ≤ a := by
    rcases oa with oa | oa <;> rcases ob with ob | ob
    · exfalso; nlinarith
    · exact Or.inl ⟨oa, ob⟩
    · exact Or.inr ⟨ob, oa⟩
    · exfalso; nlinarith
  have hab : a ≠ b := by rcases hcase with h | h <;> intro hc <;> linarith
  rw [hs12]
  constructor
  · rw [← along_zero h]
    refine onSeg_between hab ?_
    rcases hcase with h | h
    · exact Or.inl ⟨h.1, by linarith⟩
    · exact Or.inr ⟨h.1, by linarith⟩
  · conv_rhs => rw [← along_one h]
    refine onSeg_between hab ?_
    rcases hcase with h | h
    · exact Or.inl ⟨by linarith, h.2⟩
    · exact Or.inr ⟨by linarith, h.2⟩

/-- The arrangement of segments: half-edges lie on each segment that passes through them. -/
theorem build_within (ch : Choices) (hch : ch.Valid) (segments : List Seg) (hd : ∀ s ∈ segments, s.1 ≠ s.2)
    (A : Arrangement) (h : build ch segments = .ok A) :
    ∀ k ∈ A.net.halfEdges, ∀ s ∈ segments, ∀ t : ℚ, 0 < t → t < 1 → OnSeg s (along k t) → OnSeg s k.1 ∧ OnSeg s k.2 := by
  obtain ⟨net, aabb, verts, hb, _, _, hn, hon, _⟩ := buildNet_spec ch hch segments hd
  unfold build at h
  obtain ⟨na, h1, h⟩ := (bind_ok _ _ _).1 h
  rw [hb] at h1
  cases h1
  dsimp only at h
  obtain ⟨_, _, h⟩ := (bind_ok _ _ _).1 h
  obtain ⟨R, hR, h⟩ := (bind_ok _ _ _).1 h
  obtain ⟨st, hst, h⟩ := (bind_ok _ _ _).1 h
  obtain ⟨cells, hcells, h⟩ := (bind_ok _ _ _).1 h
  obtain ⟨info, _, h⟩ := (bind_ok _ _ _).1 h
  obtain ⟨conts, _, h⟩ := (bind_ok _ _ _).1 h
  cases h
  intro k hk s hs t t0 t1 hx
  have hs' : segSorted s ∈ ch.segs (normSegs segments) := by
    rw [(hch.segs (normSegs segments)).mem_iff]
    unfold normSegs
    rw [List.mem_dedup]
    exact List.mem_map_of_mem hs
  have := elem_within (hn.elem k hk) hs' t0 t1 ((onSeg_sorted _ _).2 hx)
  simpa only [onSeg_sorted] using this
/-- The arrangement of simple loops. -/
structure LoopNet (A : Arrangement) (Ls : List (List Pt)) : Prop where
  simple : ∀ L ∈ Ls, SimpleRing L
  built : BuildOK A
  full : Full A
  on : ∀ x, OnAny A.net.halfEdges x ↔ ∃ L ∈ Ls, OnBoundary L x
  within : ∀ k ∈ A.net.halfEdges, ∀ L ∈ Ls, ∀ s ∈ polyEdges L, ∀ t : ℚ, 0 < t → t < 1 → OnSeg s (along k t) → OnSeg s k.1 ∧ OnSeg s k.2

/-- The half-edge goes along the ring. -/
def Al (A : Arrangement) (L : List Pt) (u v : Pt) : Prop :=
  (u, v) ∈ A.net.halfEdges ∧ ∃ e ∈ polyEdges L, ∃ a b : ℚ, 0 ≤ a ∧ a < b ∧ b ≤ 1 ∧ u = along e a ∧ v = along e b

section
variable {A : Arrangement} {Ls : List (List Pt)} (hR : LoopNet A Ls) {L M : List Pt} (hL : L ∈ Ls)

omit hR hL in
theorem Al.mem {u v : Pt} (h : Al A L u v) : (u, v) ∈ A.net.halfEdges := h.1

omit hR hL in
theorem Al.left {u v : Pt} (h : Al A L u v) : OnBoundary L u := by
  obtain ⟨_, e, he, a, b, a0, ab, b1, rfl, rfl⟩ := h
  exact ⟨e, he, a, a0, by linarith, rfl⟩

omit hR hL in
theorem Al.right {u v : Pt} (h : Al A L u v) : OnBoundary L v := by
  obtain ⟨_, e, he, a, b, a0, ab, b1, rfl, rfl⟩ := h
  exact ⟨e, he, b, by linarith, b1, rfl⟩

include hR hL

theorem al_of_inner {h : Seg} (hh : h ∈ A.net.halfEdges) {t : ℚ} (t0 : 0 < t) (t1 : t < 1) (hx : OnBoundary L (along h t)) :
    Al A L h.1 h.2 ∨ Al A L h.2 h.1 := by
  obtain ⟨e, he, hx⟩ := hx
  obtain ⟨⟨a, a0, a1, ea⟩, b, b0, b1, eb⟩ := hR.within h hh L hL e he t t0 t1 hx
  have hab : a ≠ b := fun hc => hR.built.planar.ne h hh (by rw [ea, eb, hc])
  rcases lt_or_gt_of_ne hab with hab | hab
  · exact Or.inl ⟨hh, e, he, a, b, a0, hab, b1, ea, eb⟩
  · exact Or.inr ⟨hR.built.planar.rev h hh, e, he, b, a, b0, hab, a1, eb, ea⟩

theorem al_out {u v w : Pt} (h1 : Al A L u v) (h2 : Al A L u w) : v = w := by
  have hS := hR.simple L hL
  obtain ⟨m1, e, he, a, b, a0, ab, b1, rfl, rfl⟩ := h1
  obtain ⟨m2, f, hf, c, d, c0, cd, d1, e1, rfl⟩ := h2
  rcases hS.apart e he f hf (along e a) ⟨a, a0, by linarith, rfl⟩ ⟨c, c0, by linarith, e1⟩ with h | ⟨-, h⟩ | ⟨h, -⟩
  · subst h
    have hac : a = c := along_inj (hS.pos he) e1
    subst hac
    exact sameWay_eq hR.built.planar m1 m2 (sameWay_along (Or.inl ⟨ab, cd⟩))
  · rw [e1] at h
    have := along_inj (hS.pos hf) (h.trans (along_one f).symm)
    linarith
  · have := along_inj (hS.pos he) (h.trans (along_one e).symm)
    linarith

theorem al_inn {u v w : Pt} (h1 : Al A L u w) (h2 : Al A L v w) : u = v := by
  have hS := hR.simple L hL
  obtain ⟨m1, e, he, a, b, a0, ab, b1, rfl, rfl⟩ := h1
  obtain ⟨m2, f, hf, c, d, c0, cd, d1, rfl, e1⟩ := h2
  rcases hS.apart e he f hf (along e b) ⟨b, by linarith, b1, rfl⟩ ⟨d, by linarith, d1, e1⟩ with h | ⟨h, -⟩ | ⟨-, h⟩
  · subst h
    have hac : b = d := along_inj (hS.pos he) e1
    subst hac
    exact sameWay_eq hR.built.planar (hR.built.planar.rev _ m1) (hR.built.planar.rev _ m2) (sameWay_along (Or.inr ⟨ab, cd⟩))
  · have := along_inj (hS.pos he) (h.trans (along_zero e).symm)
    linarith
  · rw [e1] at h
    have := along_inj (hS.pos hf) (h.trans (along_zero f).symm)
    linarith

theorem al_not_both {u v : Pt} (h1 : Al A L u v) : ¬ Al A L v u := by
  intro h2
  have hS := hR.simple L hL
  obtain ⟨m1, e, he, a, b, a0, ab, b1, rfl, rfl⟩ := h1
  obtain ⟨m2, f, hf, c, d, c0, cd, d1, e1, e2⟩ := h2
  have hm : along e ((a + b) / 2) = along f ((c + d) / 2) := by
    have g1 : along e ((a + b) / 2) = along (along e a, along e b) (1 / 2) := by rw [along_along]; congr 1; ring
    have g2 : along f ((c + d) / 2) = along (along f c, along f d) (1 / 2) := by rw [along_along]; congr 1; ring
    rw [g1, g2, e1, e2]
    unfold along; ext <;> dsimp only <;> ring
  have := hS.inner e he f hf ((a + b) / 2) (by linarith) (by linarith) ⟨(c + d) / 2, by linarith, by linarith, hm⟩
  subst this
  have q1 := along_inj (hS.pos he) e1
  have q2 := along_inj (hS.pos he) e2
  linarith

theorem ring_within : Within A.net.halfEdges L := fun e he x hx => (hR.on x).2 ⟨L, hL, e, he, hx⟩

omit hL in
/-- Each half-edge goes along a ring or back. -/
theorem al_exists {h : Seg} (hh : h ∈ A.net.halfEdges) : ∃ L ∈ Ls, Al A L h.1 h.2 ∨ Al A L h.2 h.1 := by
  obtain ⟨L, hL, hx⟩ := (hR.on (along h (1 / 2))).1 ⟨h, hh, 1 / 2, by norm_num, by norm_num, rfl⟩
  exact ⟨L, hL, al_of_inner hR hL hh (by norm_num) (by norm_num) hx⟩

omit hL in
theorem not_onBoundary {p : Pt} (hL : L ∈ Ls) (hp : ¬ OnAny A.net.halfEdges p) : ¬ OnBoundary L p :=
  fun hx => hp ((hR.on p).2 ⟨L, hL, hx⟩)

omit hR hL in
/-- Points near `u` in some direction: not a vertex, and only on half-edges through `u`. -/
theorem near_point (H : List Seg) (u d : Pt) (hd : d ≠ 0) :
    ∀ᶠ ε in 𝓝[>] (0 : ℚ), ∀ h ∈ H, OnSeg h (u + ε • d) → OnSeg h u ∧ ∃ t : ℚ, 0 < t ∧ t < 1 ∧ u + ε • d = along h t := by
  have ne : ∀ z : Pt, ∀ᶠ ε in 𝓝[>] (0 : ℚ), u + ε • d ≠ z := by
    intro z
    have hd' : d.1 ≠ 0 ∨ d.2 ≠ 0 := by
      by_contra hc
      push Not at hc
      exact hd (Prod.ext hc.1 hc.2)
    rcases hd' with hd' | hd'
    · filter_upwards [small_affine_ne (u.1 - z.1) d.1 (Or.inr hd')] with ε hε hc
      apply hε
      have := congrArg Prod.fst hc
      simp only [Prod.fst_add, Prod.smul_fst, smul_eq_mul] at this
      linarith
    · filter_upwards [small_affine_ne (u.2 - z.2) d.2 (Or.inr hd')] with ε hε hc
      apply hε
      have := congrArg Prod.snd hc
      simp only [Prod.snd_add, Prod.smul_snd, smul_eq_mul] at this
      linarith
  refine small_list H _ fun h hh => ?_
  by_cases hu : OnSeg h u
  · filter_upwards [ne h.1, ne h.2] with ε n1 n2 hx
    obtain ⟨t, t0, t1, e⟩ := hx
    refine ⟨hu, t, lt_of_le_of_ne t0 ?_, lt_of_le_of_ne t1 ?_, e⟩
    · rintro rfl; exact n1 (by rw [e, along_zero])
    · rintro rfl; exact n2 (by rw [e, along_one])
  · filter_upwards [push (u, u) h d d (by
      rintro x ⟨⟨t, -, -, e1⟩, h2⟩
      have : x = u := by rw [e1]; unfold along; ext <;> dsimp only <;> ring
      exact hu (this ▸ h2))] with ε hε hx
    exact absurd hx (hε _ (onSeg_left _))

/-- Some half-edge goes along each edge of the ring. -/
theorem al_on_side {e : Seg} (he : e ∈ polyEdges L) : ∃ a b : ℚ, 0 ≤ a ∧ a < b ∧ b ≤ 1 ∧ Al A L (along e a) (along e b) := by
  have hS := hR.simple L hL
  have hP := hR.built.planar
  have hd : dir e ≠ 0 := by
    intro hc
    apply hS.pos he
    have h1 := congrArg Prod.fst hc
    have h2 := congrArg Prod.snd hc
    unfold dir at h1 h2
    simp only [Prod.fst_zero, Prod.snd_zero] at h1 h2
    exact Prod.ext (by linarith) (by linarith)
  obtain ⟨ε, e0, h1, h2⟩ := small_exists ((near_point A.net.halfEdges e.1 (dir e) hd).and (small_lt 1 one_pos))
  rw [← along_eq] at h1
  obtain ⟨h, hh, hx⟩ := (hR.on (along e ε)).2 ⟨L, hL, e, he, ε, e0.le, h2.le, rfl⟩
  obtain ⟨-, t, t0, t1, ht⟩ := h1 h hh hx
  obtain ⟨⟨a, a0, a1, ea⟩, b, b0, b1, eb⟩ := hR.within h hh L hL e he t t0 t1 ⟨ε, e0.le, h2.le, ht.symm⟩
  have hab : a ≠ b := fun hc => hP.ne h hh (by rw [ea, eb, hc])
  rcases lt_or_gt_of_ne hab with hab | hab
  · exact ⟨a, b, a0, hab, b1, ea ▸ eb ▸ hh, e, he, a, b, a0, hab, b1, rfl, rfl⟩
  · exact ⟨b, a, b0, hab, a1, ea ▸ eb ▸ hP.rev h hh, e, he, b, a, b0, hab, a1, rfl, rfl⟩

/-- On from a point inside a side: the half-edge goes along the same side. -/
theorem al_same_side {e : Seg} (he : e ∈ polyEdges L) {a : ℚ} (a0 : 0 < a) (a1 : a < 1) {w : Pt} :
    (Al A L (along e a) w → ∃ b, a < b ∧ b ≤ 1 ∧ w = along e b) ∧ (Al A L w (along e a) → ∃ b, 0 ≤ b ∧ b < a ∧ w = along e b) := by
  have hS := hR.simple L hL
  constructor
  · rintro ⟨_, f, hf, c, d, c0, cd, d1, e1, e2⟩
    have := hS.inner e he f hf a a0 a1 ⟨c, c0, by linarith, e1⟩
    subst this
    have := along_inj (hS.pos he) e1
    subst this
    exact ⟨d, cd, d1, e2⟩
  · rintro ⟨_, f, hf, c, d, c0, cd, d1, e1, e2⟩
    have := hS.inner e he f hf a a0 a1 ⟨d, by linarith, d1, e2⟩
    subst this
    have := along_inj (hS.pos he) e2
    subst this
    exact ⟨c, c0, cd, e1⟩

theorem params_finite {e : Seg} (he : e ∈ polyEdges L) : {c : ℚ | ∃ h ∈ A.net.halfEdges, h.1 = along e c}.Finite := by
  have hS := hR.simple L hL
  refine Set.Finite.subset (Set.Finite.preimage (f := along e) (fun a _ b _ h => along_inj (hS.pos he) h)
    (List.finite_toSet (A.net.halfEdges.map Prod.fst))) ?_
  rintro c ⟨h, hh, e1⟩
  exact List.mem_map.2 ⟨h, hh, e1⟩

omit hL in
theorem cell_ok' {c : Cell1} (hc : c ∈ A.cells) : CellOK A.net c.vertices := hR.full.tiling.ok _ (List.mem_map_of_mem hc)

/-- A half-edge starts at each vertex inside or at the start of a side, and one ends at each vertex inside or at the end. -/
theorem al_at_side {f : Seg} (hf : f ∈ polyEdges L) {c : ℚ} (hv : ∃ k ∈ A.net.halfEdges, k.1 = along f c) :
    (0 ≤ c → c < 1 → ∃ w, Al A L (along f c) w) ∧ (0 < c → c ≤ 1 → ∃ w, Al A L w (along f c)) := by
  have hS := hR.simple L hL
  have hP := hR.built.planar
  obtain ⟨k, hk, hkc⟩ := hv
  have key : ∀ σ : ℚ, σ ≠ 0 → 0 ≤ c + σ → c + σ ≤ 1 → (∀ ε : ℚ, 0 < ε → ε < 1 → 0 ≤ c + ε * σ ∧ c + ε * σ ≤ 1) →
      ∃ a b ε : ℚ, 0 ≤ a ∧ a < b ∧ b ≤ 1 ∧ 0 < ε ∧ a < c + ε * σ ∧ c + ε * σ < b ∧ (c = a ∨ c = b) ∧ Al A L (along f a) (along f b) := by
    intro σ σ0 _ _ hin
    have hd : σ • dir f ≠ 0 := by
      intro hc
      apply hS.pos hf
      have h1 := congrArg Prod.fst hc
      have h2 := congrArg Prod.snd hc
      unfold dir at h1 h2
      simp only [Prod.smul_fst, Prod.smul_snd, Prod.fst_zero, Prod.snd_zero, smul_eq_mul, mul_eq_zero, σ0, false_or] at h1 h2
      exact Prod.ext (by linarith) (by linarith)
    obtain ⟨ε, e0, h1, h2⟩ := small_exists ((near_point A.net.halfEdges (along f c) (σ • dir f) hd).and (small_lt 1 one_pos))
    have hpt : along f c + ε • σ • dir f = along f (c + ε * σ) := by
      unfold along dir; ext <;> simp only [Prod.fst_add, Prod.snd_add, Prod.smul_fst, Prod.smul_snd, smul_eq_mul] <;> ring
    rw [hpt] at h1
    obtain ⟨i1, i2⟩ := hin ε e0 h2
    obtain ⟨h, hh, hx⟩ := (hR.on (along f (c + ε * σ))).2 ⟨L, hL, f, hf, c + ε * σ, i1, i2, rfl⟩
    obtain ⟨hc, t, t0, t1, ht⟩ := h1 h hh hx
    have hend : along f c = h.1 ∨ along f c = h.2 := by
      rcases hP.meet h hh k hk _ hc (hkc ▸ onSeg_left k) with (q | q) | q
      · left; rw [← hkc, q]
      · right; rw [← hkc, q]
      · exact q.1
    obtain ⟨⟨a, a0, a1, ea⟩, b, b0, b1, eb⟩ := hR.within h hh L hL f hf t t0 t1 ⟨c + ε * σ, i1, i2, ht.symm⟩
    have hab : a ≠ b := fun hc => hP.ne h hh (by rw [ea, eb, hc])
    have hh' : h = (along f a, along f b) := Prod.ext ea eb
    have htc : c + ε * σ = a + t * (b - a) := by
      rw [hh', along_along] at ht
      exact along_inj (hS.pos hf) ht
    have hca : c = a ∨ c = b := by
      rcases hend with q | q
      · exact Or.inl (along_inj (hS.pos hf) (q.trans ea))
      · exact Or.inr (along_inj (hS.pos hf) (q.trans eb))
    rcases lt_or_gt_of_ne hab with hab | hab
    · exact ⟨a, b, ε, a0, hab, b1, e0, by nlinarith, by nlinarith, hca, hh' ▸ hh, f, hf, a, b, a0, hab, b1, rfl, rfl⟩
    · refine ⟨b, a, ε, b0, hab, a1, e0, by nlinarith, by nlinarith, hca.symm, ?_, f, hf, b, a, b0, hab, a1, rfl, rfl⟩
      have := hP.rev h hh
      rwa [hh'] at this
  constructor
  · intro c0 c1
    obtain ⟨a, b, ε, a0, ab, b1, e0, q1, q2, q3, al⟩ := key (1 - c) (by linarith) (by linarith) (by linarith)
      (fun ε h1 h2 => ⟨by nlinarith, by nlinarith⟩)
    rcases q3 with rfl | rfl
    · exact ⟨_, al⟩
    · exfalso; nlinarith
  · intro c0 c1
    obtain ⟨a, b, ε, a0, ab, b1, e0, q1, q2, q3, al⟩ := key (-c) (by linarith) (by linarith) (by linarith)
      (fun ε h1 h2 => ⟨by nlinarith, by nlinarith⟩)
    rcases q3 with rfl | rfl
    · exfalso; nlinarith
    · exact ⟨_, al⟩

/-- Along the ring a half-edge goes on where another one ends. -/
theorem al_next {u v : Pt} (h : Al A L u v) : ∃ w, Al A L v w := by
  have hm := hR.built.planar.rev _ h.mem
  obtain ⟨-, e, he, a, b, a0, ab, b1, rfl, rfl⟩ := h
  rcases eq_or_lt_of_le b1 with rfl | b1
  · obtain ⟨w, hw⟩ := loop_next (l := L) (u := e.1) (v := e.2) he
    have := (al_at_side hR hL hw (c := 0) ⟨_, hm, by simp only [along_zero, along_one]⟩).1 (le_refl _) one_pos
    rw [along_zero] at this
    rw [along_one]
    exact this
  · exact (al_at_side hR hL he ⟨_, hm, rfl⟩).1 (by linarith) b1

/-- Along the ring a half-edge ends where another one starts. -/
theorem al_prev {u v : Pt} (h : Al A L u v) : ∃ w, Al A L w u := by
  have hm := h.mem
  obtain ⟨-, e, he, a, b, a0, ab, b1, rfl, rfl⟩ := h
  rcases eq_or_lt_of_le a0 with rfl | a0
  · obtain ⟨f, hf, e1⟩ := polyEdges_snd (polyEdges_mem he).1
    have := (al_at_side hR hL hf (c := 1) ⟨_, hm, by simp only [along_zero, along_one, e1]⟩).2 one_pos (le_refl _)
    rwa [along_one, e1, ← along_zero e] at this
  · exact (al_at_side hR hL he ⟨_, hm, rfl⟩).2 a0 (by linarith)

/-- The walk along a side reaches its end. -/
theorem walk_up {e : Seg} (he : e ∈ polyEdges L) {a b : ℚ} (a0 : 0 ≤ a) (ab : a < b) (b1 : b ≤ 1) (h : Al A L (along e a) (along e b)) :
    ReflTransGen (Al A L) (along e a) e.2 := by
  have hfin : {c : ℚ | (∃ h ∈ A.net.halfEdges, h.1 = along e c) ∧ a ≤ c ∧ c < 1 ∧ ReflTransGen (Al A L) (along e a) (along e c)}.Finite :=
    (params_finite hR hL he).subset fun c hc => hc.1
  obtain ⟨m, ⟨⟨k, hk, hk1⟩, m1, m2, m3⟩, hmax⟩ := hfin.exists_maximalFor id _ ⟨a, ⟨_, h.mem, rfl⟩, le_refl a, by linarith, .refl⟩
  have hstep : ∃ c, m < c ∧ c ≤ 1 ∧ Al A L (along e m) (along e c) := by
    rcases eq_or_lt_of_le m1 with rfl | hlt
    · exact ⟨b, ab, b1, h⟩
    · have hon : ∃ w, Al A L (along e m) w := by
        rcases m3.cases_tail with h' | ⟨w, -, h'⟩
        · exact ⟨_, h' ▸ h⟩
        · exact al_next hR hL h'
      obtain ⟨w, hw⟩ := hon
      obtain ⟨c, h1, h2, rfl⟩ := (al_same_side hR hL he (by linarith) m2).1 hw
      exact ⟨c, h1, h2, hw⟩
  obtain ⟨c, c1, c2, hc⟩ := hstep
  rcases eq_or_lt_of_le c2 with rfl | c2
  · rw [along_one] at hc
    exact m3.tail hc
  · obtain ⟨w, hw⟩ := al_next hR hL hc
    have := hmax (j := c) ⟨⟨_, hw.mem, rfl⟩, by linarith, c2, m3.tail hc⟩ c1.le
    exact absurd this (not_le.2 c1)

/-- The walk back along a side reaches its start. -/
theorem walk_down {e : Seg} (he : e ∈ polyEdges L) {a b : ℚ} (a0 : 0 ≤ a) (ab : a < b) (b1 : b ≤ 1) (h : Al A L (along e a) (along e b)) :
    ReflTransGen (Al A L) e.1 (along e b) := by
  have hfin : {c : ℚ | (∃ h ∈ A.net.halfEdges, h.1 = along e c) ∧ 0 < c ∧ c ≤ b ∧ ReflTransGen (Al A L) (along e c) (along e b)}.Finite :=
    (params_finite hR hL he).subset fun c hc => hc.1
  obtain ⟨w, hw⟩ := al_next hR hL h
  obtain ⟨m, ⟨⟨k, hk, hk1⟩, m1, m2, m3⟩, hmin⟩ := hfin.exists_minimalFor id _ ⟨b, ⟨_, hw.mem, rfl⟩, by linarith, le_refl b, .refl⟩
  have hstep : ∃ c, 0 ≤ c ∧ c < m ∧ Al A L (along e c) (along e m) := by
    rcases eq_or_lt_of_le m2 with rfl | hlt
    · exact ⟨a, a0, ab, h⟩
    · have hon : ∃ w, Al A L w (along e m) := by
        rcases m3.cases_head with h' | ⟨w, h', -⟩
        · exact ⟨_, h' ▸ h⟩
        · exact al_prev hR hL h'
      obtain ⟨w, hw⟩ := hon
      obtain ⟨c, h1, h2, rfl⟩ := (al_same_side hR hL he m1 (by linarith)).2 hw
      exact ⟨c, h1, h2, hw⟩
  obtain ⟨c, c1, c2, hc⟩ := hstep
  rcases eq_or_lt_of_le c1 with rfl | c1
  · rw [along_zero] at hc
    exact .head hc m3
  · have := hmin (j := c) ⟨⟨_, hc.mem, rfl⟩, c1, by linarith, .head hc m3⟩ c2.le
    exact absurd this (not_le.2 c2)

theorem side_walk {e : Seg} (he : e ∈ polyEdges L) : ReflTransGen (Al A L) e.1 e.2 := by
  obtain ⟨a, b, a0, ab, b1, h⟩ := al_on_side hR hL he
  have h1 := walk_down hR hL he a0 ab b1 h
  have h2 := walk_up hR hL he a0 ab b1 h
  rcases h2.cases_head with h' | ⟨w, hw, h2⟩
  · have := along_inj (hR.simple L hL |>.pos he) (h'.trans (along_one e).symm)
    linarith
  · rw [al_out hR hL hw h] at h2
    exact h1.trans h2

omit hR hL in
/-- Around a polygon every vertex is reached from every other. -/
theorem polygon_walk {R : Pt → Pt → Prop} {l : List Pt} (h : ∀ e ∈ polyEdges l, ReflTransGen R e.1 e.2) {e f : Seg} (he : e ∈ polyEdges l)
    (hf : f ∈ polyEdges l) : ReflTransGen R e.2 f.1 := by
  have hl : l ≠ [] := by rintro rfl; cases he
  have key : ∀ (k : ℤ) (n : ℕ), ReflTransGen R (cycGet l k) (cycGet l (k + n)) := by
    intro k n
    induction n with
    | zero => rw [Nat.cast_zero, add_zero]
    | succ n ih =>
      refine ih.trans ?_
      have := h _ (cyc_mem hl (k + n))
      rw [Nat.cast_succ, ← add_assoc]
      exact this
  obtain ⟨i, hi, rfl⟩ := mem_polyEdges.1 he
  obtain ⟨j, hj, rfl⟩ := mem_polyEdges.1 hf
  have := key (i + 1) (j + l.length - (i + 1))
  rw [show ((i : ℤ) + 1 + ((j + l.length - (i + 1) : ℕ) : ℤ)) = j + l.length by omega, cycGet_add_length] at this
  exact this

/-- The half-edges along the ring are one loop. -/
theorem al_ring : Ring (Al A L) where
  out := fun _ _ _ h1 h2 => al_out hR hL h1 h2
  inn := fun _ _ _ h1 h2 => al_inn hR hL h1 h2
  on := fun _ _ h => al_next hR hL h
  reach := by
    intro u u' v v' h1 h2
    have h1' := h1
    have h2' := h2
    obtain ⟨_, e, he, a, b, a0, ab, b1, rfl, rfl⟩ := h1
    obtain ⟨_, f, hf, c, d, c0, cd, d1, rfl, rfl⟩ := h2
    have s1 := walk_up hR hL he a0 ab b1 h1'
    have s2 := walk_down hR hL hf c0 cd d1 h2'
    refine s1.trans ((polygon_walk (fun k hk => side_walk hR hL hk) he hf).trans ?_)
    rcases s2.cases_tail with h' | ⟨w, hw, s2⟩
    · have := along_inj (hR.simple L hL |>.pos hf) (h'.trans (along_zero f).symm)
      linarith
    · rw [al_inn hR hL s2 h2'] at hw
      exact hw

end

/-- Loops each of which is walked along by half-edges, and of which no two go the same way along a half-edge. -/
structure RingNet (A : Arrangement) (Ls : List (List Pt)) : Prop extends LoopNet A Ls where
  next : ∀ L ∈ Ls, ∀ u v, Al A L u v → ∃ w, Al A L v w
  prev : ∀ L ∈ Ls, ∀ u v, Al A L u v → ∃ w, Al A L w u
  way : ∀ L ∈ Ls, ∀ M ∈ Ls, ∀ u v, Al A L u v → Al A M u v → L = M

end Ply.Arr
