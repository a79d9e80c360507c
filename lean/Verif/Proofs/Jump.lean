import Verif.Proofs.Faces

/-!
# The winding number across an edge

A polygon along a planar net winds around the left side of an edge once more than around the right side
for each time it runs along the edge.  Two functions that jump equally at every edge and agree far away
agree everywhere.
-/

namespace Ply

open Filter Topology

/-- Crossing an edge from its left to its right along a horizontal line. -/
theorem crossing_jump (p q a b : Pt) (hy : p.2 = q.2) (hx : p.1 < q.1) (hp : 0 < orient a b p) (hq : orient a b q < 0)
    {t : ℚ} (t0 : 0 < t) (t1 : t < 1) (ht : (along (a, b) t).2 = p.2) :
    crossing p a b - crossing q a b = 1 ∧ crossing p b a - crossing q b a = -1 := by
  have hab : a.2 < b.2 := by
    have : orient a b p - orient a b q = (b.2 - a.2) * (q.1 - p.1) := by
      unfold orient; rw [hy]; ring
    have h1 : 0 < (b.2 - a.2) * (q.1 - p.1) := by linarith
    have := (pos_iff_pos_of_mul_pos h1).2 (sub_pos.2 hx)
    linarith
  have hlo : a.2 < p.2 := by rw [← ht]; unfold along; dsimp only; nlinarith
  have hhi : p.2 < b.2 := by rw [← ht]; unfold along; dsimp only; nlinarith
  have r1 : ∀ z, orient b a z = -orient a b z := fun z => by unfold orient; ring
  unfold crossing
  rw [r1, r1, ← hy]
  have n1 : ¬ b.2 ≤ p.2 := not_le.2 hhi
  have n2 : ¬ p.2 < a.2 := not_lt.2 hlo.le
  have n3 : ¬ 0 < orient a b q := not_lt.2 hq.le
  have n4 : ¬ -orient a b q < 0 := by linarith
  have n5 : -orient a b p < 0 := by linarith
  simp [hlo.le, hhi, hp, n1, n3, n4, n5]

/-- The winding numbers on the two sides of an edge. -/
theorem winding_jump (poly : List Pt) (l r : Pt) (h : Seg) {t s : ℚ} (t0 : 0 < t) (t1 : t < 1)
    (hx : along h t = along (l, r) s) (hl : 0 < orient h.1 h.2 l) (hr : orient h.1 h.2 r < 0)
    (hne : ∀ e ∈ polyEdges poly, e ≠ h → e ≠ (h.2, h.1) → ∀ x, OnSeg (l, r) x → ¬ OnSeg e x) :
    windingNumber poly l - windingNumber poly r =
      ((polyEdges poly).count h : ℤ) - (polyEdges poly).count (h.2, h.1) := by
  have hlr : l ≠ r := by rintro rfl; linarith
  have hon : ∀ z, orient h.1 h.2 z ≠ 0 → OnSeg (l, r) z → ¬ OnBoundary poly z := by
    rintro z hz hs ⟨e, he, ho⟩
    have hh : OnSeg h z → False := by
      rintro ⟨u, _, _, rfl⟩
      apply hz
      unfold orient along; ring
    by_cases e1 : e = h
    · exact hh (e1 ▸ ho)
    · by_cases e2 : e = (h.2, h.1)
      · rw [e2] at ho
        exact hh ((onSeg_rev h z).1 ho)
      · exact hne e he e1 e2 z hs ho
  set A : Affine := ⟨r.1 - l.1, r.2 - l.2, -(r.2 - l.2), r.1 - l.1, 0, 0⟩ with hA
  have hdet : 0 < A.det := by
    unfold Affine.det
    rw [hA]
    dsimp only
    have : r.1 - l.1 ≠ 0 ∨ r.2 - l.2 ≠ 0 := by
      by_contra hc
      push Not at hc
      exact hlr (Prod.ext (by linarith [hc.1]) (by linarith [hc.2]))
    rcases this with h | h
    · nlinarith [mul_self_pos.2 h, mul_self_nonneg (r.2 - l.2)]
    · nlinarith [mul_self_pos.2 h, mul_self_nonneg (r.1 - l.1)]
  have e1 := windingNumber_affine A hdet.ne' poly l (hon l hl.ne' (onSeg_left (l, r)))
  have e2 := windingNumber_affine A hdet.ne' poly r (hon r hr.ne (onSeg_right (l, r)))
  rw [if_pos hdet, one_mul] at e1 e2
  rw [← e1, ← e2]
  have hy : (A.app l).2 = (A.app r).2 := by rw [hA]; unfold Affine.app; dsimp only; ring
  have hdx : (A.app r).1 - (A.app l).1 = A.det := by rw [hA]; unfold Affine.app Affine.det; dsimp only; ring
  have hye : ∀ u, (A.app (along (l, r) u)).2 = (A.app l).2 := fun u => by
    rw [hA]; unfold Affine.app along; dsimp only; ring
  obtain ⟨j1, j2⟩ := crossing_jump (A.app l) (A.app r) (A.app h.1) (A.app h.2) hy (by linarith)
    (by rw [orient_affine]; exact mul_pos hdet hl) (by rw [orient_affine]; exact mul_neg_of_pos_of_neg hdet hr) t0 t1
    (by rw [← along_affine, hx, hye])
  have hhne : h ≠ (h.2, h.1) := by
    intro hc
    have : h.1 = h.2 := congrArg Prod.fst hc
    rw [this] at hl
    unfold orient at hl
    linarith
  have term : ∀ e ∈ polyEdges poly, crossing (A.app l) (A.app e.1) (A.app e.2) - crossing (A.app r) (A.app e.1) (A.app e.2) =
      (if e = h then 1 else 0) - if e = (h.2, h.1) then 1 else 0 := by
    intro e he
    by_cases c1 : e = h
    · rw [if_pos c1, if_neg (by rw [c1]; exact hhne), c1, j1]; rfl
    · by_cases c2 : e = (h.2, h.1)
      · rw [if_neg c1, if_pos c2, c2]; exact j2
      · rw [if_neg c1, if_neg c2, sub_self, sub_eq_zero]
        refine crossing_move _ _ _ _ hy (by linarith) fun x h1 h2 ho => ?_
        have hxx : (x, (A.app l).2) = A.app (along (l, r) ((x - (A.app l).1) / A.det)) := by
          set u := (x - (A.app l).1) / A.det with hu
          have hu' : u * A.det = x - (A.app l).1 := div_mul_cancel₀ _ hdet.ne'
          have e : x = (A.app l).1 + u * A.det := by linarith
          rw [e, hA]
          unfold Affine.app Affine.det along
          dsimp only
          ext <;> dsimp only <;> ring
        rw [hxx] at ho
        refine hne e he c1 c2 _ ⟨(x - (A.app l).1) / A.det, div_nonneg (by linarith) hdet.le,
          (div_le_one hdet).2 (by linarith), rfl⟩ ?_
        exact (onSeg_affine A hdet.ne' e _).1 ho
  unfold windingNumber
  rw [polyEdges_map, List.map_map, List.map_map]
  generalize hE : polyEdges poly = E at term
  clear hE hne hon e1 e2
  induction E with
  | nil => simp
  | cons e E ih =>
    have i1 := ih fun e he => term e (List.mem_cons_of_mem _ he)
    have i2 := term e List.mem_cons_self
    simp only [List.map_cons, List.sum_cons, Function.comp_apply, Prod.map_fst, Prod.map_snd, List.count_cons] at i1 i2 ⊢
    have b1 : (if (e == h) = true then (1 : ℕ) else 0) = if e = h then 1 else 0 := by simp
    have b2 : (if (e == (h.2, h.1)) = true then (1 : ℕ) else 0) = if e = (h.2, h.1) then 1 else 0 := by simp
    rw [b1, b2]
    push_cast
    linarith

/-- A polygon does not wind around points to its right. -/
theorem winding_far (poly : List Pt) (p : Pt) (h : ∀ v ∈ poly, v.1 < p.1) : windingNumber poly p = 0 := by
  unfold windingNumber
  have : ∀ e ∈ polyEdges poly, crossing p e.1 e.2 = 0 := by
    intro e he
    have h1 : e.1.1 < p.1 := h _ (polyEdges_mem he).1
    have h2 : e.2.1 < p.1 := h _ (polyEdges_mem he).2
    unfold crossing orient
    rw [if_neg, if_neg]
    · rintro ⟨a, b, c⟩; nlinarith
    · rintro ⟨a, b, c⟩; nlinarith
  rw [List.map_congr_left this]
  simp

/-- The segment from `l` to `r` crosses the edge from its left to its right and meets no other edge. -/
structure Across (H : List Seg) (h : Seg) (l r : Pt) : Prop where
  hit : ∃ t s : ℚ, 0 < t ∧ t < 1 ∧ 0 < s ∧ s < 1 ∧ along h t = along (l, r) s
  left : 0 < orient h.1 h.2 l
  right : orient h.1 h.2 r < 0
  only : ∀ k ∈ H, k ≠ h → k ≠ (h.2, h.1) → ∀ x, OnSeg (l, r) x → ¬ OnSeg k x

theorem Across.rev {H : List Seg} {h : Seg} {l r : Pt} (ha : Across H h l r) : Across H (h.2, h.1) r l := by
  obtain ⟨⟨t, s, t0, t1, s0, s1, e⟩, a, b, c⟩ := ha
  have ro : ∀ z, orient h.2 h.1 z = -orient h.1 h.2 z := fun z => by unfold orient; ring
  refine ⟨⟨1 - t, 1 - s, by linarith, by linarith, by linarith, by linarith, ?_⟩, ?_, ?_, ?_⟩
  · rw [along_rev, show ((r, l) : Seg) = ((l, r).2, (l, r).1) from rfl, along_rev, sub_sub_cancel, sub_sub_cancel, e]
  · dsimp only; rw [ro]; linarith
  · dsimp only; rw [ro]; linarith
  · intro k hk h1 h2 x hx
    exact c k hk h2 h1 x ((onSeg_rev (l, r) x).1 hx)

theorem orient_cross (h : Seg) (z : Pt) : orient h.1 h.2 z = cross (dir h) (z - h.1) := by
  unfold orient cross dir; simp only [Prod.fst_sub, Prod.snd_sub]

theorem Across.sees {H : List Seg} {h : Seg} {l r : Pt} (ha : Across H h l r) : Sees H h r := by
  obtain ⟨⟨t, s, t0, t1, s0, s1, e⟩, a, b, c⟩ := ha
  have hr : r = along h t + (r - along h t) := by abel
  have hc : cross (dir h) (r - along h t) < 0 := by
    have : cross (dir h) (r - along h t) = orient h.1 h.2 r := by
      unfold orient cross dir along; simp only [Prod.fst_sub, Prod.snd_sub]; ring
    rw [this]; exact b
  refine ⟨t, r - along h t, t0, t1, hc, hr, ?_⟩
  rintro τ τ0 τ1 ⟨k, hk, hon⟩
  have hh : ∀ k, OnSeg k (along h t + τ • (r - along h t)) → k ≠ h := by
    rintro k hk rfl
    have hz := cross_on _ _ hk
    have : cross (dir k) (along k t + τ • (r - along k t) - k.1) = τ * cross (dir k) (r - along k t) := by
      unfold cross dir along
      simp only [Prod.fst_add, Prod.snd_add, Prod.smul_fst, Prod.smul_snd, smul_eq_mul, Prod.fst_sub, Prod.snd_sub]
      ring
    rw [this] at hz
    exact absurd hz (mul_neg_of_pos_of_neg τ0 hc).ne
  refine c k hk (hh k hon) (fun hc => hh h ?_ rfl) _ ?_ hon
  · rw [hc] at hon; exact (onSeg_rev h _).1 hon
  · refine ⟨s + τ * (1 - s), by nlinarith, by nlinarith, ?_⟩
    rw [e]
    unfold along
    ext <;> simp only [Prod.fst_add, Prod.snd_add, Prod.smul_fst, Prod.smul_snd, smul_eq_mul, Prod.fst_sub, Prod.snd_sub] <;> ring

/-- A function that does not change off the net nor across an edge does not change along a segment through
no vertex. -/
theorem path_const {β : Type*} {H : List Seg} (hP : Planar H) (Φ : Pt → β)
    (hseg : ∀ p q, (∀ x, OnSeg (p, q) x → ¬ OnAny H x) → Φ p = Φ q)
    (hacr : ∀ h ∈ H, ∀ l r, Across H h l r → Φ l = Φ r) (p w : Pt) (hq : ¬ OnAny H (p + w))
    (hv : ∀ k ∈ H, cross w (k.1 - p) ≠ 0) :
    ∀ n (τ₀ : ℚ), 0 ≤ τ₀ → τ₀ ≤ 1 → ¬ OnAny H (p + τ₀ • w) →
      (∀ L : List Seg, L.Nodup → L ⊆ H → (∀ k ∈ L, ∃ τ : ℚ, τ₀ ≤ τ ∧ τ ≤ 1 ∧ OnSeg k (p + τ • w)) → L.length ≤ n) →
      Φ (p + τ₀ • w) = Φ (p + w) := by
  have hv2 : ∀ k ∈ H, cross w (k.2 - p) ≠ 0 := fun k hk => hv _ (hP.rev k hk)
  have htrans : ∀ k ∈ H, ∀ τ : ℚ, OnSeg k (p + τ • w) → cross (dir k) w ≠ 0 := by
    rintro k hk τ ⟨r, _, _, hr⟩ hc
    apply hv k hk
    have e1 := congrArg Prod.fst hr
    have e2 := congrArg Prod.snd hr
    unfold along at e1 e2
    simp only [Prod.fst_add, Prod.snd_add, Prod.smul_fst, Prod.smul_snd, smul_eq_mul] at e1 e2
    unfold cross dir at hc
    unfold cross
    simp only [Prod.fst_sub, Prod.snd_sub] at hc ⊢
    linear_combination w.2 * e1 - w.1 * e2 + r * hc
  have huniq : ∀ k ∈ H, ∀ τ τ' : ℚ, OnSeg k (p + τ • w) → OnSeg k (p + τ' • w) → τ = τ' := by
    intro k hk τ τ' h1 h2
    have hz1 := cross_on k _ h1
    have hz2 := cross_on k _ h2
    have hn := htrans k hk τ h1
    have : (τ - τ') * cross (dir k) w = 0 := by
      unfold cross at hz1 hz2 ⊢
      simp only [Prod.fst_add, Prod.snd_add, Prod.smul_fst, Prod.smul_snd, smul_eq_mul, Prod.fst_sub, Prod.snd_sub] at hz1 hz2
      linear_combination hz1 - hz2
    exact sub_eq_zero.1 ((mul_eq_zero.1 this).resolve_right hn)
  have hsegw : ∀ a b : ℚ, a ≤ b → ∀ x, OnSeg (p + a • w, p + b • w) x → ∃ τ, a ≤ τ ∧ τ ≤ b ∧ x = p + τ • w := by
    rintro a b hab x ⟨u, u0, u1, rfl⟩
    refine ⟨a + u * (b - a), by nlinarith, by nlinarith, ?_⟩
    unfold along
    ext <;> simp only [Prod.fst_add, Prod.snd_add, Prod.smul_fst, Prod.smul_snd, smul_eq_mul] <;> ring
  have hone : p + (1 : ℚ) • w = p + w := by rw [one_smul]
  intro n
  induction n with
  | zero =>
    intro τ₀ h0 h1 hoff hL
    rw [← hone]
    refine hseg _ _ fun x hx => ?_
    rintro ⟨k, hk, hon⟩
    obtain ⟨τ, a, b, rfl⟩ := hsegw _ _ h1 x hx
    have := hL [k] (by simp) (by simpa using hk) (by
      intro k' hk'
      rw [List.mem_singleton] at hk'
      exact ⟨τ, a, b, hk' ▸ hon⟩)
    simp at this
  | succ n ih =>
    intro τ₀ h0 h1 hoff hL
    by_cases hany : ∃ k ∈ H, ∃ τ : ℚ, k ∈ H ∧ τ₀ ≤ τ ∧ τ ≤ 1 ∧ OnSeg k (p + τ • w)
    swap
    · rw [← hone]
      refine hseg _ _ fun x hx => ?_
      rintro ⟨k, hk, hon⟩
      obtain ⟨τ, a, b, rfl⟩ := hsegw _ _ h1 x hx
      exact hany ⟨k, hk, τ, hk, a, b, hon⟩
    obtain ⟨k, _, τ, ⟨hk, a, b, hon⟩, hmin⟩ := first_hit
      (fun k (τ : ℚ) => k ∈ H ∧ τ₀ ≤ τ ∧ τ ≤ 1 ∧ OnSeg k (p + τ • w))
      (fun k τ τ' h h' => huniq k h.1 τ τ' h.2.2.2 h'.2.2.2) H hany
    have ha : τ₀ < τ := lt_of_le_of_ne a (by rintro rfl; exact hoff ⟨k, hk, hon⟩)
    have hb : τ < 1 := lt_of_le_of_ne b (by rintro rfl; rw [hone] at hon; exact hq ⟨k, hk, hon⟩)
    have hcr := htrans k hk τ hon
    obtain ⟨r, r0, r1, hr⟩ := id hon
    have hend : ∀ c : Pt, p + τ • w = c → cross w (c - p) = 0 := by
      rintro c rfl
      unfold cross
      simp only [Prod.fst_add, Prod.snd_add, Prod.smul_fst, Prod.smul_snd, smul_eq_mul, Prod.fst_sub, Prod.snd_sub]
      ring
    have r0' : 0 < r := by
      rcases eq_or_lt_of_le r0 with rfl | h
      · rw [along_zero] at hr; exact absurd (hend _ hr) (hv k hk)
      · exact h
    have r1' : r < 1 := by
      rcases eq_or_lt_of_le r1 with rfl | h
      · rw [along_one] at hr; exact absurd (hend _ hr) (hv2 k hk)
      · exact h
    have ev : ∀ᶠ ε in 𝓝[>] (0 : ℚ), ∀ k' ∈ H, k' ≠ k → k' ≠ (k.2, k.1) → ∀ x,
        OnSeg (p + τ • w + ε • -w, p + τ • w + ε • w) x → ¬ OnSeg k' x := by
      refine small_list H _ fun k' hk' => ?_
      by_cases hkk : k' = k ∨ k' = (k.2, k.1)
      · exact Eventually.of_forall fun ε n1 n2 => by rcases hkk with h | h; exacts [absurd h n1, absurd h n2]
      · have := push (p + τ • w, p + τ • w) k' (-w) w (by
          rintro x ⟨⟨t, _, _, rfl⟩, h2⟩
          have : along (p + τ • w, p + τ • w) t = p + τ • w := by unfold along; ext <;> simp
          rw [this, hr] at h2
          exact hkk (hP.inner hk r0' r1' hk' h2))
        filter_upwards [this] with ε hε _ _
        exact hε
    obtain ⟨ε, e0, hε, e1, e2⟩ := small_exists (ev.and ((small_lt (τ - τ₀) (by linarith)).and (small_lt (1 - τ) (by linarith))))
    have el : p + τ • w + ε • -w = p + (τ - ε) • w := by
      ext <;> simp only [Prod.fst_add, Prod.snd_add, Prod.smul_fst, Prod.smul_snd, smul_eq_mul, Prod.fst_neg, Prod.snd_neg] <;> ring
    have er : p + τ • w + ε • w = p + (τ + ε) • w := by
      ext <;> simp only [Prod.fst_add, Prod.snd_add, Prod.smul_fst, Prod.smul_snd, smul_eq_mul] <;> ring
    rw [el, er] at hε
    have step1 : Φ (p + τ₀ • w) = Φ (p + (τ - ε) • w) := by
      refine hseg _ _ fun x hx => ?_
      rintro ⟨k', hk', hon'⟩
      obtain ⟨σ, a', b', rfl⟩ := hsegw _ _ (by linarith) x hx
      have := hmin k' hk' σ ⟨hk', a', by linarith, hon'⟩
      linarith
    have hor : ∀ (k : Seg) (r : ℚ), p + τ • w = along k r → ∀ σ : ℚ, orient k.1 k.2 (p + σ • w) = (σ - τ) * cross (dir k) w := by
      intro k r hr σ
      have : p + σ • w = along k r + (σ - τ) • w := by
        rw [← hr]
        ext <;> simp only [Prod.fst_add, Prod.snd_add, Prod.smul_fst, Prod.smul_snd, smul_eq_mul] <;> ring
      rw [this]
      unfold orient cross dir along
      simp only [Prod.fst_add, Prod.snd_add, Prod.smul_fst, Prod.smul_snd, smul_eq_mul]
      ring
    have key : ∀ (k : Seg) (r : ℚ), 0 < r → r < 1 → p + τ • w = along k r → cross (dir k) w < 0 →
        (∀ k' ∈ H, k' ≠ k → k' ≠ (k.2, k.1) → ∀ x, OnSeg (p + (τ - ε) • w, p + (τ + ε) • w) x → ¬ OnSeg k' x) →
        Across H k (p + (τ - ε) • w) (p + (τ + ε) • w) := by
      intro k r r0 r1 hr hc ho
      refine ⟨⟨r, 1 / 2, r0, r1, by norm_num, by norm_num, ?_⟩, ?_, ?_, ho⟩
      · rw [← hr]
        unfold along
        ext <;> simp only [Prod.fst_add, Prod.snd_add, Prod.smul_fst, Prod.smul_snd, smul_eq_mul] <;> ring
      · rw [hor k r hr]; nlinarith
      · rw [hor k r hr]; nlinarith
    have step2 : Φ (p + (τ - ε) • w) = Φ (p + (τ + ε) • w) := by
      rcases lt_or_gt_of_ne hcr with hlt | hgt
      · exact hacr k hk _ _ (key k r r0' r1' hr hlt hε)
      · refine hacr (k.2, k.1) (hP.rev k hk) _ _ (key (k.2, k.1) (1 - r) (by linarith) (by linarith) ?_ ?_ ?_)
        · rw [along_rev, sub_sub_cancel, hr]
        · have : cross (dir (k.2, k.1)) w = -cross (dir k) w := by unfold cross dir; dsimp only; ring
          rw [this]; linarith
        · intro k' hk' n1 n2
          exact hε k' hk' n2 n1
    rw [step1, step2]
    refine ih (τ + ε) (by linarith) (by linarith) ?_ ?_
    · rintro ⟨k', hk', hon'⟩
      by_cases c : k' = k ∨ k' = (k.2, k.1)
      · have : OnSeg k (p + (τ + ε) • w) := by
          rcases c with rfl | rfl
          · exact hon'
          · exact (onSeg_rev k _).1 hon'
        have := huniq k hk _ _ hon this
        linarith
      · push Not at c
        exact hε k' hk' c.1 c.2 _ (onSeg_right _) hon'
    · intro L hnd hsub hhit
      have hkL : k ∉ L := by
        intro hkL
        obtain ⟨σ, s0, _, hs⟩ := hhit k hkL
        have := huniq k hk _ _ hon hs
        linarith
      have := hL (k :: L) (List.nodup_cons.2 ⟨hkL, hnd⟩) (List.cons_subset.2 ⟨hk, hsub⟩) (by
        intro k' hk'
        rcases List.mem_cons.1 hk' with rfl | hk'
        · exact ⟨τ, a, b, hon⟩
        · obtain ⟨σ, s0, s1, hs⟩ := hhit k' hk'
          exact ⟨σ, by linarith, s1, hs⟩)
      simpa using this

/-- A function that does not change off the net nor across an edge has the same value everywhere off the
net, namely its value far away. -/
theorem far_const {β : Type*} {H : List Seg} (hP : Planar H) (Φ : Pt → β)
    (hseg : ∀ p q, (∀ x, OnSeg (p, q) x → ¬ OnAny H x) → Φ p = Φ q)
    (hacr : ∀ h ∈ H, ∀ l r, Across H h l r → Φ l = Φ r) {b : β} (M : ℚ) (hfar : ∀ q : Pt, M < q.1 → Φ q = b)
    {p : Pt} (hp : ¬ OnAny H p) : Φ p = b := by
  obtain ⟨N, hN⟩ : ∃ N : ℚ, ∀ h ∈ H, h.1.1 < N := by
    clear hp hfar hacr hseg hP
    induction H with
    | nil => exact ⟨0, by simp⟩
    | cons a H ih =>
      obtain ⟨N, hN⟩ := ih
      refine ⟨max N (a.1.1 + 1), ?_⟩
      intro h hh
      rcases List.mem_cons.1 hh with rfl | hh
      · exact lt_max_of_lt_right (by linarith)
      · exact lt_max_of_lt_left (hN h hh)
  set X := max (max M N) p.1 + 1 - p.1 with hX
  have hX1 : M < p.1 + X := by rw [hX]; have := le_max_left (max M N) p.1; have := le_max_left M N; linarith
  have hX2 : N < p.1 + X := by rw [hX]; have := le_max_left (max M N) p.1; have := le_max_right M N; linarith
  have hX0 : 0 < X := by rw [hX]; have := le_max_right (max M N) p.1; linarith
  have ev : ∀ᶠ ε in 𝓝[>] (0 : ℚ), ∀ k ∈ H, cross (X, ε) (k.1 - p) ≠ 0 := by
    refine small_list H _ fun k hk => ?_
    have : ∀ ε : ℚ, cross (X, ε) (k.1 - p) = X * (k.1.2 - p.2) + ε * -(k.1.1 - p.1) := by
      intro ε; unfold cross; simp only [Prod.fst_sub, Prod.snd_sub]; ring
    simp only [this]
    apply small_affine_ne
    by_contra hc
    push Not at hc
    refine hp ⟨k, hk, ?_⟩
    have : p = k.1 := by
      refine Prod.ext (by linarith [hc.2]) ?_
      have := (mul_eq_zero.1 hc.1).resolve_left hX0.ne'
      linarith
    rw [this]; exact onSeg_left k
  obtain ⟨ε, e0, hε⟩ := small_exists ev
  have hq : ¬ OnAny H (p + (X, ε)) := by
    rintro ⟨k, hk, t, t0, t1, ht⟩
    have h1 := hN k hk
    have h2 : k.2.1 < N := hN _ (hP.rev k hk)
    have := congrArg Prod.fst ht
    unfold along at this
    simp only [Prod.fst_add] at this
    nlinarith
  have := path_const hP Φ hseg hacr p (X, ε) hq hε H.length 0 le_rfl zero_le_one (by simpa using hp)
    (fun L hL hs _ => (hL.subperm hs).length_le)
  rw [zero_smul, add_zero] at this
  rw [this]
  exact hfar _ (by simpa using hX1)

end Ply
