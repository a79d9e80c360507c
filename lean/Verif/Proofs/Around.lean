import Verif.Proofs.Convex
import Verif.Proofs.Separate
import Mathlib.Data.Finset.Max

/-! # The winding number around a vertex of a loop -/

namespace Ply

open Filter Topology

/-- The winding number is `a` on the left and `b` on the right of every edge; inner points of an edge are
on no other edge. -/
structure Sides (L : List Pt) (a b : ℤ) : Prop where
  ne : a ≠ b
  nd : ∀ e ∈ polyEdges L, dir e ≠ 0
  inner : ∀ e ∈ polyEdges L, ∀ e' ∈ polyEdges L, ∀ s, 0 < s → s < 1 → OnSeg e' (along e s) → e' = e
  left : ∀ e ∈ polyEdges L, ∀ s, 0 < s → s < 1 → ∀ u, 0 < cross (dir e) u →
    ∀ᶠ ε in 𝓝[>] (0 : ℚ), windingNumber L (along e s + ε • u) = a
  right : ∀ e ∈ polyEdges L, ∀ s, 0 < s → s < 1 → ∀ u, cross (dir e) u < 0 →
    ∀ᶠ ε in 𝓝[>] (0 : ℚ), windingNumber L (along e s + ε • u) = b

theorem along_eq (e : Seg) (s : ℚ) : along e s = e.1 + s • dir e := by
  unfold along dir; ext <;> simp

theorem along_eq' (e : Seg) (s : ℚ) : along e s = e.2 + (1 - s) • (-dir e) := by
  unfold along dir; ext <;> simp <;> ring

theorem smul_ne {k : ℚ} {u : Pt} (hk : k ≠ 0) (hu : u ≠ 0) : k • u ≠ 0 := by
  intro h
  apply hu
  have h1 := congrArg Prod.fst h
  have h2 := congrArg Prod.snd h
  simp only [Prod.smul_fst, Prod.smul_snd, smul_eq_mul, Prod.fst_zero, Prod.snd_zero] at h1 h2
  exact Prod.ext ((mul_eq_zero.1 h1).resolve_left hk) ((mul_eq_zero.1 h2).resolve_left hk)

/-- Directions between two directions. -/
theorem cone_arc {u u' w : Pt} (hu : u ≠ 0) (hu' : u' ≠ 0) (h4 : cw (ang u) (ang u') < 4) {α β : ℚ} (ha : 0 ≤ α)
    (hb : 0 ≤ β) (hab : 0 < α + β) (hw : w = α • u + β • u') :
    w ≠ 0 ∧ cw (ang u) (ang w) ≤ cw (ang u) (ang u') ∧ (0 < α → w ≠ 0 ∧ (0 < cw (ang u) (ang u') → cw (ang u) (ang w) < cw (ang u) (ang u'))) := by
  have ru := ang_range hu
  have ru' := ang_range hu'
  rcases (cw_range ru ru').1.eq_or_lt with h0 | h0
  · obtain ⟨k, hk, rfl⟩ := ang_eq hu hu' ((cw_eq_zero ru ru').1 h0.symm)
    have e : w = (α + β * k) • u := by rw [hw, smul_smul, ← add_smul]
    have hp : 0 < α + β * k := by
      rcases ha.eq_or_lt with h | h
      · rw [← h] at hab ⊢; nlinarith [mul_pos (show 0 < β by linarith) hk]
      · nlinarith [mul_nonneg hb hk.le]
    have hw0 : w ≠ 0 := by rw [e]; exact smul_ne hp.ne' hu
    refine ⟨hw0, ?_, fun _ => ⟨hw0, fun h => by linarith⟩⟩
    rw [e, ang_smul hp, cw_self, ← h0]
  · have hc : cross u u' < 0 := (cross_cw hu hu').1.2 ⟨h0, h4⟩
    have c1 : cross u w = β * cross u u' := by
      rw [hw, cross_add_right, cross_smul_right, cross_smul_right, cross_self]; ring
    have c2 : cross w u' = α * cross u u' := by
      rw [hw, cross_add_left, cross_smul_left, cross_smul_left, cross_self]; ring
    have hw0 : w ≠ 0 := by
      intro h
      rw [h] at c1 c2
      have z1 : cross u 0 = 0 := cross_zero_right u
      have z2 : cross 0 u' = 0 := by unfold cross; simp
      rw [z1] at c1
      rw [z2] at c2
      have : (α + β) * cross u u' = 0 := by linarith
      rcases mul_eq_zero.1 this with h | h <;> linarith
    have rw' := ang_range hw0
    have key : cw (ang u) (ang w) ≤ 4 := by
      by_contra hk
      push Not at hk
      have := (cross_cw hu hw0).2.2.2 hk
      nlinarith
    have key4 : cw (ang u) (ang w) < 4 := by
      refine key.lt_of_ne fun h => ?_
      have z := (cross_cw hu hw0).2.1.2 (Or.inr h)
      rw [z] at c1
      have hb0 : β = 0 := by
        rcases mul_eq_zero.1 c1.symm with h | h
        · exact h
        · linarith
      rw [hb0] at hw hab
      have e : w = α • u := by rw [hw, zero_smul, add_zero]
      rw [e, ang_smul (by linarith), cw_self] at h
      norm_num at h
    have h2 : ∀ x, cw (ang w) (ang u') = x → x ≤ 4 := by
      rintro _ rfl
      by_contra hk
      push Not at hk
      have := (cross_cw hw0 hu').2.2.2 hk
      nlinarith
    have tt := cw_turn ru rw' ru'
    have le : cw (ang u) (ang w) ≤ cw (ang u) (ang u') := by
      have h2 := h2 _ rfl
      rw [tt] at h2
      have r1 := cw_range ru rw'
      generalize cw (ang u) (ang w) = W at *
      generalize cw (ang u) (ang u') = U at *
      by_contra hk
      push Not at hk
      unfold cw at h2
      rw [if_neg (by linarith)] at h2
      linarith
    refine ⟨hw0, le, fun hα => ⟨hw0, fun _ => le.lt_of_ne fun h => ?_⟩⟩
    have hz : cross w u' = 0 := by
      refine (cross_cw hw0 hu').2.1.2 (Or.inl ?_)
      rw [tt, h, cw_self]
    rw [c2] at hz
    rcases mul_eq_zero.1 hz with h | h <;> linarith

theorem exists_dir {a x : ℚ} (ha : 0 ≤ a ∧ a < 8) (hx : 0 ≤ x ∧ x < 8) : ∃ g : Pt, g ≠ 0 ∧ cw a (ang g) = x := by
  by_cases h : a + x < 8
  · obtain ⟨e, hne⟩ := ang_gsv (f := a + x) (by linarith [ha.1, hx.1]) h
    refine ⟨_, hne, ?_⟩
    rw [e]; unfold cw; rw [if_pos (by linarith [hx.1])]; ring
  · push Not at h
    obtain ⟨e, hne⟩ := ang_gsv (f := a + x - 8) (by linarith) (by linarith [ha.2, hx.2])
    refine ⟨_, hne, ?_⟩
    rw [e]; unfold cw; rw [if_neg (by linarith [hx.2])]; ring

/-- Offsets in the same turn. -/
theorem cw_sub {a b c : ℚ} (ha : 0 ≤ a ∧ a < 8) (hb : 0 ≤ b ∧ b < 8) (hc : 0 ≤ c ∧ c < 8) (h : cw a b ≤ cw a c) :
    cw b c = cw a c - cw a b := by
  rw [cw_turn ha hb hc]
  generalize cw a b = B at *
  generalize cw a c = C at *
  unfold cw
  rw [if_pos h]

/-- No edge at `v` points into the directions from `u` clockwise to `u'`. -/
def NoRay (L : List Pt) (v u u' : Pt) : Prop :=
  ∀ e ∈ polyEdges L, (e.1 = v → cw (ang u) (ang u') < cw (ang u) (ang (dir e))) ∧
    (e.2 = v → cw (ang u) (ang u') < cw (ang u) (ang (-dir e)))

theorem Sides.vertex {L : List Pt} {a b : ℤ} (hS : Sides L a b) {v : Pt} (hv : v ∈ L) {e : Seg} (he : e ∈ polyEdges L)
    (ho : OnSeg e v) : e.1 = v ∨ e.2 = v := by
  obtain ⟨s, s0, s1, hs⟩ := ho
  rcases s0.eq_or_lt with h | s0
  · left; rw [hs, ← h, along_eq, zero_smul, add_zero]
  rcases s1.eq_or_lt with h | s1
  · right; rw [hs, h, along_eq', sub_self, zero_smul, add_zero]
  exfalso
  obtain ⟨e', he', h1⟩ := polyEdges_fst hv
  have := hS.inner e he e' he' s s0 s1 (by rw [← hs, ← h1]; exact onSeg_left e')
  subst this
  rw [← h1, along_eq] at hs
  have : s • dir e' = 0 := by
    have := congrArg (· - e'.1) hs
    simpa using this.symm
  exact smul_ne s0.ne' (hS.nd e' he) this

/-- A point off the vertex is not on an edge at the vertex when its direction is another one. -/
theorem Sides.off {L : List Pt} {a b : ℤ} (hS : Sides L a b) {v : Pt} (hv : v ∈ L) {e : Seg} (he : e ∈ polyEdges L)
    (ho : OnSeg e v) {w : Pt} (hw : w ≠ 0) (h1 : e.1 = v → ang w ≠ ang (dir e)) (h2 : e.2 = v → ang w ≠ ang (-dir e)) :
    ¬ OnSeg e (v + w) := by
  rintro ⟨r, r0, r1, hr⟩
  rcases hS.vertex hv he ho with hv' | hv'
  · have e1 : w = r • dir e := by
      rw [along_eq, hv'] at hr
      exact add_left_cancel hr
    have r0' : 0 < r := by
      refine r0.lt_of_ne fun h => hw ?_
      rw [e1, ← h, zero_smul]
    exact h1 hv' (by rw [e1, ang_smul r0'])
  · have e1 : w = (1 - r) • (-dir e) := by
      rw [along_eq', hv'] at hr
      exact add_left_cancel hr
    have r0' : 0 < 1 - r := by
      refine lt_of_le_of_ne (by linarith) fun h => hw ?_
      rw [e1, ← h, zero_smul]
    exact h2 hv' (by rw [e1, ang_smul r0'])

theorem along_cone (v u u' : Pt) (ε ε' t : ℚ) :
    along (v + ε • u, v + ε' • u') t = v + (((1 - t) * ε) • u + (t * ε') • u') := by
  unfold along; ext <;> simp <;> ring

/-- Near a vertex the winding number is the same in two directions with no edge between. -/
theorem Sides.hop1 {L : List Pt} {a b : ℤ} (hS : Sides L a b) {v : Pt} (hv : v ∈ L) {u u' : Pt} (hu : u ≠ 0)
    (hu' : u' ≠ 0) (h4 : cw (ang u) (ang u') < 4) (hn : NoRay L v u u') :
    ∀ᶠ ε in 𝓝[>] (0 : ℚ), windingNumber L (v + ε • u) = windingNumber L (v + ε • u') := by
  have key : ∀ e ∈ polyEdges L, ∀ᶠ ε in 𝓝[>] (0 : ℚ), ∀ x, OnSeg (v + ε • u, v + ε • u') x → ¬ OnSeg e x := by
    intro e he
    by_cases ho : OnSeg e v
    · filter_upwards [small_pos] with ε hε x hx
      obtain ⟨t, t0, t1, rfl⟩ := hx
      rw [along_cone]
      obtain ⟨hw0, hle, _⟩ := cone_arc hu hu' h4 (α := (1 - t) * ε) (β := t * ε) (mul_nonneg (by linarith) hε.le)
        (mul_nonneg t0 hε.le) (by linarith) rfl
      refine hS.off hv he ho hw0 (fun h h' => ?_) fun h h' => ?_
      · have := (hn e he).1 h
        rw [← h'] at this
        linarith
      · have := (hn e he).2 h
        rw [← h'] at this
        linarith
    · refine push (v, v) e u u' fun x hx => ho ?_
      obtain ⟨⟨t, _, _, hx⟩, h2⟩ := hx
      have : x = v := by rw [hx]; unfold along; simp
      exact this ▸ h2
  filter_upwards [small_list _ _ key] with ε h
  exact winding_const L _ _ fun x hx ⟨e, he, ho⟩ => h e he x hx ho

theorem Sides.hop {L : List Pt} {a b : ℤ} (hS : Sides L a b) {v : Pt} (hv : v ∈ L) {u u' : Pt} (hu : u ≠ 0)
    (hu' : u' ≠ 0) (hn : NoRay L v u u') :
    ∀ᶠ ε in 𝓝[>] (0 : ℚ), windingNumber L (v + ε • u) = windingNumber L (v + ε • u') := by
  have ru := ang_range hu
  have ru' := ang_range hu'
  have rθ := cw_range ru ru'
  obtain ⟨g1, g1n, e1⟩ := exists_dir ru (x := cw (ang u) (ang u') / 3) ⟨by linarith [rθ.1], by linarith [rθ.2]⟩
  obtain ⟨g2, g2n, e2⟩ := exists_dir ru (x := 2 * cw (ang u) (ang u') / 3) ⟨by linarith [rθ.1], by linarith [rθ.2]⟩
  have r1 := ang_range g1n
  have r2 := ang_range g2n
  have sub : ∀ {g g' : Pt}, g ≠ 0 → g' ≠ 0 → cw (ang u) (ang g) ≤ cw (ang u) (ang g') →
      cw (ang u) (ang g') ≤ cw (ang u) (ang u') → NoRay L v g g' := by
    intro g g' hg hg' h1 h2 e he
    have hd := hS.nd e he
    refine ⟨fun h => ?_, fun h => ?_⟩
    · have h3 := (hn e he).1 h
      rw [cw_sub ru (ang_range hg) (ang_range hg') h1, cw_sub ru (ang_range hg) (ang_range hd) (by linarith)]
      linarith
    · have h3 := (hn e he).2 h
      rw [cw_sub ru (ang_range hg) (ang_range hg') h1, cw_sub ru (ang_range hg) (ang_range (neg_ne_zero.2 hd)) (by linarith)]
      linarith
  have a1 := hS.hop1 hv hu g1n (by rw [e1]; linarith [rθ.2])
    (sub hu g1n (by rw [cw_self, e1]; linarith [rθ.1]) (by rw [e1]; linarith [rθ.1]))
  have a2 := hS.hop1 hv g1n g2n (by rw [cw_sub ru r1 r2 (by rw [e1, e2]; linarith [rθ.1]), e1, e2]; linarith [rθ.2])
    (sub g1n g2n (by rw [e1, e2]; linarith [rθ.1]) (by rw [e2]; linarith [rθ.1]))
  have a3 := hS.hop1 hv g2n hu' (by rw [cw_sub ru r2 ru' (by rw [e2]; linarith [rθ.1]), e2]; linarith [rθ.2])
    (sub g2n hu' (by rw [e2]; linarith [rθ.1]) le_rfl)
  filter_upwards [a1, a2, a3] with ε h1 h2 h3
  rw [h1, h2, h3]

/-- A direction with the winding number of the left side is, at some visit of the vertex, on the left. -/
theorem Sides.visit {L : List Pt} {a b : ℤ} (hS : Sides L a b) {v : Pt} (hv : v ∈ L) {u : Pt} (hu : u ≠ 0)
    (hw : ∀ᶠ ε in 𝓝[>] (0 : ℚ), windingNumber L (v + ε • u) = a)
    (hfree : ∀ e ∈ polyEdges L, (e.1 = v → ang u ≠ ang (dir e)) ∧ (e.2 = v → ang u ≠ ang (-dir e))) :
    ∃ k : ℤ, cycGet L k = v ∧ cw (ang (-ce L (k - 1))) (ang u) < cw (ang (-ce L (k - 1))) (ang (ce L k)) := by
  classical
  have hL : L ≠ [] := by rintro rfl; simp at hv
  have ru := ang_range hu
  obtain ⟨eo, heo, hmo⟩ := Finset.exists_min_image ((polyEdges L).toFinset.filter fun e => e.1 = v)
    (fun e => cw (ang u) (ang (dir e))) (by
      obtain ⟨e, he, h1⟩ := polyEdges_fst hv
      exact ⟨e, Finset.mem_filter.2 ⟨List.mem_toFinset.2 he, h1⟩⟩)
  obtain ⟨ei, hei, hmi⟩ := Finset.exists_min_image ((polyEdges L).toFinset.filter fun e => e.2 = v)
    (fun e => cw (ang u) (ang (-dir e))) (by
      obtain ⟨e, he, h1⟩ := polyEdges_snd hv
      exact ⟨e, Finset.mem_filter.2 ⟨List.mem_toFinset.2 he, h1⟩⟩)
  rw [Finset.mem_filter, List.mem_toFinset] at heo hei
  have hmo' : ∀ e ∈ polyEdges L, e.1 = v → cw (ang u) (ang (dir eo)) ≤ cw (ang u) (ang (dir e)) := fun e he h =>
    hmo e (Finset.mem_filter.2 ⟨List.mem_toFinset.2 he, h⟩)
  have hmi' : ∀ e ∈ polyEdges L, e.2 = v → cw (ang u) (ang (-dir ei)) ≤ cw (ang u) (ang (-dir e)) := fun e he h =>
    hmi e (Finset.mem_filter.2 ⟨List.mem_toFinset.2 he, h⟩)
  rcases le_or_gt (cw (ang u) (ang (dir eo))) (cw (ang u) (ang (-dir ei))) with hle | hlt
  · obtain ⟨k, hk, hek⟩ := mem_polyEdges.1 heo.1
    have hkv : cycGet L k = v := by rw [← heo.2, hek]
    refine ⟨k, hkv, ?_⟩
    have hp : (cycGet L ((k : ℤ) - 1), cycGet L ((k : ℤ) - 1 + 1)) ∈ polyEdges L := cyc_mem hL _
    have hdir : dir (cycGet L ((k : ℤ) - 1), cycGet L ((k : ℤ) - 1 + 1)) = ce L (k - 1) := rfl
    have hdo : dir eo = ce L k := by rw [hek]; rfl
    have hq := hmi' _ hp (by rw [sub_add_cancel]; exact hkv)
    rw [hdir] at hq
    rw [hdo] at hle
    have nq : -ce L ((k : ℤ) - 1) ≠ 0 := neg_ne_zero.2 (hdir ▸ hS.nd _ hp)
    have nn : ce L k ≠ 0 := hdo ▸ hS.nd _ heo.1
    have rq := ang_range nq
    have rn := ang_range nn
    have hneq : ang (-ce L ((k : ℤ) - 1)) ≠ ang (ce L k) := by
      intro h
      obtain ⟨m, hm, hmul⟩ := ang_eq nq nn h
      -- the two edges overlap
      have hov : OnSeg eo (along (cycGet L ((k : ℤ) - 1), cycGet L ((k : ℤ) - 1 + 1)) (1 - min (1 / 2) (m / 2))) := by
        refine ⟨min (1 / 2) (m / 2) / m, div_nonneg (le_min (by norm_num) (by linarith)) hm.le, ?_, ?_⟩
        · rw [div_le_one hm]; exact (min_le_right _ _).trans (by linarith)
        · rw [along_eq', along_eq, hdir, hdo, hek, hmul, smul_smul, div_mul_cancel₀ _ hm.ne', sub_sub_cancel]
          dsimp only
          rw [sub_add_cancel]
      have hmin0 : 0 < min (1 / 2 : ℚ) (m / 2) := lt_min (by norm_num) (by linarith)
      have hmin1 : min (1 / 2 : ℚ) (m / 2) ≤ 1 / 2 := min_le_left _ _
      have heq := hS.inner _ hp eo heo.1 _ (by linarith) (by linarith) hov
      have : ce L k = ce L ((k : ℤ) - 1) := by rw [← hdo, heq, hdir]
      rw [this] at hmul
      have h1 := (cw_neg (neg_ne_zero.1 nq))
      rw [this] at h
      rw [h, cw_self] at h1
      norm_num at h1
    have hlt : cw (ang u) (ang (ce L k)) < cw (ang u) (ang (-ce L ((k : ℤ) - 1))) := by
      refine lt_of_le_of_ne (hle.trans hq) fun h => hneq ?_
      have := cw_sub ru rn rq h.le
      rw [h, sub_self] at this
      exact ((cw_eq_zero rn rq).1 this).symm
    have hun : 0 < cw (ang u) (ang (ce L k)) := by
      refine lt_of_le_of_ne (cw_range ru rn).1 fun h => ?_
      exact (hfree eo heo.1).1 heo.2 (by rw [hdo]; exact (cw_eq_zero ru rn).1 h.symm)
    rw [cw_turn ru rq ru, cw_turn ru rq rn, cw_self]
    generalize cw (ang u) (ang (ce L k)) = N at *
    generalize cw (ang u) (ang (-ce L ((k : ℤ) - 1))) = Q at *
    unfold cw
    rw [if_neg (by linarith), if_neg (by linarith)]
    linarith
  · exfalso
    have hdi := hS.nd _ hei.1
    have nq : -dir ei ≠ 0 := neg_ne_zero.2 hdi
    have rq := ang_range nq
    have hθ : 0 < cw (ang u) (ang (-dir ei)) := by
      refine lt_of_le_of_ne (cw_range ru rq).1 fun h => ?_
      exact (hfree ei hei.1).2 hei.2 ((cw_eq_zero ru rq).1 h.symm)
    have hθ8 := (cw_range ru rq).2
    have hray : ∀ e ∈ polyEdges L, (e.1 = v → cw (ang u) (ang (-dir ei)) ≤ cw (ang u) (ang (dir e))) ∧
        (e.2 = v → cw (ang u) (ang (-dir ei)) ≤ cw (ang u) (ang (-dir e))) := fun e he =>
      ⟨fun h => hlt.le.trans (hmo' e he h), fun h => hmi' e he h⟩
    obtain ⟨g, gn, eg⟩ := exists_dir ru (x := 7 / 8 * cw (ang u) (ang (-dir ei))) ⟨by linarith, by linarith⟩
    have rg := ang_range gn
    have hgq : cw (ang g) (ang (-dir ei)) = cw (ang u) (ang (-dir ei)) / 8 := by
      rw [cw_sub ru rg rq (by rw [eg]; linarith), eg]; ring
    have hside : cross (dir ei) g < 0 := by
      have h1 : cross g (-dir ei) < 0 := (cross_cw gn nq).1.2 ⟨by rw [hgq]; linarith, by rw [hgq]; linarith⟩
      rw [cross_neg_right] at h1
      rw [cross_swap]; linarith
    have hop := hS.hop hv hu gn (fun e he => ⟨fun h => by have := (hray e he).1 h; rw [eg]; linarith,
      fun h => by have := (hray e he).2 h; rw [eg]; linarith⟩)
    have hfar : ∀ᶠ ε in 𝓝[>] (0 : ℚ), ∀ e ∈ polyEdges L, ¬ OnSeg e v →
        ∀ x, OnSeg (v + ε • g, v + ε • (-dir ei)) x → ¬ OnSeg e x := by
      refine small_list _ (fun e ε => ¬ OnSeg e v → ∀ x, OnSeg (v + ε • g, v + ε • (-dir ei)) x → ¬ OnSeg e x) fun e _ => ?_
      by_cases ho : OnSeg e v
      · exact Eventually.of_forall fun ε h => absurd ho h
      · filter_upwards [push (v, v) e g (-dir ei) (fun x hx => ho (by
          obtain ⟨⟨t, _, _, hx⟩, h2⟩ := hx
          have : x = v := by rw [hx]; unfold along; simp
          exact this ▸ h2))] with ε h _
        exact h
    obtain ⟨ε, hε, hwa, hhop, hfar, h1⟩ := small_exists (hw.and (hop.and (hfar.and (small_lt 1 one_pos))))
    have hside' : cross (dir ei) (g + dir ei) < 0 := by rw [cross_add_right, cross_self, add_zero]; exact hside
    have hb := hS.right ei hei.1 (1 - ε) (by linarith) (by linarith) _ hside'
    obtain ⟨δ, hδ, hδb, hδε⟩ := small_exists (hb.and (small_lt ε hε))
    have hε0 := hε.ne'
    have hpt : along ei (1 - ε) + δ • (g + dir ei) = along (v + ε • g, v + ε • (-dir ei)) (1 - δ / ε) := by
      rw [along_eq', hei.2, along_cone, sub_sub_cancel, sub_sub_cancel, div_mul_cancel₀ _ hε0, sub_mul,
        div_mul_cancel₀ _ hε0, one_mul, sub_smul, smul_add, smul_neg, smul_neg]
      abel
    have hτ0 : 0 < δ / ε := div_pos hδ hε
    have hτ1 : δ / ε < 1 := (div_lt_one hε).2 hδε
    have hseg : ∀ x, OnSeg (v + ε • g, along ei (1 - ε) + δ • (g + dir ei)) x → ¬ OnBoundary L x := by
      rintro x ⟨t, t0, t1, rfl⟩ ⟨e, he, hon⟩
      have ht : t * (1 - δ / ε) < 1 := by nlinarith
      have ht0 : 0 ≤ t * (1 - δ / ε) := mul_nonneg t0 (by linarith)
      have hx : along (v + ε • g, along ei (1 - ε) + δ • (g + dir ei)) t =
          along (v + ε • g, v + ε • (-dir ei)) (t * (1 - δ / ε)) := by
        rw [hpt]; unfold along; ext <;> simp <;> ring
      rw [hx] at hon
      by_cases ho : OnSeg e v
      · rw [along_cone] at hon
        obtain ⟨hw0, hle, hst⟩ := cone_arc gn nq (by rw [hgq]; linarith) (α := (1 - t * (1 - δ / ε)) * ε)
          (β := t * (1 - δ / ε) * ε) (mul_nonneg (by linarith) hε.le) (mul_nonneg ht0 hε.le) (by linarith) rfl
        have hst := (hst (mul_pos (by linarith) hε)).2 (by rw [hgq]; linarith)
        have tr : ∀ r, 0 ≤ r ∧ r < 8 → cw (ang u) (ang (-dir ei)) ≤ cw (ang u) r →
            cw (ang g) (ang (-dir ei)) ≤ cw (ang g) r := by
          intro r hr h
          rw [cw_sub ru rg rq (by rw [eg]; linarith), cw_sub ru rg hr (by rw [eg]; linarith)]
          linarith
        refine hS.off hv he ho hw0 (fun h h' => ?_) (fun h h' => ?_) hon
        · have := tr _ (ang_range (hS.nd e he)) ((hray e he).1 h)
          rw [← h'] at this
          linarith
        · have := tr _ (ang_range (neg_ne_zero.2 (hS.nd e he))) ((hray e he).2 h)
          rw [← h'] at this
          linarith
      · exact hfar e he ho _ ⟨_, ht0, ht.le, rfl⟩ hon
    have := winding_const L _ _ hseg
    rw [hδb, ← hhop, hwa] at this
    exact hS.ne this

end Ply
