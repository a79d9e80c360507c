import Verif.Proofs.Around

/-! # Points near a loop are covered by the parallelograms of its edges and the triangles of its corners -/

namespace Ply

open Filter Topology

/-- The direction is between the edges at the vertex `J`, the first of them included. -/
def Cone (C : List Pt) (J : ℤ) (d : Pt) : Prop :=
  cw (ang (ce C (J - 1))) (ang d) < cw (ang (ce C (J - 1))) (ang (ce C J))

/-- The point is in the parallelogram of an edge, or in one of the triangles of a corner turning right. -/
def Covered (C L : List Pt) (p : Pt) : Prop :=
  ∃ k : ℤ,
    (∃ (J : ℤ) (x τ : ℚ), Cone C J (ce L k) ∧ 0 ≤ x ∧ x ≤ 1 ∧ 0 ≤ τ ∧ τ ≤ 1 ∧
      p = cycGet L k + x • ce L k + τ • cv C J) ∨
    ∃ (j : ℤ) (μ τ : ℚ), cw (ang (ce L (k - 1))) (ang (ce L k)) < 4 ∧
      0 < cw (ang (ce L (k - 1))) (ang (ce C j)) ∧
      cw (ang (ce L (k - 1))) (ang (ce C j)) ≤ cw (ang (ce L (k - 1))) (ang (ce L k)) ∧
      0 ≤ μ ∧ μ ≤ 1 ∧ 0 ≤ τ ∧ τ ≤ 1 ∧ p = cycGet L k + τ • (cv C j + μ • ce C j)

namespace Conv

variable {C : List Pt} (hC : Conv C)
include hC

omit hC in
theorem form_eq (i : ℤ) (μ : ℚ) : cv C i + μ • ce C i = (1 - μ) • cv C i + μ • cv C (i + 1) := by
  unfold ce; rw [sub_smul, one_smul, smul_sub]; abel

theorem form_le (k i : ℤ) {μ : ℚ} (h0 : 0 ≤ μ) (h1 : μ ≤ 1) : cross (ce C k) (cv C i + μ • ce C i) ≤ hh C k := by
  rw [form_eq, cross_add_right, cross_smul_right, cross_smul_right]
  nlinarith [hC.vertex_le k i, hC.vertex_le k (i + 1)]

theorem form_at (i : ℤ) (μ : ℚ) : cross (ce C i) (cv C i + μ • ce C i) = hh C i := by
  rw [cross_add_right, cross_smul_right, cross_self, mul_zero, add_zero, Conv.ce_cv]

/-- Only the edges at the point are active. -/
theorem active (k i : ℤ) {μ : ℚ} (h0 : 0 ≤ μ) (h1 : μ < 1) :
    cross (ce C k) (cv C i + μ • ce C i) < hh C k ∨ ce C k = ce C i ∨ (μ = 0 ∧ ce C k = ce C (i - 1)) := by
  refine per_nat hC.pos (P := fun i => cross (ce C k) (cv C i + μ • ce C i) < hh C k ∨ ce C k = ce C i ∨
    (μ = 0 ∧ ce C k = ce C (i - 1))) (fun i => ?_) k (fun j hj => ?_) i
  · rw [cv_per, ce_per, show i + (C.length : ℤ) - 1 = i - 1 + C.length by ring, ce_per]
  · rcases Nat.lt_or_ge j 2 with h | h
    · interval_cases j
      · right; left; simp
      · rcases h0.eq_or_lt with hμ | hμ
        · right; right
          refine ⟨hμ.symm, ?_⟩
          push_cast
          rw [add_sub_cancel_right]
        · left
          push_cast
          have a1 := Conv.ce_cv' (C := C) k
          have a2 := hC.vertex_lt k 2 le_rfl hC.three
          push_cast at a2
          rw [form_eq, cross_add_right, cross_smul_right, cross_smul_right, a1, add_assoc]
          norm_num
          nlinarith
    · left
      have a1 := hC.vertex_lt k j h hj
      have a2 := hC.vertex_le k (k + j + 1)
      rw [form_eq, cross_add_right, cross_smul_right, cross_smul_right]
      nlinarith

end Conv

namespace Contact

variable {C L : List Pt} (hC : Conv C) {p z : Pt} {t : ℚ} (hT : Contact C L p z t) (ht : 0 < t)
include hC hT ht

theorem slide {z' : Pt} (hz : OnBoundary L z') {i : ℤ} {μ : ℚ} (h0 : 0 ≤ μ) (h1 : μ ≤ 1)
    (hf : p - z' = t • (cv C i + μ • ce C i)) : Contact C L p z' t := by
  refine ⟨hz, fun k => ?_, ⟨i, ?_⟩, hT.min⟩
  · rw [hf, cross_smul_right]
    exact mul_le_mul_of_nonneg_left (hC.form_le k i h0 h1) ht.le
  · rw [hf, cross_smul_right, hC.form_at]

theorem clear {c : ℚ} (hc : 0 < c) (h1 : c ≤ 1) : ¬ OnBoundary L (z + c • (p - z)) := by
  intro h
  obtain ⟨k, hk⟩ := hT.min _ h
  have e : p - (z + c • (p - z)) = (1 - c) • (p - z) := by rw [sub_smul, one_smul]; abel
  rw [e, cross_smul_right] at hk
  have := hT.le k
  nlinarith [mul_pos ht (hC.hh_pos k)]

theorem wind {c : ℚ} (hc : 0 < c) (h1 : c ≤ 1) : windingNumber L (z + c • (p - z)) = windingNumber L p := by
  refine winding_const L _ _ fun x hx => ?_
  obtain ⟨s, s0, s1, rfl⟩ := hx
  have e : along (z + c • (p - z), p) s = z + (c + s * (1 - c)) • (p - z) := by
    unfold along; ext <;> simp <;> ring
  rw [e]
  exact hT.clear hC ht (by nlinarith) (by nlinarith)

/-- The loop does not leave the touching point towards both active edges. -/
theorem notT {i : ℤ} {μ : ℚ} (h0 : 0 ≤ μ) (h1 : μ < 1) (hf : p - z = t • (cv C i + μ • ce C i)) {d : Pt}
    (hd : ∀ᶠ ε in 𝓝[>] (0 : ℚ), OnBoundary L (z + ε • d)) (c1 : 0 < cross (ce C i) d)
    (c2 : μ = 0 → 0 < cross (ce C (i - 1)) d) : False := by
  have key : ∀ k ∈ List.range C.length, ∀ᶠ ε in 𝓝[>] (0 : ℚ), cross (ce C k) (p - (z + ε • d)) < t * hh C k := by
    intro k _
    have e : ∀ ε : ℚ, cross (ce C k) (p - (z + ε • d)) = cross (ce C k) (p - z) + ε * (-cross (ce C k) d) := by
      intro ε
      rw [← sub_sub, cross_sub_right, cross_smul_right]; ring
    have act : 0 < cross (ce C k) d → ∀ᶠ ε in 𝓝[>] (0 : ℚ), cross (ce C k) (p - (z + ε • d)) < t * hh C k := by
      intro h
      filter_upwards [small_pos] with ε hε
      rw [e]
      nlinarith [hT.le k, mul_pos hε h]
    rcases hC.active k i h0 h1 with h | h | h
    · have hlt : cross (ce C k) (p - z) < t * hh C k := by
        rw [hf, cross_smul_right]
        exact mul_lt_mul_of_pos_left h ht
      filter_upwards [small_affine_lt _ (-cross (ce C k) d) _ hlt] with ε hε
      rw [e]; exact hε
    · exact act (h ▸ c1)
    · exact act (h.2 ▸ c2 h.1)
  obtain ⟨ε, hε, hb, hall⟩ := small_exists (hd.and (small_list _ _ key))
  obtain ⟨k, hk⟩ := hT.min _ hb
  have : cross (ce C k) (p - (z + ε • d)) < t * hh C k := by
    refine per_nat hC.pos (P := fun k => cross (ce C k) (p - (z + ε • d)) < t * hh C k)
      (fun k => by rw [ce_per, hh_per]) 0 (fun j hj => ?_) k
    rw [zero_add]
    exact hall j (List.mem_range.2 hj)
  linarith

end Contact

theorem feasible {L : List Pt} (hL : L ≠ []) (k : ℤ) {s : ℚ} (s0 : 0 ≤ s) (s1 : s < 1) :
    ∀ᶠ ε in 𝓝[>] (0 : ℚ), OnBoundary L (cycGet L k + s • ce L k + ε • ce L k) := by
  filter_upwards [small_pos, small_lt (1 - s) (by linarith)] with ε h1 h2
  exact ⟨_, cyc_mem hL k, s + ε, by linarith, by linarith, by
    rw [along_eq, add_assoc, ← add_smul]; rfl⟩

theorem feasible' {L : List Pt} (hL : L ≠ []) (k : ℤ) {s : ℚ} (s0 : 0 < s) (s1 : s ≤ 1) :
    ∀ᶠ ε in 𝓝[>] (0 : ℚ), OnBoundary L (cycGet L k + s • ce L k + ε • (-ce L k)) := by
  filter_upwards [small_pos, small_lt s s0] with ε h1 h2
  exact ⟨_, cyc_mem hL k, s - ε, by linarith, by linarith, by
    rw [along_eq, add_assoc, smul_neg, ← sub_eq_add_neg, ← sub_smul]; rfl⟩

section

variable {C L : List Pt} (hC : Conv C) {p z : Pt} {t : ℚ} (ht : 0 < t) (ht1 : t ≤ 1)
include hC ht ht1

/-- An edge in the direction of the touching edge: slide back. -/
theorem slide_back {i k : ℤ} {μ s : ℚ} (h1 : μ < 1) (s0 : 0 < s) (s1 : s ≤ 1)
    (hz : z = cycGet L k + s • ce L k) (hn : ce L k ≠ 0) (ha : ang (ce L k) = ang (ce C i))
    (hf : p - z = t • (cv C i + μ • ce C i)) :
    Covered C L p ∨ ∃ μ', μ < μ' ∧ μ' < 1 ∧ p - cycGet L k = t • (cv C i + μ' • ce C i) := by
  obtain ⟨m, hm, hmul⟩ := ang_eq (hC.ce_ne i) hn ha.symm
  have hp : p = z + t • (cv C i + μ • ce C i) := by rw [← hf]; abel
  have hzm : z = cycGet L k + (s * m) • ce C i := by rw [hz, hmul, smul_smul]
  rcases le_or_gt (t * (1 - μ)) (s * m) with h | h
  · left
    refine ⟨k, Or.inl ⟨i + 1, s - t * (1 - μ) / m, t, ?_, ?_, ?_, ht.le, ht1, ?_⟩⟩
    · unfold Cone
      rw [add_sub_cancel_right, ha, cw_self]
      exact ((cross_cw (hC.ce_ne i) (hC.ce_ne (i + 1))).1.1 (hC.strict i)).1
    · rw [sub_nonneg, div_le_iff₀ hm]; exact h
    · have : 0 ≤ t * (1 - μ) / m := div_nonneg (mul_nonneg ht.le (by linarith)) hm.le
      linarith
    · have e : cv C (i + 1) = cv C i + ce C i := by unfold ce; abel
      have hq : (s - t * (1 - μ) / m) * m = s * m - t * (1 - μ) := by field_simp
      rw [hp, hzm, hmul, smul_smul, hq, e]
      ext <;> simp <;> ring
  · right
    refine ⟨μ + s * m / t, ?_, ?_, ?_⟩
    · have : 0 < s * m / t := div_pos (mul_pos s0 hm) ht
      linarith
    · have : s * m / t < 1 - μ := by rw [div_lt_iff₀ ht]; linarith
      linarith
    · rw [hp, hzm]
      have ht' := ht.ne'
      ext <;> simp <;> field_simp <;> ring

variable {a b : ℤ} (hS : Sides L a b) (hw : windingNumber L p = a) (hT : Contact C L p z t)
include hS hw hT

omit ht1 hw in
/-- The direction of the centre is that of no edge at the touching point. -/
theorem free_dir {e : Seg} (he : e ∈ polyEdges L) : (e.1 = z → ang (p - z) ≠ ang (dir e)) ∧
    (e.2 = z → ang (p - z) ≠ ang (-dir e)) := by
  have hu : p - z ≠ 0 := by
    intro h
    have := hT.clear hC ht one_pos le_rfl
    rw [h, smul_zero, add_zero] at this
    exact this hT.on
  have hd := hS.nd e he
  constructor
  · intro h1 h
    obtain ⟨m, hm, hmul⟩ := ang_eq hd hu h.symm
    have hc : 0 < min 1 (1 / m) := lt_min one_pos (by positivity)
    refine hT.clear hC ht hc (min_le_left _ _) ⟨e, he, min 1 (1 / m) * m, by positivity, ?_, ?_⟩
    · calc min 1 (1 / m) * m ≤ 1 / m * m := mul_le_mul_of_nonneg_right (min_le_right _ _) hm.le
        _ = 1 := by field_simp
    · rw [along_eq, h1, hmul, smul_smul]
  · intro h1 h
    obtain ⟨m, hm, hmul⟩ := ang_eq (neg_ne_zero.2 hd) hu h.symm
    have hc : 0 < min 1 (1 / m) := lt_min one_pos (by positivity)
    have hle : min 1 (1 / m) * m ≤ 1 := by
      calc min 1 (1 / m) * m ≤ 1 / m * m := mul_le_mul_of_nonneg_right (min_le_right _ _) hm.le
        _ = 1 := by field_simp
    have hge : 0 < min 1 (1 / m) * m := mul_pos hc hm
    refine hT.clear hC ht hc (min_le_left _ _) ⟨e, he, 1 - min 1 (1 / m) * m, by linarith, by linarith, ?_⟩
    rw [along_eq', h1, hmul, smul_smul, sub_sub_cancel]

/-- The loop is touched inside an edge. -/
theorem touch_edge {i k : ℤ} {μ s : ℚ} (h0 : 0 ≤ μ) (h1 : μ < 1) (s0 : 0 < s) (s1 : s < 1)
    (hz : z = cycGet L k + s • ce L k) (hf : p - z = t • (cv C i + μ • ce C i)) :
    Covered C L p ∨ ∃ μ', μ < μ' ∧ μ' < 1 ∧ p - cycGet L k = t • (cv C i + μ' • ce C i) := by
  have hL : L ≠ [] := by rintro rfl; obtain ⟨e, he, _⟩ := hT.on; simp [polyEdges] at he
  have hek := cyc_mem hL k
  have hdir : dir (cycGet L k, cycGet L (k + 1)) = ce L k := rfl
  have hn : ce L k ≠ 0 := hdir ▸ hS.nd _ hek
  have hza : z = along (cycGet L k, cycGet L (k + 1)) s := by rw [along_eq, hdir, hz]
  have hu : p - z ≠ 0 := by
    intro h
    have := hT.clear hC ht one_pos le_rfl
    rw [h, smul_zero, add_zero] at this
    exact this hT.on
  -- the centre is on the left
  have hleft : 0 < cross (ce L k) (p - z) := by
    rcases lt_trichotomy (cross (ce L k) (p - z)) 0 with h | h | h
    · exfalso
      obtain ⟨ε, hε, hb, hε1⟩ := small_exists ((hS.right _ hek s s0 s1 (p - z) h).and (small_lt 1 one_pos))
      rw [← hza, hT.wind hC ht hε hε1.le, hw] at hb
      exact hS.ne hb
    · exfalso
      obtain ⟨m, hm⟩ := par_of_cross hn h
      rcases le_total 0 m with hm0 | hm0
      · obtain ⟨ε, hε, h2, h3⟩ := small_exists ((small_lt 1 one_pos).and (small_affine_lt s m 1 s1))
        refine hT.clear hC ht hε h2.le ⟨_, hek, s + ε * m, by nlinarith, h3.le, ?_⟩
        rw [along_eq, hm, hz, smul_smul, add_assoc, ← add_smul]; rfl
      · obtain ⟨ε, hε, h2, h3⟩ := small_exists ((small_lt 1 one_pos).and (small_affine_lt (-s) (-m) 0 (by linarith)))
        refine hT.clear hC ht hε h2.le ⟨_, hek, s + ε * m, by linarith, by nlinarith, ?_⟩
        rw [along_eq, hm, hz, smul_smul, add_assoc, ← add_smul]; rfl
    · exact h
  have rn := ang_range hn
  have rq := ang_range (neg_ne_zero.2 hn)
  have ru := ang_range hu
  have hf2 : 4 < cw (ang (ce C i)) (ang (p - z)) := by
    refine (cross_cw (hC.ce_ne i) hu).2.2.1 ?_
    rw [hf, cross_smul_right, hC.form_at]
    exact mul_pos ht (hC.hh_pos i)
  have hs1 : 4 < cw (ang (ce L k)) (ang (p - z)) := (cross_cw hn hu).2.2.1 hleft
  have fn := feasible hL k s0.le s1
  have fq := feasible' hL k s0 s1.le
  rw [← hz] at fn fq
  have nt : ∀ d : Pt, d ≠ 0 → (∀ᶠ ε in 𝓝[>] (0 : ℚ), OnBoundary L (z + ε • d)) → 4 < cw (ang (ce C i)) (ang d) →
      (μ = 0 → 4 < cw (ang (ce C (i - 1))) (ang d)) → False := fun d hd hfe c1 c2 =>
    hT.notT hC ht h0 h1 hf hfe ((cross_cw (hC.ce_ne i) hd).2.2.2 c1) fun h =>
      (cross_cw (hC.ce_ne (i - 1)) hd).2.2.2 (c2 h)
  have r2 := ang_range (hC.ce_ne i)
  have r1 := ang_range (hC.ce_ne (i - 1))
  rcases h0.eq_or_lt with hμ | hμ
  · have hst := hC.strict (i - 1)
    rw [sub_add_cancel] at hst
    have hst' := (cross_cw (hC.ce_ne (i - 1)) (hC.ce_ne i)).1.1 hst
    have hf1 : 4 < cw (ang (ce C (i - 1))) (ang (p - z)) := by
      refine (cross_cw (hC.ce_ne (i - 1)) hu).2.2.1 ?_
      have := Conv.ce_cv' (C := C) (i - 1)
      rw [sub_add_cancel] at this
      rw [hf, ← hμ, zero_smul, add_zero, cross_smul_right, this]
      exact mul_pos ht (hC.hh_pos _)
    have := edge_arith rn rq ru r1 r2 hst'.2 (cw_neg hn) hf1 hf2 (fun h => nt _ hn fn h.2 fun _ => h.1)
      (fun h => nt _ (neg_ne_zero.2 hn) fq h.2 fun _ => h.1) hs1
    rcases this.lt_or_eq with h | h
    · left
      refine ⟨k, Or.inl ⟨i, s, t, h, s0.le, s1.le, ht.le, ht1, ?_⟩⟩
      rw [← hz]
      have hp : p = z + (p - z) := by abel
      rw [hp, hf, ← hμ, zero_smul, add_zero]
    · have ha : ang (ce L k) = ang (ce C i) := by
        have := cw_sub r1 rn r2 h.le
        rw [h, sub_self] at this
        exact (cw_eq_zero rn r2).1 this
      exact slide_back hC ht ht1 h1 s0 s1.le hz hn ha hf
  · have := edge_arith rn rq ru r2 r2 (by rw [cw_self]; norm_num) (cw_neg hn) hf2 hf2
      (fun h => nt _ hn fn h.2 fun h => absurd h hμ.ne')
      (fun h => nt _ (neg_ne_zero.2 hn) fq h.2 fun h => absurd h hμ.ne') hs1
    rw [cw_self] at this
    have ha : ang (ce L k) = ang (ce C i) :=
      ((cw_eq_zero r2 rn).1 (le_antisymm this (cw_range r2 rn).1)).symm
    exact slide_back hC ht ht1 h1 s0 s1.le hz hn ha hf

/-- The loop is touched at a vertex. -/
theorem touch_vertex {i : ℤ} {μ : ℚ} (h0 : 0 ≤ μ) (h1 : μ < 1) (hzL : z ∈ L)
    (hf : p - z = t • (cv C i + μ • ce C i)) :
    Covered C L p ∨ ∃ v ∈ L, ∃ μ', μ < μ' ∧ μ' < 1 ∧ p - v = t • (cv C i + μ' • ce C i) := by
  have hL : L ≠ [] := by rintro rfl; simp at hzL
  have hu : p - z ≠ 0 := by
    intro h
    have := hT.clear hC ht one_pos le_rfl
    rw [h, smul_zero, add_zero] at this
    exact this hT.on
  obtain ⟨k, hk, hs2⟩ := hS.visit hzL hu (by
    filter_upwards [small_pos, small_lt 1 one_pos] with ε a1 a2
    rw [hT.wind hC ht a1 a2.le, hw]) fun e he => free_dir hC ht hS hT he
  have hn : ce L k ≠ 0 := hS.nd _ (cyc_mem hL k)
  have hp' : ce L (k - 1) ≠ 0 := hS.nd _ (cyc_mem hL (k - 1))
  have hz : z = cycGet L k + (0 : ℚ) • ce L k := by rw [zero_smul, add_zero, hk]
  have hzp : z = cycGet L (k - 1) + (1 : ℚ) • ce L (k - 1) := by
    rw [one_smul, ← hk]; unfold ce; rw [sub_add_cancel]; abel
  have rn := ang_range hn
  have rp := ang_range hp'
  have rq := ang_range (neg_ne_zero.2 hp')
  have ru := ang_range hu
  have hf2 : 4 < cw (ang (ce C i)) (ang (p - z)) := by
    refine (cross_cw (hC.ce_ne i) hu).2.2.1 ?_
    rw [hf, cross_smul_right, hC.form_at]
    exact mul_pos ht (hC.hh_pos i)
  have fn := feasible hL k le_rfl (one_pos : (0 : ℚ) < 1)
  have fq := feasible' hL (k - 1) one_pos (le_refl (1 : ℚ))
  rw [← hz] at fn
  rw [← hzp] at fq
  have nt : ∀ d : Pt, d ≠ 0 → (∀ᶠ ε in 𝓝[>] (0 : ℚ), OnBoundary L (z + ε • d)) → 4 < cw (ang (ce C i)) (ang d) →
      (μ = 0 → 4 < cw (ang (ce C (i - 1))) (ang d)) → False := fun d hd hfe c1 c2 =>
    hT.notT hC ht h0 h1 hf hfe ((cross_cw (hC.ce_ne i) hd).2.2.2 c1) fun h =>
      (cross_cw (hC.ce_ne (i - 1)) hd).2.2.2 (c2 h)
  have r2 := ang_range (hC.ce_ne i)
  have r1 := ang_range (hC.ce_ne (i - 1))
  have hp : p = cycGet L k + t • (cv C i + μ • ce C i) := by rw [← hf, hk]; abel
  have back : ang (ce L (k - 1)) = ang (ce C i) →
      Covered C L p ∨ ∃ v ∈ L, ∃ μ', μ < μ' ∧ μ' < 1 ∧ p - v = t • (cv C i + μ' • ce C i) := by
    intro ha
    rcases slide_back hC ht ht1 h1 one_pos le_rfl hzp hp' ha hf with h | ⟨μ', a1, a2, a3⟩
    · exact Or.inl h
    · exact Or.inr ⟨_, (polyEdges_mem (cyc_mem hL (k - 1))).1, μ', a1, a2, a3⟩
  rcases h0.eq_or_lt with hμ | hμ
  · have hst := hC.strict (i - 1)
    rw [sub_add_cancel] at hst
    have hst' := (cross_cw (hC.ce_ne (i - 1)) (hC.ce_ne i)).1.1 hst
    have hf1 : 4 < cw (ang (ce C (i - 1))) (ang (p - z)) := by
      refine (cross_cw (hC.ce_ne (i - 1)) hu).2.2.1 ?_
      have := Conv.ce_cv' (C := C) (i - 1)
      rw [sub_add_cancel] at this
      rw [hf, ← hμ, zero_smul, add_zero, cross_smul_right, this]
      exact mul_pos ht (hC.hh_pos _)
    have hpi : p = cycGet L k + t • cv C i := by rw [hp, ← hμ, zero_smul, add_zero]
    rcases corner_arith rp rn rq ru r1 r2 hst'.2 (cw_neg hp') hf1 hf2 (fun h => nt _ hn fn h.2 fun _ => h.1)
      (fun h => nt _ (neg_ne_zero.2 hp') fq h.2 fun _ => h.1) hs2 with ⟨c, ⟨d1, d2⟩ | ⟨d1, d2⟩⟩ | h | h | h
    · left
      refine ⟨k, Or.inr ⟨i - 1, 1, t, c, d1, d2, zero_le_one, le_rfl, ht.le, ht1, ?_⟩⟩
      rw [hpi, one_smul]; unfold ce; rw [sub_add_cancel, add_sub_cancel]
    · exact Or.inl ⟨k, Or.inr ⟨i, μ, t, c, d1, d2, h0, h1.le, ht.le, ht1, hp⟩⟩
    · exact Or.inl ⟨k, Or.inl ⟨i, 0, t, h, le_rfl, zero_le_one, ht.le, ht1, by rw [zero_smul, add_zero, hpi]⟩⟩
    · refine Or.inl ⟨k - 1, Or.inl ⟨i, 1, t, h, zero_le_one, le_rfl, ht.le, ht1, ?_⟩⟩
      rw [← hzp, ← hk, hpi]
    · exact back h
  · rcases corner_arith rp rn rq ru r2 r2 (by rw [cw_self]; norm_num) (cw_neg hp') hf2 hf2
      (fun h => nt _ hn fn h.2 fun h => absurd h hμ.ne')
      (fun h => nt _ (neg_ne_zero.2 hp') fq h.2 fun h => absurd h hμ.ne') hs2 with ⟨c, ⟨d1, d2⟩ | ⟨d1, d2⟩⟩ | h | h | h
    · exact Or.inl ⟨k, Or.inr ⟨i, μ, t, c, d1, d2, h0, h1.le, ht.le, ht1, hp⟩⟩
    · exact Or.inl ⟨k, Or.inr ⟨i, μ, t, c, d1, d2, h0, h1.le, ht.le, ht1, hp⟩⟩
    · rw [cw_self] at h; exact absurd (cw_range r2 rn).1 (not_le.2 h)
    · rw [cw_self] at h; exact absurd (cw_range r2 rp).1 (not_le.2 h)
    · exact back h

end

/-- A point on the left of the loop, within the convex polygon placed somewhere on the loop, is covered. -/
theorem covered {C L : List Pt} (hC : Conv C) {a b : ℤ} (hS : Sides L a b) {p : Pt} (hp : ¬ OnBoundary L p)
    (hw : windingNumber L p = a) {z' : Pt} (hz' : OnBoundary L z') (hin : InConvex C (p - z')) : Covered C L p := by
  classical
  have hL : L ≠ [] := by rintro rfl; obtain ⟨e, he, _⟩ := hz'; simp [polyEdges] at he
  obtain ⟨z, t, hT⟩ := exists_touch hC L hL p
  have ht := hT.pos hC hp
  have ht1 := hT.le_one hC hz' hin
  obtain ⟨i, μ, h0, h1, hf⟩ := hT.normal hC hp
  have vert : ∀ v ∈ L, ∀ μ : ℚ, 0 ≤ μ → μ < 1 → p - v = t • (cv C i + μ • ce C i) → Covered C L p := by
    intro v hv μ h0 h1 hf
    obtain ⟨x, hx, hmax⟩ := Finset.exists_max_image
      (L.toFinset.filter fun v => ∃ μ : ℚ, 0 ≤ μ ∧ μ < 1 ∧ p - v = t • (cv C i + μ • ce C i))
      (fun v => dotp (p - v) (ce C i)) ⟨v, Finset.mem_filter.2 ⟨List.mem_toFinset.2 hv, μ, h0, h1, hf⟩⟩
    rw [Finset.mem_filter, List.mem_toFinset] at hx
    obtain ⟨hxL, ν, n0, n1, hfx⟩ := hx
    have hb : OnBoundary L x := by
      obtain ⟨e, he, h⟩ := polyEdges_fst hxL
      exact ⟨e, he, h ▸ onSeg_left e⟩
    rcases touch_vertex hC ht ht1 hS hw (hT.slide hC ht hb n0 n1.le hfx) n0 n1 hxL hfx with h | ⟨y, hy, ν', m0, m1, hfy⟩
    · exact h
    · exfalso
      have hm := hmax y (Finset.mem_filter.2 ⟨List.mem_toFinset.2 hy, ν', by linarith, m1, hfy⟩)
      rw [hfx, hfy] at hm
      have hsq : 0 < dotp (ce C i) (ce C i) := by
        unfold dotp
        rcases (ne_zero_iff _).1 (hC.ce_ne i) with h | h
        · have := mul_self_pos.2 h; nlinarith [mul_self_nonneg (ce C i).2]
        · have := mul_self_pos.2 h; nlinarith [mul_self_nonneg (ce C i).1]
      have e : ∀ m : ℚ, dotp (t • (cv C i + m • ce C i)) (ce C i) =
          t * dotp (cv C i) (ce C i) + t * m * dotp (ce C i) (ce C i) := by
        intro m; unfold dotp; simp; ring
      rw [e, e] at hm
      nlinarith [mul_pos (mul_pos ht (show 0 < ν' - ν by linarith)) hsq]
  obtain ⟨e, he, s, s0, s1, hz⟩ := hT.on
  obtain ⟨k, _, rfl⟩ := mem_polyEdges.1 he
  rcases s0.eq_or_lt with h | s0
  · refine vert z ?_ μ h0 h1 hf
    rw [hz, ← h, along_eq, zero_smul, add_zero]
    exact (polyEdges_mem he).1
  rcases s1.eq_or_lt with h | s1
  · refine vert z ?_ μ h0 h1 hf
    rw [hz, h, along_eq', sub_self, zero_smul, add_zero]
    exact (polyEdges_mem he).2
  rcases touch_edge hC ht ht1 hS hw hT h0 h1 s0 s1 (by rw [hz, along_eq]; rfl) hf with h | ⟨μ', m0, m1, hf'⟩
  · exact h
  · exact vert _ (polyEdges_mem he).1 μ' (by linarith) m1 hf'

end Ply
