import Verif.Proofs.Separate
import Verif.Props.Frangle
import Mathlib.Algebra.Module.Prod
import Mathlib.Algebra.Module.Rat
import Mathlib.Tactic.Abel
import Mathlib.Data.Set.Finite.Basic
import Mathlib.Order.Interval.Set.Infinite

/-!
# Faces of a planar net of segments

Two points on the same side of an edge, or on the two edges around a corner, are equivalent with respect
to all polygons along the net; every point off the net is equivalent to one next to an edge.
-/

namespace Ply

open Filter Topology

/-- Edges come in both directions, have distinct end points, and meet at end points only. -/
structure Planar (H : List Seg) : Prop where
  rev : ∀ h ∈ H, (h.2, h.1) ∈ H
  ne : ∀ h ∈ H, h.1 ≠ h.2
  meet : ∀ h ∈ H, ∀ k ∈ H, ∀ x, OnSeg h x → OnSeg k x →
    (k = h ∨ k = (h.2, h.1)) ∨ ((x = h.1 ∨ x = h.2) ∧ (x = k.1 ∨ x = k.2))

/-- The point is on the right of the half-edge and nothing is between it and some inner point of it. -/
def Sees (H : List Seg) (h : Seg) (p : Pt) : Prop :=
  ∃ (t : ℚ) (v : Pt), 0 < t ∧ t < 1 ∧ cross (dir h) v < 0 ∧ p = along h t + v ∧
    ∀ τ : ℚ, 0 < τ → τ ≤ 1 → ¬ OnAny H (along h t + τ • v)

theorem Sees.off {H : List Seg} {h : Seg} {p : Pt} (hs : Sees H h p) : ¬ OnAny H p := by
  obtain ⟨t, v, _, _, _, rfl, hτ⟩ := hs
  simpa using hτ 1 one_pos le_rfl

theorem along_rev (s : Seg) (t : ℚ) : along (s.2, s.1) t = along s (1 - t) := by
  unfold along; ext <;> dsimp only <;> ring

theorem onSeg_rev (s : Seg) (x : Pt) : OnSeg (s.2, s.1) x ↔ OnSeg s x := by
  constructor
  · rintro ⟨t, h0, h1, rfl⟩; exact ⟨1 - t, by linarith, by linarith, along_rev s t⟩
  · rintro ⟨t, h0, h1, rfl⟩
    refine ⟨1 - t, by linarith, by linarith, ?_⟩
    rw [along_rev]; congr 1; ring

theorem along_inj {s : Seg} (h : s.1 ≠ s.2) {t u : ℚ} (e : along s t = along s u) : t = u := by
  unfold along at e
  have e1 := congrArg Prod.fst e
  have e2 := congrArg Prod.snd e
  dsimp only at e1 e2
  by_contra hc
  apply h
  have hc' : t - u ≠ 0 := sub_ne_zero.2 hc
  have f1 : (t - u) * (s.2.1 - s.1.1) = 0 := by linarith
  have f2 : (t - u) * (s.2.2 - s.1.2) = 0 := by linarith
  rcases mul_eq_zero.1 f1 with g1 | g1
  · exact absurd g1 hc'
  · rcases mul_eq_zero.1 f2 with g2 | g2
    · exact absurd g2 hc'
    · exact Prod.ext (by linarith) (by linarith)

theorem along_zero (s : Seg) : along s 0 = s.1 := by unfold along; ext <;> simp
theorem along_one (s : Seg) : along s 1 = s.2 := by unfold along; ext <;> simp

/-- An inner point of an edge is on no other edge. -/
theorem Planar.inner {H : List Seg} (hP : Planar H) {h : Seg} (hh : h ∈ H) {r : ℚ} (r0 : 0 < r) (r1 : r < 1)
    {k : Seg} (hk : k ∈ H) (hx : OnSeg k (along h r)) : k = h ∨ k = (h.2, h.1) := by
  rcases hP.meet h hh k hk _ ⟨r, r0.le, r1.le, rfl⟩ hx with e | ⟨e | e, _⟩
  · exact e
  · rw [← along_zero h] at e
    exact absurd (along_inj (hP.ne h hh) e) r0.ne'
  · rw [← along_one h] at e
    exact absurd (along_inj (hP.ne h hh) e) r1.ne

theorem cross_on (h : Seg) (x : Pt) (hx : OnSeg h x) : cross (dir h) (x - h.1) = 0 := by
  obtain ⟨t, _, _, rfl⟩ := hx
  unfold cross dir along
  simp only [Prod.fst_sub, Prod.snd_sub]
  ring

/-- Moving towards the edge. -/
theorem same_near {H : List Seg} {m v : Pt} (h : ∀ τ : ℚ, 0 < τ → τ ≤ 1 → ¬ OnAny H (m + τ • v))
    {ε : ℚ} (e0 : 0 < ε) (e1 : ε ≤ 1) : SameFace H (m + v) (m + ε • v) := by
  refine same_of_segment fun x hx => ?_
  obtain ⟨u, u0, u1, rfl⟩ := hx
  have : along (m + v, m + ε • v) u = m + (1 + u * (ε - 1)) • v := by
    unfold along
    ext <;> simp only [Prod.fst_add, Prod.snd_add, Prod.smul_fst, Prod.smul_snd, smul_eq_mul] <;> ring
  rw [this]
  exact h _ (by nlinarith) (by nlinarith)

/-- All points that see a half-edge are equivalent. -/
theorem sees_same {H : List Seg} (hP : Planar H) {h : Seg} (hh : h ∈ H) {p q : Pt} (hp : Sees H h p)
    (hq : Sees H h q) : SameFace H p q := by
  obtain ⟨t, v, t0, t1, hv, rfl, hτ⟩ := hp
  obtain ⟨t', v', t0', t1', hv', rfl, hτ'⟩ := hq
  have hsub : ∀ x, OnSeg (along h t, along h t') x → ∃ r, 0 < r ∧ r < 1 ∧ x = along h r := by
    rintro x ⟨u, u0, u1, rfl⟩
    refine ⟨t + u * (t' - t), ?_, ?_, ?_⟩
    · rcases eq_or_lt_of_le u1 with rfl | u1
      · linarith
      · nlinarith [mul_pos (sub_pos.2 u1) t0, mul_nonneg u0 t0'.le]
    · rcases eq_or_lt_of_le u1 with rfl | u1
      · linarith
      · nlinarith [mul_pos (sub_pos.2 u1) (sub_pos.2 t1), mul_nonneg u0 (sub_pos.2 t1').le]
    · unfold along; ext <;> dsimp only <;> ring
  have ev : ∀ᶠ ε in 𝓝[>] (0 : ℚ), ∀ k ∈ H, ∀ x,
      OnSeg (along h t + ε • v, along h t' + ε • v') x → ¬ OnSeg k x := by
    refine small_list H _ fun k hk => ?_
    by_cases hkh : k = h ∨ k = (h.2, h.1)
    · filter_upwards [small_pos] with ε hε x hx hkx
      have hx' : OnSeg h x := by
        rcases hkh with rfl | rfl
        · exact hkx
        · exact (onSeg_rev h x).1 hkx
      have hz := cross_on h x hx'
      obtain ⟨u, u0, u1, rfl⟩ := hx
      have : cross (dir h) (along (along h t + ε • v, along h t' + ε • v') u - h.1) =
          ε * ((1 - u) * cross (dir h) v + u * cross (dir h) v') := by
        unfold cross dir along
        simp only [Prod.fst_add, Prod.snd_add, Prod.smul_fst, Prod.smul_snd, smul_eq_mul, Prod.fst_sub,
          Prod.snd_sub]
        ring
      rw [this] at hz
      have hneg : (1 - u) * cross (dir h) v + u * cross (dir h) v' < 0 := by
        rcases eq_or_lt_of_le u1 with rfl | u1
        · linarith
        · nlinarith [mul_neg_of_pos_of_neg (sub_pos.2 u1) hv, mul_nonneg u0 (neg_nonneg.2 hv'.le)]
      exact absurd hz (mul_neg_of_pos_of_neg hε hneg).ne
    · refine push (along h t, along h t') k v v' ?_
      rintro x ⟨h1, h2⟩
      obtain ⟨r, r0, r1, rfl⟩ := hsub x h1
      exact hkh (hP.inner hh r0 r1 hk h2)
  obtain ⟨ε, e0, hε, e1⟩ := small_exists (ev.and (small_lt 1 one_pos))
  refine (same_near hτ e0 e1.le).trans (SameFace.trans ?_ (same_near hτ' e0 e1.le).symm)
  exact same_of_segment fun x hx => fun ⟨k, hk, hkx⟩ => hε k hk x hx hkx

/-! ### Around a vertex -/

/-- Directions in which no edge leaves the vertex: points close to it are off the net. -/
theorem cone {H : List Seg} (hP : Planar H) (c d d' : Pt) (hc : ∃ k ∈ H, k.1 = c) (U : ℚ → Prop)
    (hU : ∀ u, U u → 0 ≤ u ∧ u ≤ 1) (hz : ∀ u, U u → (1 - u) • d + u • d' ≠ 0)
    (h : ∀ k ∈ H, k.1 = c → ∀ u, U u → ∀ r : ℚ, 0 < r → (1 - u) • d + u • d' ≠ r • dir k) :
    ∀ᶠ ε in 𝓝[>] (0 : ℚ), ∀ u, U u → ¬ OnAny H (c + ε • ((1 - u) • d + u • d')) := by
  have ev : ∀ᶠ ε in 𝓝[>] (0 : ℚ), ∀ k ∈ H, ∀ u, U u → ¬ OnSeg k (c + ε • ((1 - u) • d + u • d')) := by
    refine small_list H _ fun k hk => ?_
    by_cases hck : OnSeg k c
    · have hend : c = k.1 ∨ c = k.2 := by
        obtain ⟨k0, hk0, rfl⟩ := hc
        rcases hP.meet k hk k0 hk0 _ hck (onSeg_left k0) with (e | e) | e
        · rw [e]; exact Or.inl rfl
        · rw [e]; exact Or.inr rfl
        · exact e.1
      have key : ∀ k ∈ H, c = k.1 → ∀ ε : ℚ, 0 < ε → ∀ u, U u → ¬ OnSeg k (c + ε • ((1 - u) • d + u • d')) := by
        rintro k hk hck ε hε u hu ⟨r, r0, _, hr⟩
        have e : ε • ((1 - u) • d + u • d') = r • dir k := by
          have : along k r = c + r • dir k := by
            rw [hck]; unfold along dir; ext <;> simp
          rw [this] at hr
          exact add_left_cancel hr
        have e' : (1 - u) • d + u • d' = (r / ε) • dir k := by
          rw [div_eq_inv_mul, mul_smul, ← e, smul_smul, inv_mul_cancel₀ hε.ne', one_smul]
        rcases eq_or_lt_of_le r0 with rfl | r0
        · exact hz u hu (by rw [e']; simp)
        · exact h k hk hck.symm u hu _ (div_pos r0 hε) e'
      filter_upwards [small_pos] with ε hε u hu hon
      rcases hend with e | e
      · exact key k hk e ε hε u hu hon
      · exact key (k.2, k.1) (hP.rev k hk) e ε hε u hu ((onSeg_rev k _).2 hon)
    · have := push (c, c) k d d' (by
        rintro x ⟨⟨t, _, _, rfl⟩, h2⟩
        have : along (c, c) t = c := by unfold along; ext <;> simp
        rw [this] at h2
        exact hck h2)
      filter_upwards [this] with ε hε u hu
      refine hε _ ⟨u, (hU u hu).1, (hU u hu).2, ?_⟩
      unfold along
      ext <;> simp only [Prod.fst_add, Prod.snd_add, Prod.smul_fst, Prod.smul_snd, smul_eq_mul] <;> ring
  filter_upwards [ev] with ε hε u hu
  rintro ⟨k, hk, hon⟩
  exact hε k hk u hu hon

local notation "𝔻" => frangleUnitSquareVector

theorem fus_ne (f : ℚ) : 𝔻 f ≠ 0 := by
  intro h
  have := c14_on_square f
  rw [h] at this
  simp at this

theorem fus_ne' (f : ℚ) : 𝔻 f ≠ (0, 0) := fus_ne f

theorem pyMod_sub_pyMod (a b : ℚ) : pyMod (pyMod a 8 - pyMod b 8) 8 = pyMod (a - b) 8 := by
  obtain ⟨z, hz⟩ := pyMod_decomp a 8
  obtain ⟨w, hw⟩ := pyMod_decomp b 8
  have : a - b = (pyMod a 8 - pyMod b 8) + 8 * ((z - w : ℤ) : ℚ) := by push_cast; linarith
  rw [this, pyMod_add_mul _ (by norm_num)]

theorem cross_fus (f g : ℚ) :
    (cross (𝔻 f) (𝔻 g) < 0 ↔ 0 < pyMod (g - f) 8 ∧ pyMod (g - f) 8 < 4) ∧
    (0 < cross (𝔻 f) (𝔻 g) ↔ 4 < pyMod (g - f) 8) := by
  obtain ⟨a, b, ha, hb, h1, h2, _⟩ := c13_clockwise (𝔻 f) (𝔻 g) (fus_ne' f) (fus_ne' g)
  rw [c14_right_inverse] at ha hb
  cases ha
  cases hb
  rw [pyMod_sub_pyMod] at h1 h2
  exact ⟨h1, h2⟩

/-- Directions between two directions less than a half turn apart. -/
theorem fus_between {φ ψ : ℚ} (h : φ < ψ) (h4 : ψ < φ + 4) {u : ℚ} (u0 : 0 < u) (u1 : u < 1) :
    ∃ χ r : ℚ, φ < χ ∧ χ < ψ ∧ 0 < r ∧ (1 - u) • 𝔻 ψ + u • 𝔻 φ = r • 𝔻 χ := by
  have hpos : 0 < cross (𝔻 ψ) (𝔻 φ) := by
    rw [(cross_fus ψ φ).2, pyMod_eq_iff (b := φ - ψ + 8) (by linarith) (by linarith) (-1) (by push_cast; ring)]
    linarith
  set x := (1 - u) • 𝔻 ψ + u • 𝔻 φ with hx
  have c1 : cross (𝔻 ψ) x = u * cross (𝔻 ψ) (𝔻 φ) := by
    rw [hx]; unfold cross
    simp only [Prod.fst_add, Prod.snd_add, Prod.smul_fst, Prod.smul_snd, smul_eq_mul]; ring
  have c2 : cross x (𝔻 φ) = (1 - u) * cross (𝔻 ψ) (𝔻 φ) := by
    rw [hx]; unfold cross
    simp only [Prod.fst_add, Prod.snd_add, Prod.smul_fst, Prod.smul_snd, smul_eq_mul]; ring
  have hxn : x ≠ (0, 0) := by
    intro hc
    rw [hc] at c1
    have : cross (𝔻 ψ) ((0, 0) : Pt) = 0 := by unfold cross; simp
    rw [this] at c1
    exact absurd c1 (mul_pos u0 hpos).ne
  obtain ⟨k, f, hk, h0, h8, hxf, _⟩ := polar x hxn
  have hxf' : x = k • 𝔻 f := hxf
  have d1 : 0 < cross (𝔻 ψ) (𝔻 f) := by
    have : cross (𝔻 ψ) x = k * cross (𝔻 ψ) (𝔻 f) := by
      rw [hxf]; unfold cross scale; dsimp only; ring
    rw [this] at c1
    exact (mul_pos_iff_of_pos_left hk).1 (c1 ▸ mul_pos u0 hpos)
  have d2 : 0 < cross (𝔻 f) (𝔻 φ) := by
    have : cross x (𝔻 φ) = k * cross (𝔻 f) (𝔻 φ) := by
      rw [hxf]; unfold cross scale; dsimp only; ring
    rw [this] at c2
    exact (mul_pos_iff_of_pos_left hk).1 (c2 ▸ mul_pos (sub_pos.2 u1) hpos)
  rw [(cross_fus _ _).2] at d1 d2
  obtain ⟨z, hz⟩ := pyMod_decomp (f - ψ) 8
  obtain ⟨r0, r8⟩ := pyMod_range (f - ψ) (m := 8) (by norm_num)
  set χ := f - 8 * ((z + 1 : ℤ) : ℚ) with hχ
  have hχ1 : χ - ψ = pyMod (f - ψ) 8 - 8 := by rw [hχ]; push_cast; linarith
  have hD : 𝔻 χ = 𝔻 f := by
    have := c14_periodic χ (z + 1)
    rw [← this]; congr 1; rw [hχ]; ring
  have e : pyMod (φ - f) 8 = pyMod (φ - χ) 8 := by
    have : φ - χ = φ - f + 8 * ((z + 1 : ℤ) : ℚ) := by rw [hχ]; ring
    rw [this, pyMod_add_mul _ (by norm_num)]
  rw [e] at d2
  refine ⟨χ, k, ?_, by linarith, hk, by rw [hD, hxf']⟩
  by_contra hc
  push Not at hc
  rw [pyMod_of_range (by linarith) (by linarith)] at d2
  linarith

/-- Going from a half-edge to the next one around the corner on its right. -/
theorem next_same {H : List Seg} (hP : Planar H) {u c w : Pt} (h2 : (c, w) ∈ H)
    {φ θ r1 r2 : ℚ} (hr1 : 0 < r1) (hr2 : 0 < r2) (k1 : u - c = r1 • 𝔻 θ) (k2 : w - c = r2 • 𝔻 φ)
    (hlt : φ < θ) (h8 : θ ≤ φ + 8)
    (hno : ∀ k ∈ H, k.1 = c → ∀ χ r : ℚ, φ < χ → χ < θ → 0 < r → dir k ≠ r • 𝔻 χ) :
    ∃ p q, Sees H (u, c) p ∧ Sees H (c, w) q ∧ SameFace H p q := by
  set L := (θ - φ) / 3 with hL
  have hL0 : 0 < L := by rw [hL]; linarith
  have hL4 : L < 4 := by rw [hL]; linarith
  have h3 : θ = φ + 3 * L := by rw [hL]; ring
  have hcv : ∃ k ∈ H, k.1 = c := ⟨_, h2, rfl⟩
  -- a direction with frangle in the sector is admissible
  have adm : ∀ x : Pt, (∃ χ r : ℚ, φ < χ ∧ χ < θ ∧ 0 < r ∧ x = r • 𝔻 χ) → x ≠ 0 ∧
      ∀ k ∈ H, k.1 = c → ∀ r : ℚ, 0 < r → x ≠ r • dir k := by
    rintro x ⟨χ, r, a, b, hr, rfl⟩
    refine ⟨?_, ?_⟩
    · intro hc
      apply fus_ne χ
      rw [← one_smul ℚ (𝔻 χ), ← inv_mul_cancel₀ hr.ne', mul_smul, hc, smul_zero]
    · intro k hk hkc r' hr' hc
      refine hno k hk hkc χ (r / r') a b (div_pos hr hr') ?_
      rw [div_eq_inv_mul, mul_smul, hc, smul_smul, inv_mul_cancel₀ hr'.ne', one_smul]
  have secA : ∀ τ : ℚ, 0 < τ ∧ τ ≤ 1 → ∃ χ r : ℚ, φ < χ ∧ χ < θ ∧ 0 < r ∧
      (1 - τ) • 𝔻 θ + τ • 𝔻 (φ + 2 * L) = r • 𝔻 χ := by
    rintro τ ⟨t0, t1⟩
    rcases eq_or_lt_of_le t1 with rfl | t1
    · exact ⟨φ + 2 * L, 1, by linarith, by linarith, one_pos, by simp⟩
    · obtain ⟨χ, r, a, b, hr, e⟩ := fus_between (φ := φ + 2 * L) (ψ := θ) (by linarith) (by linarith) t0 t1
      exact ⟨χ, r, by linarith, b, hr, e⟩
  have secB : ∀ τ : ℚ, 0 ≤ τ ∧ τ ≤ 1 → ∃ χ r : ℚ, φ < χ ∧ χ < θ ∧ 0 < r ∧
      (1 - τ) • 𝔻 (φ + 2 * L) + τ • 𝔻 (φ + L) = r • 𝔻 χ := by
    rintro τ ⟨t0, t1⟩
    rcases eq_or_lt_of_le t1 with rfl | t1
    · exact ⟨φ + L, 1, by linarith, by linarith, one_pos, by simp⟩
    · rcases eq_or_lt_of_le t0 with rfl | t0
      · exact ⟨φ + 2 * L, 1, by linarith, by linarith, one_pos, by simp⟩
      · obtain ⟨χ, r, a, b, hr, e⟩ := fus_between (φ := φ + L) (ψ := φ + 2 * L) (by linarith) (by linarith) t0 t1
        exact ⟨χ, r, by linarith, by linarith, hr, e⟩
  have secC : ∀ τ : ℚ, 0 ≤ τ ∧ τ < 1 → ∃ χ r : ℚ, φ < χ ∧ χ < θ ∧ 0 < r ∧
      (1 - τ) • 𝔻 (φ + L) + τ • 𝔻 φ = r • 𝔻 χ := by
    rintro τ ⟨t0, t1⟩
    rcases eq_or_lt_of_le t0 with rfl | t0
    · exact ⟨φ + L, 1, by linarith, by linarith, one_pos, by simp⟩
    · obtain ⟨χ, r, a, b, hr, e⟩ := fus_between (φ := φ) (ψ := φ + L) (by linarith) (by linarith) t0 t1
      exact ⟨χ, r, by linarith, by linarith, hr, e⟩
  have evA := cone hP c (𝔻 θ) (𝔻 (φ + 2 * L)) hcv (fun τ => 0 < τ ∧ τ ≤ 1) (fun τ h => ⟨h.1.le, h.2⟩)
    (fun τ h => (adm _ (secA τ h)).1) (fun k hk hkc τ h => (adm _ (secA τ h)).2 k hk hkc)
  have evB := cone hP c (𝔻 (φ + 2 * L)) (𝔻 (φ + L)) hcv (fun τ => 0 ≤ τ ∧ τ ≤ 1) (fun τ h => h)
    (fun τ h => (adm _ (secB τ h)).1) (fun k hk hkc τ h => (adm _ (secB τ h)).2 k hk hkc)
  have evC := cone hP c (𝔻 (φ + L)) (𝔻 φ) hcv (fun τ => 0 ≤ τ ∧ τ < 1) (fun τ h => ⟨h.1, h.2.le⟩)
    (fun τ h => (adm _ (secC τ h)).1) (fun k hk hkc τ h => (adm _ (secC τ h)).2 k hk hkc)
  obtain ⟨ε, e0, eA, eB, eC, l1, l2⟩ := small_exists (evA.and (evB.and (evC.and ((small_lt r1 hr1).and (small_lt r2 hr2)))))
  have hu : u = c + r1 • 𝔻 θ := by rw [← k1]; abel
  have hw : w = c + r2 • 𝔻 φ := by rw [← k2]; abel
  have alU : along (u, c) (1 - ε / r1) = c + ε • 𝔻 θ := by
    rw [hu]
    unfold along
    ext <;> simp only [Prod.fst_add, Prod.snd_add, Prod.smul_fst, Prod.smul_snd, smul_eq_mul] <;> field_simp <;> ring
  have alW : along (c, w) (ε / r2) = c + ε • 𝔻 φ := by
    rw [hw]
    unfold along
    ext <;> simp only [Prod.fst_add, Prod.snd_add, Prod.smul_fst, Prod.smul_snd, smul_eq_mul] <;> field_simp <;> ring
  refine ⟨c + ε • 𝔻 (φ + 2 * L), c + ε • 𝔻 (φ + L), ?_, ?_, ?_⟩
  · refine ⟨1 - ε / r1, ε • (𝔻 (φ + 2 * L) - 𝔻 θ), ?_, ?_, ?_, ?_, ?_⟩
    · have := (div_lt_one hr1).2 l1; linarith
    · have := div_pos e0 hr1; linarith
    · have hcr : 0 < cross (𝔻 θ) (𝔻 (φ + 2 * L)) := by
        rw [(cross_fus _ _).2, pyMod_eq_iff (b := 8 - L) (by linarith) (by linarith) (-1) (by push_cast; rw [h3]; ring)]
        linarith
      have : cross (dir (u, c)) (ε • (𝔻 (φ + 2 * L) - 𝔻 θ)) = -(r1 * ε * cross (𝔻 θ) (𝔻 (φ + 2 * L))) := by
        rw [hu]
        unfold cross dir
        simp only [Prod.fst_add, Prod.snd_add, Prod.smul_fst, Prod.smul_snd, smul_eq_mul, Prod.fst_sub, Prod.snd_sub]
        ring
      rw [this]
      have := mul_pos (mul_pos hr1 e0) hcr
      linarith
    · rw [alU, smul_sub]; abel
    · intro τ t0 t1
      have := eA τ ⟨t0, t1⟩
      rw [alU]
      convert this using 2
      rw [smul_add, smul_smul, smul_smul, smul_smul, smul_sub, add_assoc]
      congr 1
      ext <;> simp only [Prod.fst_add, Prod.snd_add, Prod.smul_fst, Prod.smul_snd, smul_eq_mul, Prod.fst_sub, Prod.snd_sub] <;> ring
  · refine ⟨ε / r2, ε • (𝔻 (φ + L) - 𝔻 φ), div_pos e0 hr2, (div_lt_one hr2).2 l2, ?_, ?_, ?_⟩
    · have hcr : cross (𝔻 φ) (𝔻 (φ + L)) < 0 := by
        rw [(cross_fus _ _).1, pyMod_of_range (by linarith) (by linarith)]
        constructor <;> linarith
      have : cross (dir (c, w)) (ε • (𝔻 (φ + L) - 𝔻 φ)) = r2 * ε * cross (𝔻 φ) (𝔻 (φ + L)) := by
        rw [hw]
        unfold cross dir
        simp only [Prod.fst_add, Prod.snd_add, Prod.smul_fst, Prod.smul_snd, smul_eq_mul, Prod.fst_sub, Prod.snd_sub]
        ring
      rw [this]
      exact mul_neg_of_pos_of_neg (mul_pos hr2 e0) hcr
    · rw [alW, smul_sub]; abel
    · intro τ t0 t1
      have := eC (1 - τ) ⟨by linarith, by linarith⟩
      rw [alW]
      convert this using 2
      ext <;> simp only [Prod.fst_add, Prod.snd_add, Prod.smul_fst, Prod.smul_snd, smul_eq_mul, Prod.fst_sub, Prod.snd_sub] <;> ring
  · refine same_of_segment fun x hx => ?_
    obtain ⟨τ, t0, t1, rfl⟩ := hx
    have := eB τ ⟨t0, t1⟩
    convert this using 2
    unfold along
    ext <;> simp only [Prod.fst_add, Prod.snd_add, Prod.smul_fst, Prod.smul_snd, smul_eq_mul] <;> ring

/-! ### Every point is next to an edge -/

theorem small_affine_ne (a b : ℚ) (h : a ≠ 0 ∨ b ≠ 0) : ∀ᶠ ε in 𝓝[>] (0 : ℚ), a + ε * b ≠ 0 := by
  by_cases ha : a = 0
  · subst ha
    have hb : b ≠ 0 := by tauto
    filter_upwards [small_pos] with ε hε
    rw [zero_add]
    exact mul_ne_zero hε.ne' hb
  · have : 0 < |a| / (|b| + 1) := div_pos (abs_pos.2 ha) (by positivity)
    filter_upwards [small_pos, small_lt _ this] with ε hε hlt hc
    rw [lt_div_iff₀ (by positivity)] at hlt
    have e : a = -(ε * b) := by linarith
    rw [e, abs_neg, abs_mul, abs_of_pos hε] at hlt
    nlinarith [abs_nonneg b]

theorem first_hit {α : Type} (P : α → ℚ → Prop) (huniq : ∀ k τ τ', P k τ → P k τ' → τ = τ') (L : List α) :
    (∃ k ∈ L, ∃ τ, P k τ) → ∃ k ∈ L, ∃ τ, P k τ ∧ ∀ k' ∈ L, ∀ τ', P k' τ' → τ ≤ τ' := by
  induction L with
  | nil => rintro ⟨k, hk, _⟩; exact absurd hk List.not_mem_nil
  | cons a L ih =>
    intro h
    by_cases hL : ∃ k ∈ L, ∃ τ, P k τ
    · obtain ⟨k, hk, τ, hτ, hmin⟩ := ih hL
      by_cases ha : ∃ σ, P a σ ∧ σ < τ
      · obtain ⟨σ, hσ, hlt⟩ := ha
        refine ⟨a, List.mem_cons_self, σ, hσ, fun k' hk' τ' h' => ?_⟩
        rcases List.mem_cons.1 hk' with rfl | hk'
        · exact (huniq _ _ _ hσ h').le
        · exact hlt.le.trans (hmin k' hk' τ' h')
      · refine ⟨k, List.mem_cons_of_mem _ hk, τ, hτ, fun k' hk' τ' h' => ?_⟩
        rcases List.mem_cons.1 hk' with rfl | hk'
        · by_contra hc
          exact ha ⟨τ', h', not_le.1 hc⟩
        · exact hmin k' hk' τ' h'
    · obtain ⟨k, hk, τ, hτ⟩ := h
      rcases List.mem_cons.1 hk with rfl | hk
      · refine ⟨k, List.mem_cons_self, τ, hτ, fun k' hk' τ' h' => ?_⟩
        rcases List.mem_cons.1 hk' with rfl | hk'
        · exact (huniq _ _ _ hτ h').le
        · exact absurd ⟨k', hk', τ', h'⟩ hL
      · exact absurd ⟨k, hk, τ, hτ⟩ hL

/-- Moving off the line of an edge. -/
theorem off_line {H : List Seg} {p : Pt} (hp : ¬ OnAny H p) {h : Seg} (hne : h.1 ≠ h.2) :
    ∃ p', SameFace H p p' ∧ ¬ OnAny H p' ∧ cross (dir h) (p' - h.1) ≠ 0 := by
  by_cases hc : cross (dir h) (p - h.1) = 0
  · set v : Pt := (-(dir h).2, (dir h).1) with hv
    have hev : ∀ᶠ ε in 𝓝[>] (0 : ℚ), ∀ k ∈ H, ∀ x, OnSeg (p + ε • (0 : Pt), p + ε • v) x → ¬ OnSeg k x := by
      refine small_list H _ fun k hk => push (p, p) k 0 v ?_
      rintro x ⟨⟨t, _, _, rfl⟩, h2⟩
      have : along (p, p) t = p := by unfold along; ext <;> simp
      rw [this] at h2
      exact hp ⟨k, hk, h2⟩
    obtain ⟨ε, e0, hε⟩ := small_exists hev
    refine ⟨p + ε • v, ?_, ?_, ?_⟩
    · refine same_of_segment fun x hx => ?_
      rintro ⟨k, hk, hkx⟩
      exact hε k hk x (by simpa using hx) hkx
    · rintro ⟨k, hk, hkx⟩
      exact hε k hk _ (onSeg_right _) hkx
    · have : cross (dir h) (p + ε • v - h.1) = cross (dir h) (p - h.1) + ε * ((dir h).1 ^ 2 + (dir h).2 ^ 2) := by
        rw [hv]; unfold cross
        simp only [Prod.fst_add, Prod.snd_add, Prod.smul_fst, Prod.smul_snd, smul_eq_mul, Prod.fst_sub, Prod.snd_sub]
        ring
      rw [this, hc, zero_add]
      have hd : (dir h).1 ≠ 0 ∨ (dir h).2 ≠ 0 := by
        by_contra hc'
        push Not at hc'
        apply hne
        unfold dir at hc'
        exact Prod.ext (by linarith [hc'.1]) (by linarith [hc'.2])
      refine mul_ne_zero e0.ne' ?_
      rcases hd with hd | hd
      · have := sq_pos_of_ne_zero hd; positivity
      · have := sq_pos_of_ne_zero hd; positivity
  · exact ⟨p, SameFace.refl _ _, hp, hc⟩

/-- Every point off the net is equivalent to one that sees an edge. -/
theorem sees_exists {H : List Seg} (hP : Planar H) (hne : H ≠ []) {p : Pt} (hp : ¬ OnAny H p) :
    ∃ h ∈ H, ∃ q, SameFace H p q ∧ Sees H h q := by
  obtain ⟨h0, h0H⟩ := List.exists_mem_of_ne_nil H hne
  obtain ⟨q, hpq, hq, hline⟩ := off_line hp (hP.ne h0 h0H)
  have hev : ∀ᶠ ε in 𝓝[>] (0 : ℚ), ∀ k ∈ H, cross (along h0 ε - q) (k.1 - q) ≠ 0 := by
    refine small_list H _ fun k hk => ?_
    have e : ∀ ε, cross (along h0 ε - q) (k.1 - q) = cross (h0.1 - q) (k.1 - q) + ε * cross (dir h0) (k.1 - q) := by
      intro ε
      unfold cross dir along
      simp only [Prod.fst_sub, Prod.snd_sub]
      ring
    simp only [e]
    apply small_affine_ne
    by_contra hc
    push Not at hc
    obtain ⟨c1, c2⟩ := hc
    have hkq : k.1 - q ≠ 0 := by
      intro hc
      exact hq ⟨k, hk, by rw [← sub_eq_zero.1 hc]; exact onSeg_left k⟩
    unfold cross at c1 c2 hline
    simp only [Prod.fst_sub, Prod.snd_sub] at c1 c2 hline
    apply hline
    by_cases hx : k.1.1 - q.1 = 0
    · have hy : k.1.2 - q.2 ≠ 0 := fun hy => hkq (Prod.ext hx hy)
      rw [hx, mul_zero, sub_zero] at c1 c2
      have d1 := (mul_eq_zero.1 c1).resolve_right hy
      have d2 := (mul_eq_zero.1 c2).resolve_right hy
      rw [d2]
      have : q.1 - h0.1.1 = 0 := by linarith
      rw [this]; ring
    · have : (k.1.1 - q.1) * ((dir h0).1 * (q.2 - h0.1.2) - (dir h0).2 * (q.1 - h0.1.1)) = 0 := by
        linear_combination (dir h0).1 * c1 - (h0.1.1 - q.1) * c2
      exact (mul_eq_zero.1 this).resolve_left hx
  obtain ⟨t, t0, hv, t1⟩ := small_exists (hev.and (small_lt 1 one_pos))
  set w : Pt := along h0 t - q with hw
  have hv2 : ∀ k ∈ H, cross w (k.2 - q) ≠ 0 := fun k hk => hv _ (hP.rev k hk)
  set P : Seg → ℚ → Prop := fun k τ => k ∈ H ∧ 0 ≤ τ ∧ τ ≤ 1 ∧ OnSeg k (q + τ • w) with hPdef
  -- an edge that is hit is crossed
  have htrans : ∀ k τ, P k τ → cross (dir k) w ≠ 0 := by
    rintro k τ ⟨hk, _, _, r, _, _, hr⟩ hc
    apply hv k hk
    have e1 := congrArg Prod.fst hr
    have e2 := congrArg Prod.snd hr
    unfold along at e1 e2
    simp only [Prod.fst_add, Prod.snd_add, Prod.smul_fst, Prod.smul_snd, smul_eq_mul] at e1 e2
    unfold cross dir at hc
    unfold cross
    simp only [Prod.fst_sub, Prod.snd_sub] at hc ⊢
    linear_combination w.2 * e1 - w.1 * e2 + r * hc
  have huniq : ∀ k τ τ', P k τ → P k τ' → τ = τ' := by
    intro k τ τ' h1 h2
    have hz1 := cross_on k _ h1.2.2.2
    have hz2 := cross_on k _ h2.2.2.2
    have hn := htrans k τ h1
    have : (τ - τ') * cross (dir k) w = 0 := by
      unfold cross at hz1 hz2 ⊢
      simp only [Prod.fst_add, Prod.snd_add, Prod.smul_fst, Prod.smul_snd, smul_eq_mul, Prod.fst_sub, Prod.snd_sub] at hz1 hz2
      linear_combination hz1 - hz2
    exact sub_eq_zero.1 ((mul_eq_zero.1 this).resolve_right hn)
  have hx : q + (1 : ℚ) • w = along h0 t := by rw [one_smul, hw]; abel
  obtain ⟨k, _, τ, hτ, hmin⟩ := first_hit P huniq H
    ⟨h0, h0H, 1, h0H, zero_le_one, le_rfl, by rw [hx]; exact ⟨t, t0.le, t1.le, rfl⟩⟩
  have hcr := htrans k τ hτ
  obtain ⟨hk, τ0, τ1, r, r0, r1, hr⟩ := hτ
  have τpos : 0 < τ := by
    rcases eq_or_lt_of_le τ0 with rfl | h
    · exfalso
      rw [zero_smul, add_zero] at hr
      exact hq ⟨k, hk, r, r0, r1, hr⟩
    · exact h
  have hend : ∀ c : Pt, q + τ • w = c → cross w (c - q) = 0 := by
    rintro c rfl
    unfold cross
    simp only [Prod.fst_add, Prod.snd_add, Prod.smul_fst, Prod.smul_snd, smul_eq_mul, Prod.fst_sub, Prod.snd_sub]
    ring
  have r0' : 0 < r := by
    rcases eq_or_lt_of_le r0 with rfl | h
    · rw [along_zero] at hr; exact absurd (hend _ hr) (hv k hk)
    · exact h
  have r1' : r < 1 := by
    rcases eq_or_lt_of_le r1 with rfl | h
    · rw [along_one] at hr; exact absurd (hend _ hr) (hv2 k hk)
    · exact h
  have hoff : ∀ σ : ℚ, 0 < σ → σ ≤ 1 → ¬ OnAny H (along k r + σ • (-τ • w)) := by
    rintro σ s0 s1 ⟨k', hk', hon⟩
    have e : along k r + σ • (-τ • w) = q + (τ * (1 - σ)) • w := by
      rw [← hr]
      ext <;> simp only [Prod.fst_add, Prod.snd_add, Prod.smul_fst, Prod.smul_snd, smul_eq_mul] <;> ring
    rw [e] at hon
    have := hmin k' hk' (τ * (1 - σ)) ⟨hk', by nlinarith, by nlinarith, hon⟩
    nlinarith
  have hqe : q = along k r + -τ • w := by
    rw [← hr]
    ext <;> simp only [Prod.fst_add, Prod.snd_add, Prod.smul_fst, Prod.smul_snd, smul_eq_mul] <;> ring
  have hcr' : cross (dir k) (-τ • w) = -τ * cross (dir k) w := by
    unfold cross; simp only [Prod.smul_fst, Prod.smul_snd, smul_eq_mul]; ring
  rcases lt_or_gt_of_ne hcr with hlt | hgt
  · refine ⟨(k.2, k.1), hP.rev k hk, q, hpq, 1 - r, -τ • w, by linarith, by linarith, ?_, ?_, ?_⟩
    · have : cross (dir (k.2, k.1)) (-τ • w) = τ * cross (dir k) w := by
        unfold cross dir; simp only [Prod.smul_fst, Prod.smul_snd, smul_eq_mul]; ring
      rw [this]; exact mul_neg_of_pos_of_neg τpos hlt
    · rw [along_rev, sub_sub_cancel]; exact hqe
    · rw [along_rev, sub_sub_cancel]; exact hoff
  · refine ⟨k, hk, q, hpq, r, -τ • w, r0', r1', ?_, hqe, hoff⟩
    rw [hcr']; nlinarith [mul_pos τpos hgt]

end Ply
