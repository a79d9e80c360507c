import Verif.Proofs.RingArea
import Verif.Spec.Shape

/-! # The points of a triangle -/

namespace Ply

open Filter Topology Arr

theorem dotp_bound {L : List Pt} {u : Pt} {k : ℚ} (hL : ∀ v ∈ L, dotp u v ≤ k) {x : Pt} (hx : OnBoundary L x) :
    dotp u x ≤ k := by
  obtain ⟨e, he, t, t0, t1, rfl⟩ := hx
  have h1 := hL e.1 (polyEdges_mem he).1
  have h2 := hL e.2 (polyEdges_mem he).2
  have : dotp u (along e t) = (1 - t) * dotp u e.1 + t * dotp u e.2 := by unfold dotp along; ring
  rw [this]
  nlinarith

/-- A loop does not wind around a point beyond a line that it stays on one side of. -/
theorem winding_beyond {L : List Pt} {u : Pt} {k : ℚ} (hL : ∀ v ∈ L, dotp u v ≤ k) {p : Pt} (hp : k < dotp u p) :
    windingNumber L p = 0 := by
  obtain ⟨M, hM, hM'⟩ : ∃ M : ℚ, p.1 ≤ M ∧ ∀ v ∈ L, v.1 < M := by
    clear hL
    induction L with
    | nil => exact ⟨p.1, le_rfl, by simp⟩
    | cons a L ih =>
      obtain ⟨M, h0, h⟩ := ih
      refine ⟨max M (a.1 + 1), le_max_of_le_left h0, fun v hv => ?_⟩
      rcases List.mem_cons.1 hv with rfl | hv
      · exact lt_max_of_lt_right (by linarith)
      · exact lt_max_of_lt_left (h v hv)
  obtain ⟨N, hN, hN'⟩ : ∃ N : ℚ, N ≤ p.1 ∧ ∀ v ∈ L, N < v.1 := by
    clear hL hM'
    induction L with
    | nil => exact ⟨p.1, le_rfl, by simp⟩
    | cons a L ih =>
      obtain ⟨M, h0, h⟩ := ih
      refine ⟨min M (a.1 - 1), min_le_of_left_le h0, fun v hv => ?_⟩
      rcases List.mem_cons.1 hv with rfl | hv
      · exact min_lt_of_right_lt (by linarith)
      · exact min_lt_of_left_lt (h v hv)
  have go : ∀ w : Pt, 0 ≤ dotp u w → windingNumber L p = windingNumber L (p + w) := by
    intro w hw
    refine winding_const L p (p + w) fun x hx hc => ?_
    obtain ⟨t, t0, t1, rfl⟩ := hx
    have := dotp_bound hL hc
    have e : dotp u (along (p, p + w) t) = dotp u p + t * dotp u w := by
      unfold dotp along; simp only [Prod.fst_add, Prod.snd_add]; ring
    rw [e] at this
    nlinarith
  rcases le_or_gt 0 u.1 with h | h
  · rw [go (M - p.1, 0) (by unfold dotp; simp only [mul_zero, add_zero]; exact mul_nonneg h (by linarith))]
    refine winding_far _ _ fun v hv => ?_
    simp only [Prod.fst_add]
    linarith [hM' v hv]
  · rw [go (N - p.1, 0) (by
      unfold dotp; simp only [mul_zero, add_zero]; exact mul_nonneg_of_nonpos_of_nonpos h.le (by linarith))]
    rw [← windingR_toR]
    refine windingR_left _ _ fun v hv => ?_
    have := hN' v hv
    show (((p + (N - p.1, 0)).1 : ℚ) : ℝ) < ((v.1 : ℚ) : ℝ)
    rw [Rat.cast_lt, Prod.fst_add]
    linarith

section

variable {a b c : Pt} (h : shoelace [a, b, c] < 0)
include h

omit h in
theorem tri_sum (a b c p : Pt) : orient a b p + orient b c p + orient c a p = 2 * shoelace [a, b, c] := by
  unfold shoelace orient cross
  simp only [polyEdges]
  simp
  ring

theorem triangle_out {p : Pt} (hp : 0 < orient a b p) : windingNumber [a, b, c] p = 0 := by
  have hs := tri_sum a b c c
  have h1 : orient b c c = 0 := by unfold orient; ring
  have h2 : orient c a c = 0 := by unfold orient; ring
  refine winding_beyond (u := (-(b.2 - a.2), b.1 - a.1)) (k := dotp (-(b.2 - a.2), b.1 - a.1) a) (fun v hv => ?_) ?_
  · simp only [List.mem_cons, List.not_mem_nil, or_false] at hv
    rcases hv with rfl | rfl | rfl
    · exact le_rfl
    · unfold dotp; simp only; linarith
    · have : orient a b v ≤ 0 := by linarith
      unfold orient at this
      unfold dotp; simp only; linarith
  · unfold orient at hp
    unfold dotp; simp only; linarith

theorem triangle_inside {p : Pt} (h1 : orient a b p < 0) (h2 : orient b c p < 0) (h3 : orient c a p < 0) :
    InPoly [a, b, c] p := by
  have hE : polyEdges [a, b, c] = [(a, b), (b, c), (c, a)] := rfl
  have out : ∀ x, OnBoundary [a, b, c] x → orient a b x = 0 ∨ orient b c x = 0 ∨ orient c a x = 0 := by
    rintro x ⟨e, he, t, -, -, rfl⟩
    rw [hE] at he
    simp only [List.mem_cons, List.not_mem_nil, or_false] at he
    rcases he with rfl | rfl | rfl
    · left; unfold orient along; ring
    · right; left; unfold orient along; ring
    · right; right; unfold orient along; ring
  have hO := (triangle_simple h.ne).outline h
  have he : (a, b) ∈ polyEdges [a, b, c] := by rw [hE]; simp
  set m := along (a, b) (1 / 2) with hm
  have hc : cross (dir (a, b)) (p - m) < 0 := by
    have : cross (dir (a, b)) (p - m) = orient a b p := by
      rw [hm]; unfold cross dir orient along; simp only [Prod.fst_sub, Prod.snd_sub]; ring
    rwa [this]
  obtain ⟨ε, e0, e1, e2⟩ := small_exists ((hO.sides.right _ he (1 / 2) (by norm_num) (by norm_num) _ hc).and
    (small_lt 1 one_pos))
  have strict : ∀ τ : ℚ, 0 < τ → τ ≤ 1 → ¬ OnBoundary [a, b, c] (m + τ • (p - m)) := by
    intro τ t0 t1 hc
    have lin : ∀ x y : Pt, orient x y (m + τ • (p - m)) = (1 - τ) * orient x y m + τ * orient x y p := by
      intro x y; unfold orient; simp only [Prod.fst_add, Prod.snd_add, Prod.smul_fst, Prod.smul_snd, Prod.fst_sub,
        Prod.snd_sub, smul_eq_mul]; ring
    have hs := tri_sum a b c c
    have k1 : orient b c c = 0 := by unfold orient; ring
    have k2 : orient c a c = 0 := by unfold orient; ring
    have m1 : orient a b m = 0 := by rw [hm]; unfold orient along; ring
    have m2 : orient b c m = orient a b c / 2 := by rw [hm]; unfold orient along; ring
    have m3 : orient c a m = orient a b c / 2 := by rw [hm]; unfold orient along; ring
    rcases out _ hc with h' | h' | h' <;> rw [lin] at h'
    · rw [m1] at h'; nlinarith
    · rw [m2] at h'; nlinarith
    · rw [m3] at h'; nlinarith
  have e3 : p = m + (1 : ℚ) • (p - m) := by simp
  refine ⟨by rw [e3]; exact strict 1 one_pos le_rfl, ?_⟩
  have : windingNumber [a, b, c] (m + ε • (p - m)) = windingNumber [a, b, c] p := by
    refine winding_const _ _ _ fun x hx => ?_
    obtain ⟨t, t0, t1, rfl⟩ := hx
    have : along (m + ε • (p - m), p) t = m + (ε + t * (1 - ε)) • (p - m) := by
      unfold along
      ext <;> simp only [Prod.fst_add, Prod.snd_add, Prod.smul_fst, Prod.smul_snd, Prod.fst_sub,
        Prod.snd_sub, smul_eq_mul] <;> ring
    rw [this]
    have : 0 ≤ t * (1 - ε) := mul_nonneg t0 (by linarith)
    exact strict _ (by linarith) (by nlinarith)
  rw [← this, e1]
  decide

theorem inTriangle_iff (p : Pt) :
    InTriangle a b c p ↔ orient a b p ≤ 0 ∧ orient b c p ≤ 0 ∧ orient c a p ≤ 0 := by
  have hs := tri_sum a b c p
  set D := 2 * shoelace [a, b, c] with hD
  have hD0 : D < 0 := by linarith
  constructor
  · rintro ⟨u, v, w, u0, v0, w0, hu, rfl⟩
    have hw : w = 1 - u - v := by linarith
    have k1 : orient a b (u * a.1 + v * b.1 + w * c.1, u * a.2 + v * b.2 + w * c.2) = w * D := by
      rw [hD, ← tri_sum a b c c, hw]; unfold orient; ring
    have k2 : orient b c (u * a.1 + v * b.1 + w * c.1, u * a.2 + v * b.2 + w * c.2) = u * D := by
      rw [hD, ← tri_sum a b c c, hw]; unfold orient; ring
    have k3 : orient c a (u * a.1 + v * b.1 + w * c.1, u * a.2 + v * b.2 + w * c.2) = v * D := by
      rw [hD, ← tri_sum a b c c, hw]; unfold orient; ring
    rw [k1, k2, k3]
    exact ⟨mul_nonpos_of_nonneg_of_nonpos w0 hD0.le, mul_nonpos_of_nonneg_of_nonpos u0 hD0.le,
      mul_nonpos_of_nonneg_of_nonpos v0 hD0.le⟩
  · rintro ⟨h1, h2, h3⟩
    refine ⟨orient b c p / D, orient c a p / D, orient a b p / D, div_nonneg_of_nonpos h2 hD0.le,
      div_nonneg_of_nonpos h3 hD0.le, div_nonneg_of_nonpos h1 hD0.le, ?_, ?_⟩
    · rw [← add_div, ← add_div, div_eq_one_iff_eq hD0.ne]; linarith
    · have hD' : D ≠ 0 := hD0.ne
      have e1 : p.1 * D = orient b c p * a.1 + orient c a p * b.1 + orient a b p * c.1 := by
        rw [← hs]; unfold orient; ring
      have e2 : p.2 * D = orient b c p * a.2 + orient c a p * b.2 + orient a b p * c.2 := by
        rw [← hs]; unfold orient; ring
      ext
      · simp only; field_simp; linarith
      · simp only; field_simp; linarith

theorem triangle_edge {p : Pt} (h1 : orient a b p = 0) (h2 : orient b c p ≤ 0) (h3 : orient c a p ≤ 0) :
    OnSeg (a, b) p := by
  have hs := tri_sum a b c p
  have hD0 : 2 * shoelace [a, b, c] < 0 := by linarith
  set D := 2 * shoelace [a, b, c] with hD
  obtain ⟨u, v, w, u0, v0, w0, hu, hp⟩ := (inTriangle_iff h p).2 ⟨h1.le, h2, h3⟩
  have k1 : orient a b p = w * D := by
    rw [hp, hD, ← tri_sum a b c c]
    have hw : w = 1 - u - v := by linarith
    rw [hw]; unfold orient; ring
  have hw : w = 0 := by
    rw [h1] at k1
    rcases mul_eq_zero.1 k1.symm with h' | h'
    · exact h'
    · exact absurd h' hD0.ne
  refine ⟨v, v0, by linarith, ?_⟩
  rw [hp, hw]
  unfold along
  have : u = 1 - v := by linarith
  rw [this]
  ext <;> simp only <;> ring

omit h in
theorem tri_rot (a b c : Pt) : shoelace [b, c, a] = shoelace [a, b, c] := shoelace_rotate [a, b, c] 1

omit h in
theorem tri_wind (a b c p : Pt) : windingNumber [b, c, a] p = windingNumber [a, b, c] p :=
  windingNumber_perm (polyEdges_rotate [a, b, c] 1) p

theorem triangle_in_iff (p : Pt) :
    InPoly [a, b, c] p ↔ orient a b p < 0 ∧ orient b c p < 0 ∧ orient c a p < 0 := by
  refine ⟨fun hp => ?_, fun hp => triangle_inside h hp.1 hp.2.1 hp.2.2⟩
  have h' : shoelace [b, c, a] < 0 := by rwa [tri_rot]
  have h'' : shoelace [c, a, b] < 0 := by rwa [tri_rot]
  have hE : polyEdges [a, b, c] = [(a, b), (b, c), (c, a)] := rfl
  have l1 : orient a b p ≤ 0 := not_lt.1 fun hc => hp.2 (triangle_out h hc)
  have l2 : orient b c p ≤ 0 := not_lt.1 fun hc => hp.2 (by rw [← tri_wind]; exact triangle_out h' hc)
  have l3 : orient c a p ≤ 0 := not_lt.1 fun hc => hp.2 (by rw [← tri_wind, ← tri_wind]; exact triangle_out h'' hc)
  refine ⟨l1.lt_of_ne fun hc => hp.1 ⟨(a, b), by rw [hE]; simp, triangle_edge h hc l2 l3⟩,
    l2.lt_of_ne fun hc => hp.1 ⟨(b, c), by rw [hE]; simp, triangle_edge h' hc l3 l1⟩,
    l3.lt_of_ne fun hc => hp.1 ⟨(c, a), by rw [hE]; simp, triangle_edge h'' hc l1 l2⟩⟩

/-- A point is in a clockwise triangle or on its edges if and only if it is a mean of its corners. -/
theorem triangle_iff (p : Pt) : InPoly [a, b, c] p ∨ OnBoundary [a, b, c] p ↔ InTriangle a b c p := by
  have hE : polyEdges [a, b, c] = [(a, b), (b, c), (c, a)] := rfl
  have h' : shoelace [b, c, a] < 0 := by rwa [tri_rot]
  have h'' : shoelace [c, a, b] < 0 := by rwa [tri_rot]
  constructor
  · rintro (hp | ⟨e, he, t, t0, t1, rfl⟩)
    · obtain ⟨h1, h2, h3⟩ := (triangle_in_iff h p).1 hp
      exact (inTriangle_iff h p).2 ⟨h1.le, h2.le, h3.le⟩
    · rw [hE] at he
      simp only [List.mem_cons, List.not_mem_nil, or_false] at he
      rcases he with rfl | rfl | rfl
      · exact ⟨1 - t, t, 0, by linarith, t0, le_rfl, by ring, by unfold along; ext <;> simp only <;> ring⟩
      · exact ⟨0, 1 - t, t, le_rfl, by linarith, t0, by ring, by unfold along; ext <;> simp only <;> ring⟩
      · exact ⟨t, 0, 1 - t, t0, le_rfl, by linarith, by ring, by unfold along; ext <;> simp only <;> ring⟩
  · intro hp
    obtain ⟨l1, l2, l3⟩ := (inTriangle_iff h p).1 hp
    by_cases c1 : orient a b p = 0
    · exact Or.inr ⟨(a, b), by rw [hE]; simp, triangle_edge h c1 l2 l3⟩
    · by_cases c2 : orient b c p = 0
      · exact Or.inr ⟨(b, c), by rw [hE]; simp, triangle_edge h' c2 l3 l1⟩
      · by_cases c3 : orient c a p = 0
        · exact Or.inr ⟨(c, a), by rw [hE]; simp, triangle_edge h'' c3 l1 l2⟩
        · exact Or.inl (triangle_inside h (l1.lt_of_ne c1) (l2.lt_of_ne c2) (l3.lt_of_ne c3))

end

end Ply
