import Verif.Proofs.ArrOutline

/-! # A simple ring is an outline -/

namespace Ply

open Arr

local notation "𝔻" => frangleUnitSquareVector

theorem fst_inj {L : List Pt} (hL : L.Nodup) {e k : Seg} (he : e ∈ polyEdges L) (hk : k ∈ polyEdges L) (h : e.1 = k.1) :
    e = k := by
  obtain ⟨i, hi, rfl⟩ := mem_polyEdges.1 he
  obtain ⟨j, hj, rfl⟩ := mem_polyEdges.1 hk
  dsimp only at h
  rw [cycGet_nat _ _ hi, cycGet_nat _ _ hj] at h
  have : i = j := (hL.getElem_inj_iff).1 h
  rw [this]

theorem snd_inj {L : List Pt} (hL : L.Nodup) {e k : Seg} (he : e ∈ polyEdges L) (hk : k ∈ polyEdges L) (h : e.2 = k.2) :
    e = k := by
  have := fst_inj (L := L.reverse) (List.nodup_reverse.2 hL) (e := (e.2, e.1)) (k := (k.2, k.1))
    (mem_reverse_edges.2 he) (mem_reverse_edges.2 hk) h
  rw [Prod.mk.injEq] at this
  exact Prod.ext this.2 this.1

theorem edge_ne {L : List Pt} (hL : L.Nodup) (h2 : 2 ≤ L.length) {e : Seg} (he : e ∈ polyEdges L) : e.1 ≠ e.2 := by
  obtain ⟨i, hi, rfl⟩ := mem_polyEdges.1 he
  have hne : L ≠ [] := by rintro rfl; simp at hi
  dsimp only
  have e2 := cycGet_mod L (i + 1) hne
  push_cast at e2
  rw [cycGet_nat _ _ hi, e2]
  intro hc
  have hc := (hL.getElem_inj_iff).1 hc
  by_cases h : i + 1 < L.length
  · rw [Nat.mod_eq_of_lt h] at hc; omega
  · have : i + 1 = L.length := by omega
    rw [this, Nat.mod_self] at hc; omega

theorem SimpleRing.pos {L : List Pt} (h : SimpleRing L) {e : Seg} (he : e ∈ polyEdges L) : e.1 ≠ e.2 :=
  edge_ne h.nodup (by have := h.long; omega) he

theorem along_ne {e : Seg} (he : e.1 ≠ e.2) {s : ℚ} (s0 : 0 < s) (s1 : s < 1) : along e s ≠ e.1 ∧ along e s ≠ e.2 := by
  have hd : dir e ≠ 0 := fun hc => he (by
    have : e.2 - e.1 = 0 := hc
    exact (sub_eq_zero.1 this).symm)
  constructor
  · rw [along_eq]
    intro hc
    exact smul_ne s0.ne' hd (add_eq_left.1 hc)
  · rw [along_eq']
    intro hc
    exact smul_ne (by linarith : (1 - s) ≠ 0) (neg_ne_zero.2 hd) (add_eq_left.1 hc)

theorem SimpleRing.inner {L : List Pt} (h : SimpleRing L) : ∀ e ∈ polyEdges L, ∀ e' ∈ polyEdges L, ∀ s, 0 < s → s < 1 →
    OnSeg e' (along e s) → e' = e := by
  intro e he e' he' s s0 s1 ho
  obtain ⟨n1, n2⟩ := along_ne (h.pos he) s0 s1
  rcases h.apart e he e' he' _ ⟨s, s0.le, s1.le, rfl⟩ ho with c | c | c
  · exact c
  · exact absurd c.1 n1
  · exact absurd c.1 n2

/-- Edges of positive length that have no inner points in common are a drawing in the plane. -/
theorem planar_of {L : List Pt} (hne : ∀ e ∈ polyEdges L, e.1 ≠ e.2)
    (hin : ∀ e ∈ polyEdges L, ∀ e' ∈ polyEdges L, ∀ s, 0 < s → s < 1 → OnSeg e' (along e s) → e' = e) :
    Planar (bothWays L) := by
  refine ⟨fun e he => mem_bothWays.2 (mem_bothWays.1 he).symm, fun e he => ?_, ?_⟩
  · rcases mem_bothWays.1 he with he | he
    · exact hne e he
    · exact (hne _ he).symm
  · have base : ∀ e ∈ polyEdges L, ∀ k ∈ polyEdges L, ∀ x, OnSeg e x → OnSeg k x →
        k = e ∨ ((x = e.1 ∨ x = e.2) ∧ (x = k.1 ∨ x = k.2)) := by
      intro e he k hk x h1 h2
      rcases onSeg_ends h1 with a | a | ⟨s, s0, s1, a⟩
      · rcases onSeg_ends h2 with b | b | ⟨s, s0, s1, b⟩
        · exact Or.inr ⟨Or.inl a, Or.inl b⟩
        · exact Or.inr ⟨Or.inl a, Or.inr b⟩
        · exact Or.inl (hin k hk e he s s0 s1 (b ▸ h1)).symm
      · rcases onSeg_ends h2 with b | b | ⟨s, s0, s1, b⟩
        · exact Or.inr ⟨Or.inr a, Or.inl b⟩
        · exact Or.inr ⟨Or.inr a, Or.inr b⟩
        · exact Or.inl (hin k hk e he s s0 s1 (b ▸ h1)).symm
      · exact Or.inl (hin e he k hk s s0 s1 (a ▸ h2))
    intro e he k hk x h1 h2
    have sw : ∀ {e k : Seg}, (e.2, e.1) = k → e = (k.2, k.1) := by rintro e _ rfl; rfl
    rcases mem_bothWays.1 he with he | he <;> rcases mem_bothWays.1 hk with hk | hk
    · rcases base _ he _ hk x h1 h2 with c | c
      · exact Or.inl (Or.inl c)
      · exact Or.inr c
    · rcases base _ he _ hk x h1 ((onSeg_rev k x).2 h2) with c | c
      · exact Or.inl (Or.inr (sw c))
      · exact Or.inr ⟨c.1, c.2.symm⟩
    · rcases base _ he _ hk x ((onSeg_rev e x).2 h1) h2 with c | c
      · exact Or.inl (Or.inr c)
      · exact Or.inr ⟨c.1.symm, c.2⟩
    · rcases base _ he _ hk x ((onSeg_rev e x).2 h1) ((onSeg_rev k x).2 h2) with c | c
      · exact Or.inl (Or.inl (by rw [Prod.mk.injEq] at c; exact Prod.ext c.2 c.1))
      · exact Or.inr ⟨c.1.symm, c.2.symm⟩

/-- Multiples of two unit square vectors are equal only if the frangles are. -/
theorem fus_angle {a b r s : ℚ} (hr : 0 < r) (hs : 0 < s) (h : r • 𝔻 a = s • 𝔻 b) : pyMod a 8 = pyMod b 8 := by
  have h1 : vectorFrangle (r • 𝔻 a) = .ok (pyMod a 8) := by
    rw [← c14_right_inverse]; exact frangle_scale hr _
  have h2 : vectorFrangle (s • 𝔻 b) = .ok (pyMod b 8) := by
    rw [← c14_right_inverse]; exact frangle_scale hs _
  rw [h, h2] at h1
  exact (Except.ok.inj h1).symm

theorem pyMod_gap {a b : ℚ} (h : pyMod a 8 = pyMod b 8) (hab : a < b) : a + 8 ≤ b := by
  obtain ⟨z, hz⟩ := pyMod_decomp a 8
  obtain ⟨w, hw⟩ := pyMod_decomp b 8
  have hzw : z < w := by
    by_contra hc
    push Not at hc
    have : (w : ℚ) ≤ z := by exact_mod_cast hc
    linarith
  have : (z : ℚ) + 1 ≤ w := by exact_mod_cast hzw
  linarith

/-- Where only two edges meet, both sides of the corner are one face each. -/
theorem corner_same {H : List Seg} (hP : Planar H) {u c w : Pt} (h1 : (u, c) ∈ H) (h2 : (c, w) ∈ H)
    (hc : ∀ k ∈ H, k.1 = c → k = (c, u) ∨ k = (c, w)) :
    ∃ p q, Sees H (u, c) p ∧ Sees H (c, w) q ∧ SameFace H p q := by
  obtain ⟨r1, f, hr1, f0, f8, k1, -⟩ := polar (u - c) (sub_ne_zero.2 (hP.ne _ h1))
  obtain ⟨r2, φ, hr2, g0, g8, k2, -⟩ := polar (w - c) (sub_ne_zero.2 (hP.ne _ h2).symm)
  have k1 : u - c = r1 • 𝔻 f := k1
  have k2 : w - c = r2 • 𝔻 φ := k2
  obtain ⟨θ, hθ, hlt, hle⟩ : ∃ θ, u - c = r1 • 𝔻 θ ∧ φ < θ ∧ θ ≤ φ + 8 := by
    by_cases h : φ < f
    · exact ⟨f, k1, h, by linarith⟩
    · refine ⟨f + 8, ?_, by linarith, by linarith⟩
      rw [k1]
      have := c14_periodic f 1
      rw [← this]; congr 2; push_cast; ring
  refine next_same hP h2 hr1 hr2 hθ k2 hlt hle ?_
  intro k hk hkc χ r c1 c2 hr hd
  rcases hc k hk hkc with rfl | rfl
  · have hd : u - c = r • 𝔻 χ := hd
    rw [hθ] at hd
    have := pyMod_gap (fus_angle hr1 hr hd).symm c2
    linarith
  · have hd : w - c = r • 𝔻 χ := hd
    rw [k2] at hd
    have := pyMod_gap (fus_angle hr2 hr hd) c1
    linarith

theorem polyEdges_map_fst {α : Type*} (l : List α) : (polyEdges l).map Prod.fst = l := by
  cases l with
  | nil => rfl
  | cons a rest => exact List.map_fst_zip (by simp)

theorem SimpleRing.sides {L : List Pt} (h : SimpleRing L) : Sides L 0 (-1) ∨ Sides L 1 0 := by
  have hP : Planar (bothWays L) := planar_of (fun e he => h.pos he) h.inner
  have hne : L ≠ [] := by have := h.long; rintro rfl; simp at this
  have hsub : ∀ e ∈ polyEdges L, e ∈ bothWays L := fun e he => mem_bothWays.2 (Or.inl he)
  refine loop_sides hP hsub (List.Nodup.of_map Prod.fst (by rw [polyEdges_map_fst]; exact h.nodup)) ?_ hne ?_
  · intro e he hc
    have := h.inner e he _ hc (1 / 2) (by norm_num) (by norm_num)
      ((onSeg_rev e _).2 ⟨1 / 2, by norm_num, by norm_num, rfl⟩)
    exact h.pos he (congrArg Prod.fst this).symm
  · have step : ∀ k : ℕ, sideOf (bothWays L) L (cycGet L k, cycGet L (k + 1)) =
        sideOf (bothWays L) L (cycGet L (0 : ℕ), cycGet L ((0 : ℕ) + 1)) := by
      intro k
      induction k with
      | zero => rfl
      | succ k ih =>
        rw [← ih]
        have m1 := cyc_mem hne (k : ℤ)
        have m2 := cyc_mem hne ((k : ℤ) + 1)
        obtain ⟨p, q, hp, hq, hs⟩ := corner_same hP (hsub _ m1) (hsub _ m2) (by
          intro e he hec
          rcases mem_bothWays.1 he with he | he
          · exact Or.inr (fst_inj h.nodup he m2 hec)
          · have := snd_inj h.nodup he m1 hec
            rw [Prod.mk.injEq] at this
            exact Or.inl (Prod.ext this.2 this.1))
        rw [sideOf_eq hP hsub (hsub _ m1) hp]
        push_cast
        rw [sideOf_eq hP hsub (hsub _ m2) hq, hs.winding hsub]
    intro e he f hf
    obtain ⟨i, hi, rfl⟩ := mem_polyEdges.1 he
    obtain ⟨j, hj, rfl⟩ := mem_polyEdges.1 hf
    rw [step i, step j]

/-- A clockwise simple ring is an outline. -/
theorem SimpleRing.outline {L : List Pt} (h : SimpleRing L) (hs : shoelace L < 0) : Outline L := by
  rcases h.sides with h' | h'
  · exact h'.outline
  · have hne : L ≠ [] := by have := h.long; rintro rfl; simp at this
    exact absurd (h'.shoelace hne) (not_le.2 hs)

theorem SimpleRing.reverse {L : List Pt} (h : SimpleRing L) : SimpleRing L.reverse where
  long := by rw [List.length_reverse]; exact h.long
  nodup := List.nodup_reverse.2 h.nodup
  apart e he k hk x h1 h2 := by
    rcases h.apart _ (mem_reverse_edges.1 he) _ (mem_reverse_edges.1 hk) x ((onSeg_rev e x).2 h1)
      ((onSeg_rev k x).2 h2) with c | c | c
    · rw [Prod.mk.injEq] at c; exact Or.inl (Prod.ext c.2 c.1)
    · exact Or.inr (Or.inr c)
    · exact Or.inr (Or.inl c)

theorem tri_meet {a b c x : Pt} (h : cross (a - b) (c - b) ≠ 0) (h1 : OnSeg (a, b) x) (h2 : OnSeg (b, c) x) : x = b := by
  obtain ⟨s, -, -, rfl⟩ := h1
  obtain ⟨t, -, -, h2⟩ := h2
  have e1 := congrArg Prod.fst h2
  have e2 := congrArg Prod.snd h2
  unfold along at e1 e2
  unfold cross at h
  simp only [Prod.fst_sub, Prod.snd_sub] at h e1 e2
  have hs : (1 - s) * ((a.1 - b.1) * (c.2 - b.2) - (a.2 - b.2) * (c.1 - b.1)) = 0 := by
    linear_combination (c.2 - b.2) * e1 - (c.1 - b.1) * e2
  have : s = 1 := by
    rcases mul_eq_zero.1 hs with h' | h'
    · linarith
    · exact absurd h' h
  rw [this, along_one]

/-- The corners of a triangle that is not flat are a simple ring. -/
theorem triangle_simple {a b c : Pt} (h : shoelace [a, b, c] ≠ 0) : SimpleRing [a, b, c] := by
  have e1 : cross (a - b) (c - b) ≠ 0 := by
    intro hc; apply h
    have : shoelace [a, b, c] = -(cross (a - b) (c - b)) / 2 := by
      unfold shoelace cross
      simp only [polyEdges, Prod.fst_sub, Prod.snd_sub]
      simp
      ring
    rw [this, hc]; norm_num
  have e2 : cross (b - c) (a - c) ≠ 0 := by
    intro hc; apply e1; rw [← hc]; unfold cross; simp only [Prod.fst_sub, Prod.snd_sub]; ring
  have e3 : cross (c - a) (b - a) ≠ 0 := by
    intro hc; apply e1; rw [← hc]; unfold cross; simp only [Prod.fst_sub, Prod.snd_sub]; ring
  have nd : ∀ {p q r : Pt}, cross (p - q) (r - q) ≠ 0 → p ≠ q ∧ r ≠ q := by
    intro p q r hp
    constructor <;> rintro rfl <;> exact hp (by unfold cross; simp)
  refine ⟨by simp, ?_, ?_⟩
  · simp only [List.nodup_cons, List.mem_cons, List.not_mem_nil, or_false, not_or, not_false_eq_true, List.nodup_nil,
      and_true]
    exact ⟨⟨(nd e1).1, (nd e3).1.symm⟩, (nd e2).1⟩
  · intro e he k hk x h1 h2
    have hp : polyEdges [a, b, c] = [(a, b), (b, c), (c, a)] := rfl
    rw [hp] at he hk
    simp only [List.mem_cons, List.not_mem_nil, or_false] at he hk
    rcases he with rfl | rfl | rfl <;> rcases hk with rfl | rfl | rfl
    · exact Or.inl rfl
    · have := tri_meet e1 h1 h2
      exact Or.inr (Or.inr ⟨this, this⟩)
    · have := tri_meet e3 h2 h1
      exact Or.inr (Or.inl ⟨this, this⟩)
    · have := tri_meet e1 h2 h1
      exact Or.inr (Or.inl ⟨this, this⟩)
    · exact Or.inl rfl
    · have := tri_meet e2 h1 h2
      exact Or.inr (Or.inr ⟨this, this⟩)
    · have := tri_meet e3 h1 h2
      exact Or.inr (Or.inr ⟨this, this⟩)
    · have := tri_meet e2 h2 h1
      exact Or.inr (Or.inl ⟨this, this⟩)
    · exact Or.inl rfl

end Ply
