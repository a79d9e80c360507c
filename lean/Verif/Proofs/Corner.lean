import Verif.Proofs.Ribbon
import Verif.Proofs.Touch
import Verif.Proofs.Cuts
import Verif.Proofs.Primitive2D

/-! # The piece of the ribbon at one corner -/

namespace Ply

/-- The point is in the triangle of a point and an edge of the convex polygon (turned round for sign -1). -/
def InFan (C : List Pt) (σ : ℤ) (v : Pt) (j : ℤ) (p : Pt) : Prop :=
  ∃ μ τ : ℚ, 0 ≤ μ ∧ μ ≤ 1 ∧ 0 ≤ τ ∧ τ ≤ 1 ∧ p = v + τ • ((σ : ℚ) • (cv C j + μ • ce C j))

theorem Conv.cone_cross {C : List Pt} (hC : Conv C) {J : ℤ} {d : Pt} (hd : d ≠ 0) (h : Cone C J d) :
    0 < cross d (cv C J) := by
  unfold Cone at h
  have e1 := hC.ce_ne (J - 1)
  have e2 := hC.ce_ne J
  have r1 := ang_range e1
  have r2 := ang_range e2
  have rd := ang_range hd
  have gp := hC.gap (J - 1)
  rw [sub_add_cancel] at gp
  unfold fr at gp
  have hp := cw_range r1 rd
  have a1 : cross (ce C (J - 1)) d ≤ 0 := by
    rcases hp.1.eq_or_lt with h0 | h0
    · exact ((cross_cw e1 hd).2.1.2 (Or.inl h0.symm)).le
    · exact ((cross_cw e1 hd).1.2 ⟨h0, by linarith⟩).le
  have a2 : cross d (ce C J) < 0 := by
    refine (cross_cw hd e2).1.2 ?_
    rw [cw_turn r1 rd r2]
    generalize cw (ang (ce C (J - 1))) (ang d) = X at *
    generalize cw (ang (ce C (J - 1))) (ang (ce C J)) = Y at *
    unfold cw
    rw [if_pos h.le]
    exact ⟨by linarith, by linarith⟩
  have a3 := hC.strict (J - 1)
  rw [sub_add_cancel] at a3
  have b1 := Conv.ce_cv' (C := C) (J - 1)
  rw [sub_add_cancel] at b1
  have b2 := Conv.ce_cv (C := C) J
  have p1 := hC.hh_pos (J - 1)
  have p2 := hC.hh_pos J
  have id : cross (ce C (J - 1)) (ce C J) * cross d (cv C J) =
      cross d (ce C J) * cross (ce C (J - 1)) (cv C J) + cross (ce C (J - 1)) d * cross (ce C J) (cv C J) := by
    unfold cross; ring
  rw [b1, b2] at id
  by_contra hc
  push Not at hc
  nlinarith [mul_neg_of_neg_of_pos a2 p1, mul_nonneg_of_nonpos_of_nonpos a3.le hc, mul_nonpos_of_nonpos_of_nonneg a1 p2.le]

theorem idxRange_spec {n a b : ℕ} (ha : a < n) (hb : b < n) : ∃ m, m < n ∧ (a + m) % n = b ∧
    idxRange n a b = (List.range' a (m + 1)).map (· % n) := by
  unfold idxRange
  split_ifs with h
  · refine ⟨b - a, by omega, by rw [Nat.add_sub_cancel' h, Nat.mod_eq_of_lt hb], ?_⟩
    congr 2; omega
  · refine ⟨b + n - a, by omega, ?_, ?_⟩
    · rw [show a + (b + n - a) = b + n by omega, Nat.add_mod_right, Nat.mod_eq_of_lt hb]
    · congr 2; omega

theorem cv_mod (C : List Pt) (i : ℕ) : cv C ((i % C.length : ℕ) : ℤ) = cv C i := by
  apply cv_congr; push_cast; exact Int.emod_emod _ _

/-- The points of a range of positions. -/
theorem range_links {C : List Pt} {a m : ℕ} {e : ℕ × ℕ} :
    e ∈ links ((List.range' a (m + 1)).map (· % C.length)) ↔
      ∃ i, i < m ∧ e = ((a + i) % C.length, (a + i + 1) % C.length) := by
  rw [mem_links]
  constructor
  · rintro ⟨i, hi, rfl⟩
    simp only [List.length_map, List.length_range'] at hi
    exact ⟨i, by omega, by simp [add_assoc]⟩
  · rintro ⟨i, hi, rfl⟩
    exact ⟨i, by simp only [List.length_map, List.length_range']; omega, by simp [add_assoc]⟩

theorem addsOf_nil {sign : ℤ} {verts : List Pt} {v : Pt}
    (h : ∀ e ∈ links verts, 0 ≤ (sign : ℚ) * triArea e.1 e.2 v) : addsOf sign verts v = [] := by
  unfold addsOf
  rw [List.filter_eq_nil_iff]
  intro i hi
  rw [List.mem_range] at hi
  have h1 : i + 1 < verts.length := by omega
  have := h _ (mem_links.2 ⟨i, h1, rfl⟩)
  rw [List.getD_eq_getElem _ _ (by omega : i < verts.length), List.getD_eq_getElem _ _ h1]
  simpa using this

/-- The points of the triangle of an edge. -/
theorem inFan_iff {C : List Pt} {σ : ℤ} {v p : Pt} {j : ℤ} : InFan C σ v j p ↔
    ∃ α β : ℚ, 0 ≤ α ∧ 0 ≤ β ∧ α + β ≤ 1 ∧
      p = v + α • (v + (σ : ℚ) • cv C j - v) + β • (v + (σ : ℚ) • cv C (j + 1) - v) := by
  constructor
  · rintro ⟨μ, τ, m0, m1, t0, t1, e⟩
    refine ⟨τ * (1 - μ), τ * μ, mul_nonneg t0 (by linarith), mul_nonneg t0 m0, by linarith, ?_⟩
    rw [e, Conv.form_eq]; ext <;> simp <;> ring
  · rintro ⟨α, β, a, b, k, e⟩
    rcases (add_nonneg a b).eq_or_lt with h | h
    · have : α = 0 := by linarith
      have : β = 0 := by linarith
      subst α β
      exact ⟨0, 0, le_rfl, zero_le_one, le_rfl, zero_le_one, by rw [e]; simp⟩
    · refine ⟨β / (α + β), α + β, by positivity, (div_le_one h).2 (by linarith), h.le, k, ?_⟩
      rw [e, Conv.form_eq]
      ext <;> simp <;> field_simp <;> ring

/-- An angle passed when turning right from one angle to another. -/
def Turn (f g φ : ℚ) : Prop := cw f g < 4 ∧ 0 < cw f φ ∧ cw f φ ≤ cw f g

/-- What a piece covers, at a point. -/
structure CornerAt (C : List Pt) (σ : ℤ) (vp v vn : Pt) (r : List Pt) (p : Pt) : Prop where
  off : ¬ OnBoundary r p
  near : windingNumber r p ≠ 0 → (∃ J, InPar v (vn - v) ((σ : ℚ) • cv C J) p) ∨ ∃ j, InFan C σ v j p
  par : ∀ J, Cone C J (vn - v) → InPar v (vn - v) ((σ : ℚ) • cv C J) p → windingNumber r p ≠ 0
  fan : ∀ j, (σ = 1 ∧ Turn (ang (v - vp)) (ang (vn - v)) (fr C j) ∨
    σ = -1 ∧ Turn (ang (vn - v)) (ang (v - vp)) (fr C j)) → InFan C σ v j p → windingNumber r p ≠ 0

/-- The polygon of a corner with a fan. -/
theorem fan_raw {C : List Pt} (hC : Conv C) {σ : ℤ} (hσ : σ = 1 ∨ σ = -1) {v d : Pt} (hd : d ≠ 0) {J : ℤ}
    (hJ : Cone C J d) (idxs : List ℕ) (hne : idxs ≠ []) (hlast : cv C (idxs.getLast hne) = cv C J)
    (hstep : ∀ e ∈ links idxs, ∃ j : ℤ, σ = 1 ∧ cv C e.1 = cv C j ∧ cv C e.2 = cv C (j + 1) ∨
      σ = -1 ∧ cv C e.1 = cv C (j + 1) ∧ cv C e.2 = cv C j) :
    addsOf σ (idxs.map fun i : ℕ => v + (σ : ℚ) • cv C i) v = [] ∧
    ∀ p, ¬ OnBoundary ((idxs.map fun i : ℕ => v + (σ : ℚ) • cv C i) ++ [v + d + (σ : ℚ) • cv C J, v + d, v]) p →
      (∀ x ∈ (idxs.map fun i : ℕ => v + (σ : ℚ) • cv C i) ++ [v + d + (σ : ℚ) • cv C J, v + d, v], ¬ OnSeg (v, x) p) →
      (windingNumber ((idxs.map fun i : ℕ => v + (σ : ℚ) • cv C i) ++ [v + d + (σ : ℚ) • cv C J, v + d, v]) p ≠ 0 ↔
        InPar v d ((σ : ℚ) • cv C J) p ∨ ∃ e ∈ links idxs, ∃ α β : ℚ, 0 ≤ α ∧ 0 ≤ β ∧ α + β ≤ 1 ∧
          p = v + α • (v + (σ : ℚ) • cv C e.1 - v) + β • (v + (σ : ℚ) • cv C e.2 - v)) := by
  have hor : ∀ e ∈ links idxs, 0 < ((-σ : ℤ) : ℚ) * orient v (v + (σ : ℚ) • cv C e.1) (v + (σ : ℚ) • cv C e.2) := by
    intro e he
    rw [orient_base, add_sub_cancel_left, add_sub_cancel_left, cross_smul_left, cross_smul_right]
    obtain ⟨j, ⟨rfl, e1, e2⟩ | ⟨rfl, e1, e2⟩⟩ := hstep e he
    · rw [e1, e2]; push_cast; linarith [hC.org j]
    · rw [e1, e2, cross_swap]; push_cast; linarith [hC.org j]
  have hlk : ∀ e ∈ links (idxs.map fun i : ℕ => v + (σ : ℚ) • cv C i), 0 < ((-σ : ℤ) : ℚ) * orient v e.1 e.2 := by
    intro e he
    obtain ⟨x, hx, rfl⟩ := mem_links_map.1 he
    exact hor x hx
  constructor
  · apply addsOf_nil
    intro e he
    have := hlk e he
    rw [triArea_eq]
    have o : orient e.1 e.2 v = orient v e.1 e.2 := by unfold orient; ring
    rw [o]
    push_cast at this
    linarith
  · intro p hb hq
    have hne' : (idxs.map fun i : ℕ => v + (σ : ℚ) • cv C i) ≠ [] := by simpa using hne
    have hlast' : (idxs.map fun i : ℕ => v + (σ : ℚ) • cv C i).getLast hne' = v + (σ : ℚ) • cv C J := by
      rw [List.getLast_map, hlast]
    have hcr : 0 < ((-σ : ℤ) : ℚ) * cross ((σ : ℚ) • cv C J) d := by
      have := hC.cone_cross hd hJ
      rw [cross_smul_left, cross_swap]
      rcases hσ with rfl | rfl <;> push_cast <;> linarith
    have hs' : (-σ : ℤ) = 1 ∨ (-σ : ℤ) = -1 := by omega
    have hrw : (∃ e ∈ links (idxs.map fun i : ℕ => v + (σ : ℚ) • cv C i), ∃ α β : ℚ, 0 ≤ α ∧ 0 ≤ β ∧ α + β ≤ 1 ∧
        p = v + α • (e.1 - v) + β • (e.2 - v)) ↔ ∃ e ∈ links idxs, ∃ α β : ℚ, 0 ≤ α ∧ 0 ≤ β ∧ α + β ≤ 1 ∧
          p = v + α • (v + (σ : ℚ) • cv C e.1 - v) + β • (v + (σ : ℚ) • cv C e.2 - v) := by
      constructor
      · rintro ⟨e, he, h⟩
        obtain ⟨x, hx, rfl⟩ := mem_links_map.1 he
        exact ⟨x, hx, h⟩
      · rintro ⟨x, hx, h⟩
        exact ⟨_, mem_links_map.2 ⟨x, hx, rfl⟩, h⟩
    rw [← hrw]
    clear hrw hor
    revert hb hq hne' hlast' hlk
    generalize (idxs.map fun i : ℕ => v + (σ : ℚ) • cv C i) = l
    intro hlk hb hq hne' hlast'
    cases l with
    | nil => exact absurd rfl hne'
    | cons w0 ws => exact fan_iff hs' hlast' hcr hlk hb hq

/-- The polygon of a corner with a fan does not run back along itself. -/
theorem forward_fan {v d c w0 : Pt} {ws : List Pt} {ς : ℤ} (hlast : (w0 :: ws).getLast (by simp) = v + c)
    (hc : 0 < (ς : ℚ) * cross c d) (hw : ∀ e ∈ links (w0 :: ws), 0 < (ς : ℚ) * orient v e.1 e.2) (hw0 : w0 ≠ v)
    (had : ∀ k : ℚ, 0 < k → w0 - v ≠ k • d) : Forward (w0 :: ws ++ [v + d + c, v + d, v]) := by
  have hE : ∀ e ∈ polyEdges (w0 :: ws ++ [v + d + c, v + d, v]),
      e ∈ links (w0 :: ws) ∨ e = (v + c, v + d + c) ∨ e = (v + d + c, v + d) ∨ e = (v + d, v) ∨ e = (v, w0) := by
    intro e he
    have hsplit : w0 :: ws = (w0 :: ws).dropLast ++ [v + c] := by
      rw [← hlast, List.dropLast_append_getLast]
    rw [List.cons_append, polyEdges_links, ← List.cons_append, List.append_assoc, hsplit, List.append_assoc,
      List.singleton_append, mem_links_append, ← hsplit] at he
    rcases he with he | he
    · exact Or.inl he
    · right
      simp [links] at he
      tauto
  have hself : ∀ x, orient v x x = 0 := fun x => by unfold orient; ring
  have rim : ∀ e ∈ polyEdges (w0 :: ws ++ [v + d + c, v + d, v]),
      0 < (ς : ℚ) * orient v e.1 e.2 ∨ e = (v, v + (w0 - v)) ∨ e = (v + d, v) := by
    intro e he
    rcases hE e he with h | rfl | rfl | rfl | rfl
    · exact Or.inl (hw e h)
    · left; dsimp only; rw [orient_par1]; exact hc
    · left; dsimp only; rw [orient_par2]; exact hc
    · exact Or.inr (Or.inr rfl)
    · right; left; rw [add_sub_cancel]
  refine forward_star v (w0 - v) d ς (fun e he heq => ?_) rim had
  rcases rim e he with h | rfl | rfl
  · rw [heq, hself, mul_zero] at h
    exact lt_irrefl _ h
  · dsimp only at heq
    rw [add_sub_cancel] at heq
    exact hw0 heq.symm
  · dsimp only at heq
    have : d = 0 := by simpa using heq
    rw [this, cross_zero_right, mul_zero] at hc
    exact lt_irrefl _ hc

/-- A parallelogram does not run back along itself. -/
theorem forward_plain {v d c : Pt} (hc : cross c d ≠ 0) : Forward [v + c, v, v + d, v + d + c] := by
  obtain ⟨ς, hς⟩ : ∃ ς : ℚ, 0 < ς * cross c d := ⟨cross c d, mul_self_pos.2 hc⟩
  have hE : polyEdges [v + c, v, v + d, v + d + c] =
      [(v + c, v), (v, v + d), (v + d, v + d + c), (v + d + c, v + c)] := rfl
  have hself : ∀ x, orient v x x = 0 := fun x => by unfold orient; ring
  have sw : ∀ x y, orient v x y = -orient v y x := fun x y => by unfold orient; ring
  have rim : ∀ e ∈ polyEdges [v + c, v, v + d, v + d + c],
      0 < -ς * orient v e.1 e.2 ∨ e = (v, v + d) ∨ e = (v + c, v) := by
    intro e he
    rw [hE] at he
    simp only [List.mem_cons, List.not_mem_nil, or_false] at he
    rcases he with rfl | rfl | rfl | rfl
    · exact Or.inr (Or.inr rfl)
    · exact Or.inr (Or.inl rfl)
    · left; dsimp only; rw [sw, orient_par2]; linarith
    · left; dsimp only; rw [sw, orient_par1]; linarith
  refine forward_star v d c (-ς) (fun e he heq => ?_) rim fun k _ h => ?_
  · rcases rim e he with h | rfl | rfl
    · rw [heq, hself, mul_zero] at h
      exact lt_irrefl _ h
    · dsimp only at heq
      have : d = 0 := by simpa using heq
      rw [this, cross_zero_right] at hc
      exact hc rfl
    · dsimp only at heq
      have : c = 0 := by simpa using heq
      rw [this] at hc
      apply hc
      unfold cross; simp
  · rw [h, cross_smul_right, cross_self, mul_zero] at hc
    exact hc rfl

theorem fan_forward {C : List Pt} (hC : Conv C) {σ : ℤ} (hσ : σ = 1 ∨ σ = -1) {v vn : Pt} {J : ℤ}
    (hcr : 0 < cross (vn - v) (cv C J)) (idxs : List ℕ) (hne : idxs ≠ []) (hlast : cv C (idxs.getLast hne) = cv C J)
    (hstep : ∀ e ∈ links idxs, ∃ j : ℤ, σ = 1 ∧ cv C e.1 = cv C j ∧ cv C e.2 = cv C (j + 1) ∨
      σ = -1 ∧ cv C e.1 = cv C (j + 1) ∧ cv C e.2 = cv C j)
    (hhead : ∀ k : ℚ, 0 < k → (σ : ℚ) • cv C (idxs.head hne) ≠ k • (vn - v)) :
    Forward ((idxs.map fun i : ℕ => v + (σ : ℚ) • cv C i) ++ [vn + (σ : ℚ) • cv C J, vn, v]) := by
  have hlk : ∀ e ∈ links (idxs.map fun i : ℕ => v + (σ : ℚ) • cv C i), 0 < ((-σ : ℤ) : ℚ) * orient v e.1 e.2 := by
    intro e he
    obtain ⟨x, hx, rfl⟩ := mem_links_map.1 he
    dsimp only
    rw [orient_base, add_sub_cancel_left, add_sub_cancel_left, cross_smul_left, cross_smul_right]
    obtain ⟨j, ⟨rfl, e1, e2⟩ | ⟨rfl, e1, e2⟩⟩ := hstep x hx
    · rw [e1, e2]; push_cast; linarith [hC.org j]
    · rw [e1, e2, cross_swap]; push_cast; linarith [hC.org j]
  have hlast' : (idxs.map fun i : ℕ => v + (σ : ℚ) • cv C i).getLast (by simpa using hne) = v + (σ : ℚ) • cv C J := by
    rw [List.getLast_map, hlast]
  have hcr : 0 < ((-σ : ℤ) : ℚ) * cross ((σ : ℚ) • cv C J) (vn - v) := by
    rw [cross_smul_left, cross_swap]
    rcases hσ with rfl | rfl <;> push_cast <;> linarith
  cases idxs with
  | nil => exact absurd rfl hne
  | cons i0 is =>
    have := forward_fan (v := v) (d := vn - v) (c := (σ : ℚ) • cv C J) (w0 := v + (σ : ℚ) • cv C i0)
      (ws := is.map fun i : ℕ => v + (σ : ℚ) • cv C i) (ς := -σ) hlast' hcr hlk (by
        intro h
        rw [add_eq_left] at h
        have h0 := (smul_eq_zero.1 h).resolve_left (by rcases hσ with rfl | rfl <;> norm_num)
        have := hC.org i0
        rw [h0] at this
        unfold cross at this
        simp at this) (by
        intro k hk
        rw [add_sub_cancel_left]
        exact hhead k hk)
    rwa [add_sub_cancel] at this

/-- Off finitely many segments the piece of a corner covers the parallelogram of the edge, and the triangles
of a corner turning to the side of the sign. -/
theorem Conv.cornerPiece {C : List Pt} (hC : Conv C) {m : FrMap} (hm : FrInv C m)
    (hall : ∀ k : ℤ, ∃ y ∈ m, y.1 = fr C k) {σ : ℤ} (hσ : σ = 1 ∨ σ = -1) {vp v vn : Pt} (h1 : v - vp ≠ 0)
    (h2 : vn - v ≠ 0) :
    ∃ (r : List Pt) (S : List Seg), cornerPiece m C σ (vp, v, vn) = .ok r ∧
      ((∀ j : ℕ, j < r.length → triAt r j ≠ 0) ∧ Cuts r) ∧ ∀ p, ¬ OnAny S p → CornerAt C σ vp v vn r p := by
  have rf := ang_range h1
  have rg := ang_range h2
  obtain ⟨A, hA, An, cA⟩ := hC.findVertex hm hall rf
  obtain ⟨B, hB, Bn, cB⟩ := hC.findVertex hm hall rg
  have hJ : Cone C B (vn - v) := cB
  have hat : ∀ (q : Pt) (i : ℕ), i < C.length → q + cornerPiece.scaleQ σ (C.getD i (0, 0)) = q + (σ : ℚ) • cv C i := by
    intro q i hi
    have : cv C i = C.getD i (0, 0) := by
      rw [List.getD_eq_getElem _ _ hi]; exact cycGet_nat C i hi
    rw [this]; rfl
  -- what remains after the polygon is known
  have fin : ∀ l : List Pt, Forward l → (∀ p, ¬ OnBoundary l p → (∀ x ∈ l, ¬ OnSeg (v, x) p) → CornerAt C σ vp v vn l p) →
      ∃ (r : List Pt) (S : List Seg), simplifyDegeneracies l = .ok r ∧
        ((∀ j : ℕ, j < r.length → triAt r j ≠ 0) ∧ Cuts r) ∧ ∀ p, ¬ OnAny S p → CornerAt C σ vp v vn r p := by
    intro l hf hl
    obtain ⟨r, hr, _, hs, ht⟩ := simplifyLoop_spec (l.length + 1) l (by omega)
    refine ⟨r, polyEdges l ++ l.map (fun x => (v, x)), hr, ⟨ht, hf.cuts_same hs⟩, fun p hp => ?_⟩
    have hb : ¬ OnBoundary l p := fun ⟨e, he, h⟩ => hp ⟨e, List.mem_append_left _ he, h⟩
    have hk := hl p hb (fun x hx h => hp ⟨(v, x), List.mem_append_right _ (List.mem_map.2 ⟨x, hx, rfl⟩), h⟩)
    obtain ⟨o, w⟩ := hs.2 p hb
    exact ⟨o, by rw [w]; exact hk.near, by rw [w]; exact hk.par, by rw [w]; exact hk.fan⟩
  have hvn : v + (vn - v) = vn := add_sub_cancel v vn
  have hcone : ∀ J, Cone C J (vn - v) → cv C J = cv C B := fun J h => cv_congr C (cone_unique hC rg h cB)
  have hcr := hC.cone_cross h2 hJ
  have hturn : ∀ φ, Turn (ang (vn - v)) (ang (v - vp)) φ → ¬ cw (ang (v - vp)) (ang (vn - v)) < 4 := by
    rintro φ ⟨t1, t2, t3⟩ h
    generalize ang (v - vp) = f at *
    generalize ang (vn - v) = g at *
    obtain ⟨f0, f8⟩ := rf
    obtain ⟨g0, g8⟩ := rg
    have h3 : 0 < cw g f := by linarith
    clear t2 t3 hA hB cA cB
    unfold cw at t1 h h3
    split_ifs at t1 h h3 <;> linarith
  -- the parallelogram alone
  have plain : (∀ φ, ¬ (σ = 1 ∧ Turn (ang (v - vp)) (ang (vn - v)) φ ∨ σ = -1 ∧ Turn (ang (vn - v)) (ang (v - vp)) φ)) →
      ∀ p, ¬ OnBoundary [v + (σ : ℚ) • cv C B, v, vn, vn + (σ : ℚ) • cv C B] p →
        (∀ x ∈ [v + (σ : ℚ) • cv C B, v, vn, vn + (σ : ℚ) • cv C B], ¬ OnSeg (v, x) p) →
        CornerAt C σ vp v vn [v + (σ : ℚ) • cv C B, v, vn, vn + (σ : ℚ) • cv C B] p := by
    intro hno p hb hq
    have key := plain_iff (v := v) (d := vn - v) (c := (σ : ℚ) • cv C B) (p := p) (by
      rw [cross_smul_left, cross_swap]
      rcases hσ with rfl | rfl <;> push_cast <;> intro h <;> linarith)
    rw [hvn] at key
    have key := key hb hq
    exact ⟨hb, fun h => Or.inl ⟨B, key.1 h⟩, fun J hJ' h => key.2 (by rw [← hcone J hJ']; exact h),
      fun j h => absurd h (hno _)⟩
  have plainF : Forward [v + (σ : ℚ) • cv C B, v, vn, vn + (σ : ℚ) • cv C B] := by
    have := forward_plain (v := v) (d := vn - v) (c := (σ : ℚ) • cv C B) (by
      rw [cross_smul_left, cross_swap]
      rcases hσ with rfl | rfl <;> push_cast <;> intro h <;> linarith)
    rwa [hvn] at this
  -- the parallelogram and a fan
  have fan : ∀ (idxs : List ℕ) (hne : idxs ≠ []), (∀ i ∈ idxs, i < C.length) → cv C (idxs.getLast hne) = cv C B →
      (∀ e ∈ links idxs, ∃ j : ℤ, σ = 1 ∧ cv C e.1 = cv C j ∧ cv C e.2 = cv C (j + 1) ∨
        σ = -1 ∧ cv C e.1 = cv C (j + 1) ∧ cv C e.2 = cv C j) →
      (∀ j : ℤ, (σ = 1 ∧ Turn (ang (v - vp)) (ang (vn - v)) (fr C j) ∨
        σ = -1 ∧ Turn (ang (vn - v)) (ang (v - vp)) (fr C j)) → ∃ e ∈ links idxs,
          cv C e.1 = cv C j ∧ cv C e.2 = cv C (j + 1) ∨ cv C e.1 = cv C (j + 1) ∧ cv C e.2 = cv C j) →
      (∀ k : ℚ, 0 < k → (σ : ℚ) • cv C (idxs.head hne) ≠ k • (vn - v)) →
      Forward ((idxs.map fun i : ℕ => v + (σ : ℚ) • cv C i) ++ [vn + (σ : ℚ) • cv C B, vn, v]) ∧
      addsOf σ (idxs.map fun i : ℕ => v + (σ : ℚ) • cv C i) v = [] ∧
      ∀ p, ¬ OnBoundary ((idxs.map fun i : ℕ => v + (σ : ℚ) • cv C i) ++ [vn + (σ : ℚ) • cv C B, vn, v]) p →
        (∀ x ∈ (idxs.map fun i : ℕ => v + (σ : ℚ) • cv C i) ++ [vn + (σ : ℚ) • cv C B, vn, v], ¬ OnSeg (v, x) p) →
        CornerAt C σ vp v vn ((idxs.map fun i : ℕ => v + (σ : ℚ) • cv C i) ++ [vn + (σ : ℚ) • cv C B, vn, v]) p := by
    intro idxs hne hlt hlast hstep hcov hhead
    refine ⟨fan_forward hC hσ (v := v) (vn := vn) hcr idxs hne hlast hstep hhead, ?_⟩
    obtain ⟨ha, hk⟩ := fan_raw hC hσ (v := v) h2 hJ idxs hne hlast hstep
    rw [hvn] at hk
    refine ⟨ha, fun p hb hq => ?_⟩
    have key := hk p hb hq
    refine ⟨hb, fun h => ?_, fun J hJ' h => key.2 (Or.inl (by rw [← hcone J hJ']; exact h)), fun j hj hin => key.2 (Or.inr ?_)⟩
    · rcases key.1 h with h | ⟨e, he, α, β, a, b, k, hp⟩
      · exact Or.inl ⟨B, h⟩
      · right
        obtain ⟨j, ⟨_, e1, e2⟩ | ⟨_, e1, e2⟩⟩ := hstep e he
        · exact ⟨j, inFan_iff.2 ⟨α, β, a, b, k, by rw [hp, e1, e2]⟩⟩
        · exact ⟨j, inFan_iff.2 ⟨β, α, b, a, by linarith, by rw [hp, e1, e2]; abel⟩⟩
    · obtain ⟨α, β, a, b, k, hp⟩ := inFan_iff.1 hin
      obtain ⟨e, he, ⟨e1, e2⟩ | ⟨e1, e2⟩⟩ := hcov j hj
      · exact ⟨e, he, α, β, a, b, k, by rw [hp, e1, e2]⟩
      · exact ⟨e, he, β, α, b, a, by linarith, by rw [hp, e1, e2]; abel⟩
  -- a range of positions covers the edges between
  have rng : ∀ {a b : ℕ} {f g : ℚ} (mm : ℕ), a < C.length → mm < C.length → (a + mm) % C.length = b → (0 ≤ f ∧ f < 8) →
      (0 ≤ g ∧ g < 8) → cw (fr C (a - 1)) f < cw (fr C (a - 1)) (fr C a) →
      cw (fr C (b - 1)) g < cw (fr C (b - 1)) (fr C b) → ∀ j : ℤ, Turn f g (fr C j) →
      ∃ i, i < mm ∧ cv C ((a + i : ℕ) : ℤ) = cv C j ∧ cv C ((a + i + 1 : ℕ) : ℤ) = cv C (j + 1) := by
    intro a b f g mm ha hmm hb rf rg ca cb j ⟨t1, t2, t3⟩
    obtain ⟨i, k, hik, hk, ei, ek⟩ := edges_between hC rf rg ca cb t1 t2 t3
    have : k = mm := by
      have e : ((a + k : ℕ) : ℤ) % (C.length : ℤ) = ((a + mm : ℕ) : ℤ) % (C.length : ℤ) := by
        push_cast
        rw [ek, ← hb]
        push_cast
        exact Int.emod_emod _ _
      have e' : (a + k) % C.length = (a + mm) % C.length := by exact_mod_cast e
      have := Nat.ModEq.add_left_cancel' a (show (a + k) ≡ (a + mm) [MOD C.length] from e')
      unfold Nat.ModEq at this
      rwa [Nat.mod_eq_of_lt hk, Nat.mod_eq_of_lt hmm] at this
    refine ⟨i, by omega, cv_congr C (by push_cast; exact ei), cv_congr C ?_⟩
    push_cast
    rw [Int.add_emod, ei, ← Int.add_emod]
  unfold Ply.cornerPiece
  dsimp only
  rw [(ang_spec h1).1, (ang_spec h2).1]
  simp only [bind, Except.bind, hA, hB]
  rw [pyMod_sub rf rg, hat vn B Bn]
  by_cases hr : cw (ang (v - vp)) (ang (vn - v)) < 4
  · rcases hσ with rfl | rfl
    · -- a fan turning right
      obtain ⟨mm, hmm, hend, hidx⟩ := idxRange_spec An Bn
      have hlist : cornerLists C.length 1 (decide (cw (ang (v - vp)) (ang (vn - v)) < 4)) A B (vn + ((1 : ℤ) : ℚ) • cv C B) vn v =
          (idxRange C.length A B, [vn + ((1 : ℤ) : ℚ) • cv C B, vn, v]) := by
        rw [decide_eq_true hr]; rfl
      rw [hlist]
      dsimp only
      have hlt : ∀ i ∈ idxRange C.length A B, i < C.length := by
        intro i hi
        rw [hidx] at hi
        obtain ⟨x, _, rfl⟩ := List.mem_map.1 hi
        exact Nat.mod_lt _ hC.pos
      rw [List.map_congr_left (fun i hi => hat v i (hlt i hi))]
      have hne : idxRange C.length A B ≠ [] := by rw [hidx]; simp
      obtain ⟨hF, ha, hk⟩ := fan (idxRange C.length A B) hne hlt (by
          have : (idxRange C.length A B).getLast hne = B := by
            simp only [hidx, List.getLast_map, List.getLast_range']
            convert hend using 2
            omega
          rw [this]) (by
          intro e he
          rw [hidx] at he
          obtain ⟨i, hi, rfl⟩ := range_links.1 he
          refine ⟨((A + i : ℕ) : ℤ), Or.inl ⟨rfl, cv_mod C _, ?_⟩⟩
          rw [cv_mod]; push_cast; rfl) (by
          rintro j (⟨_, ht⟩ | ⟨h, _⟩)
          · obtain ⟨i, hi, e1, e2⟩ := rng mm An hmm hend rf rg cA cB j ht
            refine ⟨_, by rw [hidx]; exact range_links.2 ⟨i, hi, rfl⟩, Or.inl ⟨?_, ?_⟩⟩
            · rw [cv_mod]; exact e1
            · rw [cv_mod]; exact e2
          · exact absurd h (by decide)) (by
          have : (idxRange C.length A B).head hne = A := by
            simp only [hidx, List.range'_succ, List.map_cons, List.head_cons]
            exact Nat.mod_eq_of_lt An
          rw [this]
          intro k hk h
          have c1 := hC.cone_cross h1 cA
          have c2 : cross (v - vp) (vn - v) ≤ 0 := by
            by_contra hc
            push Not at hc
            have := (cross_cw h1 h2).2.2.1 hc
            linarith
          rw [Int.cast_one, one_smul] at h
          rw [h, cross_smul_right] at c1
          nlinarith)
      rw [ha]
      exact fin _ hF hk
    · have hlist : cornerLists C.length (-1) (decide (cw (ang (v - vp)) (ang (vn - v)) < 4)) A B (vn + ((-1 : ℤ) : ℚ) • cv C B) vn v =
          ([B % C.length], [v, vn, vn + ((-1 : ℤ) : ℚ) • cv C B]) := by
        rw [decide_eq_true hr]; rfl
      rw [hlist, Nat.mod_eq_of_lt Bn]
      dsimp only
      rw [List.map_singleton, hat v B Bn]
      exact fin _ plainF (plain (by
        rintro φ (⟨h, _⟩ | ⟨_, h⟩)
        · exact absurd h (by decide)
        · exact hturn φ h hr))
  · rcases hσ with rfl | rfl
    · have hlist : cornerLists C.length 1 (decide (cw (ang (v - vp)) (ang (vn - v)) < 4)) A B (vn + ((1 : ℤ) : ℚ) • cv C B) vn v =
          ([B % C.length], [v, vn, vn + ((1 : ℤ) : ℚ) • cv C B]) := by
        rw [decide_eq_false hr]; rfl
      rw [hlist, Nat.mod_eq_of_lt Bn]
      dsimp only
      rw [List.map_singleton, hat v B Bn]
      exact fin _ plainF (plain (by
        rintro φ (⟨_, h⟩ | ⟨h, _⟩)
        · exact hr h.1
        · exact absurd h (by decide)))
    · -- a fan turning left
      obtain ⟨mm, hmm, hend, hidx⟩ := idxRange_spec Bn An
      have hlist : cornerLists C.length (-1) (decide (cw (ang (v - vp)) (ang (vn - v)) < 4)) A B (vn + ((-1 : ℤ) : ℚ) • cv C B) vn v =
          ((idxRange C.length B A).reverse, [vn + ((-1 : ℤ) : ℚ) • cv C B, vn, v]) := by
        rw [decide_eq_false hr]; rfl
      rw [hlist]
      dsimp only
      have hlt : ∀ i ∈ (idxRange C.length B A).reverse, i < C.length := by
        intro i hi
        rw [List.mem_reverse, hidx] at hi
        obtain ⟨x, _, rfl⟩ := List.mem_map.1 hi
        exact Nat.mod_lt _ hC.pos
      rw [List.map_congr_left (fun i hi => hat v i (hlt i hi))]
      have hne : (idxRange C.length B A).reverse ≠ [] := by rw [hidx]; simp
      obtain ⟨hF, ha, hk⟩ := fan (idxRange C.length B A).reverse hne hlt (by
          have : (idxRange C.length B A).reverse.getLast hne = B := by
            simp only [hidx, List.getLast_reverse, List.range'_succ, List.map_cons, List.head_cons]
            exact Nat.mod_eq_of_lt Bn
          rw [this]) (by
          intro e he
          obtain ⟨e1, e2⟩ := e
          rw [mem_links_reverse, hidx] at he
          obtain ⟨i, hi, he⟩ := range_links.1 he
          rw [Prod.mk.injEq] at he
          refine ⟨((B + i : ℕ) : ℤ), Or.inr ⟨rfl, ?_, ?_⟩⟩
          · dsimp only; rw [he.2, cv_mod]; push_cast; rfl
          · dsimp only; rw [he.1, cv_mod]) (by
          rintro j (⟨h, _⟩ | ⟨_, ht⟩)
          · exact absurd h (by decide)
          · obtain ⟨i, hi, e1, e2⟩ := rng mm Bn hmm hend rg rf cB cA j ht
            refine ⟨((B + i + 1) % C.length, (B + i) % C.length), ?_, Or.inr ⟨?_, ?_⟩⟩
            · rw [mem_links_reverse, hidx]; exact range_links.2 ⟨i, hi, rfl⟩
            · dsimp only; rw [cv_mod]; exact e2
            · dsimp only; rw [cv_mod]; exact e1) (by
          have : (idxRange C.length B A).reverse.head hne = A := by
            simp only [hidx, List.head_reverse, List.getLast_map, List.getLast_range']
            convert hend using 2
            omega
          rw [this]
          intro k hk h
          have c1 := hC.cone_cross h1 cA
          have c2 : 0 ≤ cross (v - vp) (vn - v) := by
            by_contra hc
            push Not at hc
            exact hr ((cross_cw h1 h2).1.1 hc).2
          have h' : cv C A = (-k) • (vn - v) := by
            rw [neg_smul, ← h]; simp
          rw [h', cross_smul_right] at c1
          nlinarith)
      rw [ha]
      exact fin _ hF hk

end Ply
