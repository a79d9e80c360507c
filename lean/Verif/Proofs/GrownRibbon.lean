import Verif.Proofs.GrownBox
import Verif.Proofs.Octagon

/-!
# The pieces around a box that `minkowski_ribbon_simple_convex` makes
-/

namespace Ply

theorem area3_orient (a b c : Pt) : area3 a b c = -(orient a b c) / 2 := by
  unfold area3 triArea areaLoop orient
  simp [areaLoop]
  ring

theorem simplify_six {A B C D E F : Pt} (h0 : area3 F A B ≠ 0) (h1 : area3 A B C ≠ 0) (h2 : area3 B C D ≠ 0) (h3 : area3 C D E ≠ 0)
    (h4 : area3 D E F ≠ 0) (h5 : area3 E F A = 0) (k0 : area3 E A B ≠ 0) (k4 : area3 D E A ≠ 0) :
    simplifyDegeneracies [A, B, C, D, E, F] = .ok [A, B, C, D, E] := by
  unfold simplifyDegeneracies
  simp [simplifyLoop, simplifyPass, cycGet, h0, h1, h2, h3, h4, h5, k0, k4, bind, Except.bind]

section

variable {p q : ℚ} (hp : 0 < p) (hq : 0 < q)
include hp hq

theorem oct_find {m : FrMap} (hC : Conv (octagon (2 * p + q) (p + q))) (hm : FrInv (octagon (2 * p + q) (p + q)) m)
    (hall : ∀ k : ℤ, ∃ y ∈ m, y.1 = fr (octagon (2 * p + q) (p + q)) k) :
    findVertexOn m 8 0 = .ok 6 ∧ findVertexOn m 8 2 = .ok 0 ∧ findVertexOn m 8 4 = .ok 2 ∧ findVertexOn m 8 6 = .ok 4 := by
  have hang := octagon_ang (a := 2 * p + q) (b := p + q) (by linarith) (by linarith) (by linarith)
  have hr : (2 * p + q - (p + q)) / (p + q) = p / (p + q) := by congr 1; ring
  rw [hr] at hang
  have q0 : 0 < p / (p + q) := div_pos hp (by linarith)
  have q1 : p / (p + q) < 1 := by rw [div_lt_one (by linarith)]; linarith
  generalize p / (p + q) = θ at *
  have hfr : ∀ k : ℕ, k < 8 → fr (octagon (2 * p + q) (p + q)) k = (octAngles θ).getD k 0 := hang
  have hfr' : fr (octagon (2 * p + q) (p + q)) ((0 : ℕ) - 1) = (octAngles θ).getD 7 0 := by
    rw [← hfr 7 (by norm_num)]
    unfold fr
    rw [← ce_per (octagon (2 * p + q) (p + q)) (((0 : ℕ) : ℤ) - 1)]
    rfl
  have key : ∀ f : ℚ, 0 ≤ f → f < 8 → ∃ J : ℕ, findVertexOn m 8 f = .ok J ∧ J < 8 ∧
      cw ((octAngles θ).getD ((J + 7) % 8) 0) f < cw ((octAngles θ).getD ((J + 7) % 8) 0) ((octAngles θ).getD J 0) := by
    intro f f0 f8
    obtain ⟨J, h1, h2, h3⟩ := hC.findVertex hm hall ⟨f0, f8⟩
    refine ⟨J, h1, h2, ?_⟩
    have h2' : J < 8 := h2
    rw [hfr J h2'] at h3
    rcases Nat.eq_zero_or_pos J with rfl | hJ
    · rw [hfr'] at h3
      exact h3
    · have : ((J : ℤ) - 1) = ((J - 1 : ℕ) : ℤ) := by omega
      rw [this, hfr _ (by omega)] at h3
      have e : (J + 7) % 8 = J - 1 := by omega
      rw [e]
      exact h3
  refine ⟨?_, ?_, ?_, ?_⟩
  · obtain ⟨J, h1, h2, h3⟩ := key 0 (by norm_num) (by norm_num)
    have : J = 6 := by
      interval_cases J <;> first | rfl | (exfalso; simp [octAngles, cw] at h3; split_ifs at h3 <;> linarith)
    rw [h1, this]
  · obtain ⟨J, h1, h2, h3⟩ := key 2 (by norm_num) (by norm_num)
    have : J = 0 := by
      interval_cases J <;> first | rfl | (exfalso; simp [octAngles, cw] at h3; split_ifs at h3 <;> linarith)
    rw [h1, this]
  · obtain ⟨J, h1, h2, h3⟩ := key 4 (by norm_num) (by norm_num)
    have : J = 2 := by
      interval_cases J <;> first | rfl | (exfalso; simp [octAngles, cw] at h3; split_ifs at h3 <;> linarith)
    rw [h1, this]
  · obtain ⟨J, h1, h2, h3⟩ := key 6 (by norm_num) (by norm_num)
    have : J = 4 := by
      interval_cases J <;> first | rfl | (exfalso; simp [octAngles, cw] at h3; split_ifs at h3 <;> linarith)
    rw [h1, this]

end

theorem fr_right {t : ℚ} (ht : 0 < t) : vectorFrangle (t, 0) = .ok 0 := by
  unfold vectorFrangle
  simp [ht.ne', ht.le]

theorem fr_left {t : ℚ} (ht : 0 < t) : vectorFrangle (-t, 0) = .ok 4 := by
  unfold vectorFrangle
  simp [ht.ne', ht]

theorem fr_up {t : ℚ} (ht : 0 < t) : vectorFrangle (0, t) = .ok 6 := by
  unfold vectorFrangle
  simp [ht.ne', not_le.2 ht]
  norm_num [ht.le, not_lt.2 ht.le, not_lt.2 (abs_nonneg t)]

theorem fr_down {t : ℚ} (ht : 0 < t) : vectorFrangle (0, -t) = .ok 2 := by
  unfold vectorFrangle
  simp [ht.ne', ht.le, not_lt.2 (abs_nonneg t)]

section

variable {x y w h p q : ℚ} (hw : 0 < w) (hh : 0 < h) (hp : 0 < p) (hq : 0 < q)
include hw hh hp hq

theorem box_corners {m : FrMap} (hC : Conv (octagon (2 * p + q) (p + q))) (hm : FrInv (octagon (2 * p + q) (p + q)) m)
    (hall : ∀ k : ℤ, ∃ y ∈ m, y.1 = fr (octagon (2 * p + q) (p + q)) k) :
    cornerPiece m (octagon (2 * p + q) (p + q)) 1 (boxPt x y w h p q 3, boxPt x y w h p q 0, boxPt x y w h p q 1) =
      .ok ([13, 14, 15, 4, 1].map (boxPt x y w h p q)) ∧
    cornerPiece m (octagon (2 * p + q) (p + q)) 1 (boxPt x y w h p q 0, boxPt x y w h p q 1, boxPt x y w h p q 2) =
      .ok ([4, 5, 6, 7, 2].map (boxPt x y w h p q)) ∧
    cornerPiece m (octagon (2 * p + q) (p + q)) 1 (boxPt x y w h p q 1, boxPt x y w h p q 2, boxPt x y w h p q 3) =
      .ok ([7, 8, 9, 10, 3].map (boxPt x y w h p q)) ∧
    cornerPiece m (octagon (2 * p + q) (p + q)) 1 (boxPt x y w h p q 2, boxPt x y w h p q 3, boxPt x y w h p q 0) =
      .ok ([10, 11, 12, 13, 0].map (boxPt x y w h p q)) := by
  obtain ⟨f0, f2, f4, f6⟩ := oct_find hp hq hC hm hall
  have e8 : (octagon (2 * p + q) (p + q)).length = 8 := rfl
  have h1 := mul_pos hw hh
  have h2 := mul_pos hw hp
  have h3 := mul_pos hw hq
  have h4 := mul_pos hh hp
  have h5 := mul_pos hh hq
  have h6 := mul_pos hp hp
  have h7 := mul_pos hp hq
  have h8 := mul_pos hq hq
  -- the order of the six corners
  have raw : ∀ {vp v vn : Pt} {pf nf : ℚ} {ip inx : ℕ}, vectorFrangle (v - vp) = .ok pf → vectorFrangle (vn - v) = .ok nf →
      findVertexOn m 8 pf = .ok ip → findVertexOn m 8 nf = .ok inx → pyMod (nf - pf) 8 < 4 →
      cornerPiece m (octagon (2 * p + q) (p + q)) 1 (vp, v, vn) =
        (let verts := (idxRange 8 ip inx).map fun i => v + (octagon (2 * p + q) (p + q)).getD i (0, 0)
         simplifyDegeneracies (insertAll v (addsOf 1 verts v) verts ++ [vn + (octagon (2 * p + q) (p + q)).getD inx (0, 0), vn, v])) := by
    intro vp v vn pf nf ip inx a b c d e
    unfold cornerPiece
    simp only [a, b, e8, c, d, bind, Except.bind, e, decide_true, cornerLists, if_true]
    simp [cornerPiece.scaleQ]
  have no_adds : ∀ {A B C v : Pt}, orient A B v ≤ 0 → orient B C v ≤ 0 → insertAll v (addsOf 1 [A, B, C] v) [A, B, C] = [A, B, C] := by
    intro A B C v a b
    have a' : ¬ triArea A B v < 0 := by
      rw [show triArea A B v = area3 A B v from rfl, area3_orient]; linarith
    have b' : ¬ triArea B C v < 0 := by
      rw [show triArea B C v = area3 B C v from rfl, area3_orient]; linarith
    simp [addsOf, insertAll, List.range_succ, a', b']
  have six : ∀ {A B C D E F : Pt}, orient F A B ≠ 0 → orient A B C ≠ 0 → orient B C D ≠ 0 → orient C D E ≠ 0 → orient D E F ≠ 0 →
      orient E F A = 0 → orient E A B ≠ 0 → orient D E A ≠ 0 → simplifyDegeneracies [A, B, C, D, E, F] = .ok [A, B, C, D, E] := by
    intro A B C D E F a0 a1 a2 a3 a4 a5 a6 a7
    have nz : ∀ {u : ℚ}, u ≠ 0 → -u / 2 ≠ 0 := fun hu => by
      intro hc; apply hu; linarith
    apply simplify_six <;> rw [area3_orient]
    · exact nz a0
    · exact nz a1
    · exact nz a2
    · exact nz a3
    · exact nz a4
    · rw [a5]; simp
    · exact nz a6
    · exact nz a7
  have listEq : ∀ {g : ℕ → Pt} {i j k : ℕ} {A B C : Pt}, g i = A → g j = B → g k = C → [i, j, k].map g = [A, B, C] := by
    rintro g i j k A B C rfl rfl rfl
    rfl
  have corner : ∀ {vp v vn A B C D : Pt} {pf nf : ℚ} {ip inx : ℕ}, vectorFrangle (v - vp) = .ok pf → vectorFrangle (vn - v) = .ok nf →
      findVertexOn m 8 pf = .ok ip → findVertexOn m 8 nf = .ok inx → pyMod (nf - pf) 8 < 4 →
      ((idxRange 8 ip inx).map fun i => v + (octagon (2 * p + q) (p + q)).getD i (0, 0)) = [A, B, C] →
      vn + (octagon (2 * p + q) (p + q)).getD inx (0, 0) = D →
      orient A B v < 0 → orient B C v < 0 → orient A B C < 0 → orient B C D < 0 → orient C D vn < 0 → orient D vn v < 0 → orient vn v A = 0 →
      orient vn A B < 0 → orient D vn A < 0 →
      cornerPiece m (octagon (2 * p + q) (p + q)) 1 (vp, v, vn) = .ok [A, B, C, D, vn] := by
    intro vp v vn A B C D pf nf ip inx a b c d e f g k0 k1 k2 k3 k4 k5 k6 k7 k8
    rw [raw a b c d e]
    simp only [f, g]
    rw [no_adds k0.le k1.le]
    refine six ?_ k2.ne k3.ne k4.ne k5.ne k6 k7.ne k8.ne
    rw [show orient v A B = orient A B v by unfold orient; ring]
    exact k0.ne
  refine ⟨corner (pf := 4) (nf := 6) (ip := 2) (inx := 4) ?_ ?_ f4 f6 ?_ ?_ ?_ ?_ ?_ ?_ ?_ ?_ ?_ ?_ ?_ ?_,
    corner (pf := 6) (nf := 0) (ip := 4) (inx := 6) ?_ ?_ f6 f0 ?_ ?_ ?_ ?_ ?_ ?_ ?_ ?_ ?_ ?_ ?_ ?_,
    corner (pf := 0) (nf := 2) (ip := 6) (inx := 0) ?_ ?_ f0 f2 ?_ ?_ ?_ ?_ ?_ ?_ ?_ ?_ ?_ ?_ ?_ ?_,
    corner (pf := 2) (nf := 4) (ip := 0) (inx := 2) ?_ ?_ f2 f4 ?_ ?_ ?_ ?_ ?_ ?_ ?_ ?_ ?_ ?_ ?_ ?_⟩
  all_goals first
    | (refine Eq.trans (congrArg vectorFrangle ?_) (fr_left hw); simp only [boxPt]; ext <;> simp)
    | (refine Eq.trans (congrArg vectorFrangle ?_) (fr_right hw); simp only [boxPt]; ext <;> simp)
    | (refine Eq.trans (congrArg vectorFrangle ?_) (fr_up hh); simp only [boxPt]; ext <;> simp)
    | (refine Eq.trans (congrArg vectorFrangle ?_) (fr_down hh); simp only [boxPt]; ext <;> simp)
    | (norm_num [pyMod]; done)
    | (simp only [boxPt, orient]; nlinarith)
    | (simp [octagon, boxPt] <;> ring_nf; done)
    | (refine listEq ?_ ?_ ?_ <;> simp only [octagon, boxPt] <;> ext <;> simp <;> ring)

end

end Ply
