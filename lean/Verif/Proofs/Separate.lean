import Verif.Proofs.WindingAffine
import Verif.Spec.Arrangement
import Mathlib.Topology.Order.Basic
import Mathlib.Topology.Algebra.Order.Field
import Mathlib.Topology.Instances.Rat

/-!
# Segments in the rational plane: separation, small displacements, winding numbers
-/

namespace Ply

open Filter Topology

/-- Inner product. -/
def dotp (u v : Pt) : ℚ := u.1 * v.1 + u.2 * v.2

theorem SameFace.refl (S : List Seg) (p : Pt) : SameFace S p p := fun _ _ => rfl
theorem SameFace.symm {S : List Seg} {p q : Pt} (h : SameFace S p q) : SameFace S q p := fun a b => (h a b).symm
theorem SameFace.trans {S : List Seg} {p q r : Pt} (h : SameFace S p q) (h' : SameFace S q r) : SameFace S p r :=
  fun a b => (h a b).trans (h' a b)

/-- A horizontal move that meets no point of an edge does not change its crossing. -/
theorem crossing_move (p q a b : Pt) (hy : p.2 = q.2) (hx : p.1 < q.1)
    (h : ∀ x, p.1 ≤ x → x ≤ q.1 → ¬ OnSeg (a, b) (x, p.2)) : crossing p a b = crossing q a b := by
  have key : a.2 ≠ b.2 → min a.2 b.2 ≤ p.2 → p.2 ≤ max a.2 b.2 →
      (0 < (orient a b p) * (b.2 - a.2) ↔ 0 < (orient a b q) * (b.2 - a.2)) ∧
      (orient a b p ≠ 0 ∧ orient a b q ≠ 0) := by
    intro hab h1 h2
    have hd : b.2 - a.2 ≠ 0 := sub_ne_zero.2 hab.symm
    set t := (p.2 - a.2) / (b.2 - a.2) with ht
    have ht' : t * (b.2 - a.2) = p.2 - a.2 := div_mul_cancel₀ _ hd
    set x := a.1 + t * (b.1 - a.1) with hxx
    have ht01 : 0 ≤ t ∧ t ≤ 1 := by
      rcases lt_or_gt_of_ne hab with hlt | hlt
      · rw [min_eq_left hlt.le] at h1
        rw [max_eq_right hlt.le] at h2
        have : 0 < b.2 - a.2 := sub_pos.2 hlt
        exact ⟨div_nonneg (by linarith) this.le, (div_le_one this).2 (by linarith)⟩
      · rw [min_eq_right hlt.le] at h1
        rw [max_eq_left hlt.le] at h2
        have : 0 < a.2 - b.2 := sub_pos.2 hlt
        rw [ht, ← neg_div_neg_eq]
        exact ⟨div_nonneg (by linarith) (by linarith), (div_le_one (by linarith)).2 (by linarith)⟩
    have hon : OnSeg (a, b) (x, p.2) := by
      refine ⟨t, ht01.1, ht01.2, ?_⟩
      unfold along
      ext
      · rfl
      · simp only; linarith
    have hp : ∀ r : Pt, r.2 = p.2 → orient a b r = (b.2 - a.2) * (x - r.1) := by
      intro r hr
      unfold orient
      rw [hr, ← ht']
      rw [hxx]; ring
    have hp1 := hp p rfl
    have hq1 := hp q hy.symm
    have hno : x < p.1 ∨ q.1 < x := by
      by_contra hc
      push Not at hc
      exact h x hc.1 hc.2 hon
    have hsq : 0 < (b.2 - a.2) * (b.2 - a.2) := mul_self_pos.2 hd
    have e1 : orient a b p * (b.2 - a.2) = ((b.2 - a.2) * (b.2 - a.2)) * (x - p.1) := by rw [hp1]; ring
    have e2 : orient a b q * (b.2 - a.2) = ((b.2 - a.2) * (b.2 - a.2)) * (x - q.1) := by rw [hq1]; ring
    refine ⟨?_, ?_, ?_⟩
    · rw [e1, e2, mul_pos_iff_of_pos_left hsq, mul_pos_iff_of_pos_left hsq]
      rcases hno with hno | hno
      · constructor <;> intro <;> linarith
      · constructor <;> intro <;> linarith
    · rw [hp1]
      refine mul_ne_zero hd ?_
      rcases hno with hno | hno
      · exact ne_of_lt (by linarith)
      · exact ne_of_gt (by linarith)
    · rw [hq1]
      refine mul_ne_zero hd ?_
      rcases hno with hno | hno
      · exact ne_of_lt (by linarith)
      · exact ne_of_gt (by linarith)
  unfold crossing
  rw [← hy]
  by_cases h1 : a.2 ≤ p.2 ∧ p.2 < b.2
  · have hlt : a.2 < b.2 := lt_of_le_of_lt h1.1 h1.2
    obtain ⟨k, _⟩ := key hlt.ne (by rw [min_eq_left hlt.le]; exact h1.1) (by rw [max_eq_right hlt.le]; exact h1.2.le)
    have hpos : 0 < b.2 - a.2 := sub_pos.2 hlt
    rw [mul_pos_iff_of_pos_right hpos, mul_pos_iff_of_pos_right hpos] at k
    have n1 : ∀ o : ℚ, ¬ (b.2 ≤ p.2 ∧ p.2 < a.2 ∧ o < 0) := fun o hc => by linarith [hc.1, h1.2]
    rw [if_neg (n1 _), if_neg (n1 _)]
    congr 1
    simp only [h1.1, h1.2, true_and, k]
  · by_cases h2 : b.2 ≤ p.2 ∧ p.2 < a.2
    · have hlt : b.2 < a.2 := lt_of_le_of_lt h2.1 h2.2
      obtain ⟨k, n1, n2⟩ := key hlt.ne' (by rw [min_eq_right hlt.le]; exact h2.1) (by rw [max_eq_left hlt.le]; exact h2.2.le)
      have hneg : b.2 - a.2 < 0 := by linarith
      have k' : orient a b p < 0 ↔ orient a b q < 0 := by
        constructor
        · intro ho; have := k.1 (mul_pos_of_neg_of_neg ho hneg)
          by_contra hc; push Not at hc; nlinarith
        · intro ho; have := k.2 (mul_pos_of_neg_of_neg ho hneg)
          by_contra hc; push Not at hc; nlinarith
      have m1 : ∀ o : ℚ, ¬ (a.2 ≤ p.2 ∧ p.2 < b.2 ∧ 0 < o) := fun o hc => by linarith [hc.1, h2.2]
      rw [if_neg (m1 _), if_neg (m1 _)]
      congr 1
      simp only [h2.1, h2.2, true_and, k']
    · rw [if_neg (fun hc => h1 ⟨hc.1, hc.2.1⟩), if_neg (fun hc => h2 ⟨hc.1, hc.2.1⟩),
        if_neg (fun hc => h1 ⟨hc.1, hc.2.1⟩), if_neg (fun hc => h2 ⟨hc.1, hc.2.1⟩)]

/-- The winding number is constant along a segment that does not meet the polygon. -/
theorem winding_const (poly : List Pt) (p q : Pt) (h : ∀ x, OnSeg (p, q) x → ¬ OnBoundary poly x) :
    windingNumber poly p = windingNumber poly q := by
  by_cases hpq : p = q
  · rw [hpq]
  set A : Affine := ⟨q.1 - p.1, q.2 - p.2, -(q.2 - p.2), q.1 - p.1, 0, 0⟩ with hA
  have hdet : 0 < A.det := by
    unfold Affine.det
    rw [hA]
    dsimp only
    have : q.1 - p.1 ≠ 0 ∨ q.2 - p.2 ≠ 0 := by
      by_contra hc
      push Not at hc
      exact hpq (Prod.ext (by linarith [hc.1]) (by linarith [hc.2]))
    rcases this with h | h
    · nlinarith [mul_self_pos.2 h, mul_self_nonneg (q.2 - p.2)]
    · nlinarith [mul_self_pos.2 h, mul_self_nonneg (q.1 - p.1)]
  have hp : ¬ OnBoundary poly p := h p ⟨0, le_rfl, zero_le_one, by unfold along; ext <;> simp⟩
  have hq : ¬ OnBoundary poly q := h q ⟨1, zero_le_one, le_rfl, by unfold along; ext <;> simp⟩
  have e1 := windingNumber_affine A hdet.ne' poly p hp
  have e2 := windingNumber_affine A hdet.ne' poly q hq
  rw [if_pos hdet, one_mul] at e1 e2
  rw [← e1, ← e2]
  unfold windingNumber
  congr 1
  refine List.map_congr_left fun e he => ?_
  have hy : (A.app p).2 = (A.app q).2 := by rw [hA]; unfold Affine.app; dsimp only; ring
  have hdx : (A.app q).1 - (A.app p).1 = A.det := by rw [hA]; unfold Affine.app Affine.det; dsimp only; ring
  refine crossing_move _ _ _ _ hy (by linarith) fun x h1 h2 hon => ?_
  have hx : (x, (A.app p).2) = A.app (along (p, q) ((x - (A.app p).1) / A.det)) := by
    set t := (x - (A.app p).1) / A.det with ht
    have ht' : t * A.det = x - (A.app p).1 := div_mul_cancel₀ _ hdet.ne'
    have e : x = (A.app p).1 + t * A.det := by linarith
    rw [e, hA]
    unfold Affine.app Affine.det along
    dsimp only
    ext <;> dsimp only <;> ring
  rw [hx] at hon
  refine h _ ⟨(x - (A.app p).1) / A.det, div_nonneg (by linarith) hdet.le,
    (div_le_one hdet).2 (by linarith), rfl⟩ ?_
  rw [← onBoundary_affine A hdet.ne']
  exact ⟨e, he, hon⟩

theorem same_of_segment {S : List Seg} {p q : Pt} (h : ∀ x, OnSeg (p, q) x → ¬ OnAny S x) : SameFace S p q := by
  intro poly hw
  refine winding_const poly p q fun x hx hb => ?_
  obtain ⟨e, he, ho⟩ := hb
  exact h x hx (hw e he x ho)

/-! ### Separation -/

theorem dotp_along (w : Pt) (s : Seg) (t : ℚ) :
    dotp w (along s t) = (1 - t) * dotp w s.1 + t * dotp w s.2 := by
  unfold dotp along; dsimp only; ring

theorem onSeg_left (s : Seg) : OnSeg s s.1 := ⟨0, le_rfl, zero_le_one, by unfold along; ext <;> simp⟩
theorem onSeg_right (s : Seg) : OnSeg s s.2 := ⟨1, zero_le_one, le_rfl, by unfold along; ext <;> simp⟩

/-- Strictly separated by a linear form. -/
def Separated (a b : Seg) : Prop :=
  ∃ w k, dotp w a.1 < k ∧ dotp w a.2 < k ∧ k < dotp w b.1 ∧ k < dotp w b.2

theorem Separated.symm {a b : Seg} (h : Separated a b) : Separated b a := by
  obtain ⟨w, k, h1, h2, h3, h4⟩ := h
  refine ⟨(-w.1, -w.2), -k, ?_, ?_, ?_, ?_⟩ <;> unfold dotp at * <;> dsimp only <;> linarith

theorem separated_of (a b : Seg) (w : Pt) (h1 : dotp w a.1 < dotp w b.1) (h2 : dotp w a.1 < dotp w b.2)
    (h3 : dotp w a.2 < dotp w b.1) (h4 : dotp w a.2 < dotp w b.2) : Separated a b := by
  obtain ⟨k, k1, k2⟩ := exists_between (show max (dotp w a.1) (dotp w a.2) < min (dotp w b.1) (dotp w b.2) from by
    rw [max_lt_iff, lt_min_iff, lt_min_iff]; exact ⟨⟨h1, h2⟩, h3, h4⟩)
  rw [max_lt_iff] at k1
  rw [lt_min_iff] at k2
  exact ⟨w, k, k1.1, k1.2, k2.1, k2.2⟩

/-- Both ends of `b` strictly on one side of the line through `a`. -/
theorem separated_of_side (a b : Seg) (h : 0 < cross (dir a) (b.1.1 - a.1.1, b.1.2 - a.1.2) *
    cross (dir a) (b.2.1 - a.1.1, b.2.2 - a.1.2)) : Separated a b := by
  set x := cross (dir a) (b.1.1 - a.1.1, b.1.2 - a.1.2) with hx
  set y := cross (dir a) (b.2.1 - a.1.1, b.2.2 - a.1.2) with hy
  unfold cross dir at hx hy
  dsimp only at hx hy
  rcases mul_pos_iff.1 h with ⟨h1, h2⟩ | ⟨h1, h2⟩
  · refine separated_of a b (-(a.2.2 - a.1.2), a.2.1 - a.1.1) ?_ ?_ ?_ ?_ <;> unfold dotp <;> dsimp only <;>
      nlinarith
  · refine separated_of a b (a.2.2 - a.1.2, -(a.2.1 - a.1.1)) ?_ ?_ ?_ ?_ <;> unfold dotp <;> dsimp only <;>
      nlinarith

theorem separated_parallel (a b : Seg) (ha : a.1 ≠ a.2) (hp : cross (dir a) (dir b) = 0)
    (h : ∀ x, ¬ (OnSeg a x ∧ OnSeg b x)) : Separated a b := by
  have hd : 0 < dotp (dir a) (dir a) := by
    unfold dotp dir
    dsimp only
    have : a.2.1 - a.1.1 ≠ 0 ∨ a.2.2 - a.1.2 ≠ 0 := by
      by_contra hc
      push Not at hc
      exact ha (Prod.ext (by linarith [hc.1]) (by linarith [hc.2]))
    rcases this with h | h
    · nlinarith [mul_self_pos.2 h, mul_self_nonneg (a.2.2 - a.1.2)]
    · nlinarith [mul_self_pos.2 h, mul_self_nonneg (a.2.1 - a.1.1)]
  by_cases hc : cross (dir a) (b.1.1 - a.1.1, b.1.2 - a.1.2) = 0
  · -- all on one line
    have hc2 : cross (dir a) (b.2.1 - a.1.1, b.2.2 - a.1.2) = 0 := by
      unfold cross dir at *; dsimp only at *; linarith
    have par : ∀ p : Pt, cross (dir a) (p.1 - a.1.1, p.2 - a.1.2) = 0 →
        p = along a (dotp (dir a) (p.1 - a.1.1, p.2 - a.1.2) / dotp (dir a) (dir a)) := by
      intro p hcp
      have e : dotp (dir a) (dir a) ≠ 0 := hd.ne'
      unfold along
      ext
      · dsimp only
        field_simp
        unfold cross dir dotp at *
        dsimp only at *
        linear_combination (-(a.2.2 - a.1.2)) * hcp
      · dsimp only
        field_simp
        unfold cross dir dotp at *
        dsimp only at *
        linear_combination (a.2.1 - a.1.1) * hcp
    set β1 := dotp (dir a) (b.1.1 - a.1.1, b.1.2 - a.1.2) / dotp (dir a) (dir a) with hb1
    set β2 := dotp (dir a) (b.2.1 - a.1.1, b.2.2 - a.1.2) / dotp (dir a) (dir a) with hb2
    have p1 := par b.1 hc
    have p2 := par b.2 hc2
    rw [← hb1] at p1
    rw [← hb2] at p2
    have d1 : dotp (dir a) b.1 = dotp (dir a) a.1 + β1 * dotp (dir a) (dir a) := by
      rw [hb1, div_mul_cancel₀ _ hd.ne']; unfold dotp; dsimp only; ring
    have d2 : dotp (dir a) b.2 = dotp (dir a) a.1 + β2 * dotp (dir a) (dir a) := by
      rw [hb2, div_mul_cancel₀ _ hd.ne']; unfold dotp; dsimp only; ring
    have d3 : dotp (dir a) a.2 = dotp (dir a) a.1 + dotp (dir a) (dir a) := by
      unfold dotp dir; dsimp only; ring
    have n1 : ¬ (0 ≤ β1 ∧ β1 ≤ 1) := fun hc => h b.1 ⟨⟨β1, hc.1, hc.2, p1⟩, onSeg_left b⟩
    have n2 : ¬ (0 ≤ β2 ∧ β2 ≤ 1) := fun hc => h b.2 ⟨⟨β2, hc.1, hc.2, p2⟩, onSeg_right b⟩
    have hcross : ∀ u, β1 + u * (β2 - β1) = 0 → 0 ≤ u → u ≤ 1 → False := by
      intro u hu h0 h1
      refine h a.1 ⟨onSeg_left a, u, h0, h1, ?_⟩
      unfold along
      rw [p1, p2]
      unfold along
      ext
      · dsimp only; linear_combination (-(a.2.1 - a.1.1)) * hu
      · dsimp only; linear_combination (-(a.2.2 - a.1.2)) * hu
    have both : (β1 < 0 ∧ β2 < 0) ∨ (1 < β1 ∧ 1 < β2) := by
      by_cases c1 : β1 < 0
      · by_cases c2 : β2 < 0
        · exact Or.inl ⟨c1, c2⟩
        · exfalso
          have c3 : 0 < β2 - β1 := by linarith
          exact hcross (-β1 / (β2 - β1)) (by field_simp; ring) (div_nonneg (by linarith) c3.le)
            ((div_le_one c3).2 (by linarith))
      · have c1' : 1 < β1 := by by_contra hc'; exact n1 ⟨by linarith, by linarith⟩
        by_cases c2 : β2 < 0
        · exfalso
          have c3 : 0 < β1 - β2 := by linarith
          refine hcross (β1 / (β1 - β2)) (by field_simp; ring) (div_nonneg (by linarith) c3.le)
            ((div_le_one c3).2 (by linarith))
        · exact Or.inr ⟨c1', by by_contra hc'; exact n2 ⟨by linarith, by linarith⟩⟩
    rcases both with ⟨c1, c2⟩ | ⟨c1, c2⟩
    · refine (separated_of b a (dir a) ?_ ?_ ?_ ?_).symm <;> (try rw [d1]) <;> (try rw [d2]) <;> (try rw [d3]) <;>
        nlinarith
    · refine separated_of a b (dir a) ?_ ?_ ?_ ?_ <;> (try rw [d1]) <;> (try rw [d2]) <;> (try rw [d3]) <;>
        nlinarith
  · refine separated_of_side a b ?_
    have : cross (dir a) (b.2.1 - a.1.1, b.2.2 - a.1.2) = cross (dir a) (b.1.1 - a.1.1, b.1.2 - a.1.2) := by
      unfold cross dir at *; dsimp only at *; linarith
    rw [this]
    exact mul_self_pos.2 hc

/-- Two disjoint segments are strictly separated by a linear form. -/
theorem separated (a b : Seg) (h : ∀ x, ¬ (OnSeg a x ∧ OnSeg b x)) : Separated a b := by
  by_cases hp : cross (dir a) (dir b) = 0
  · by_cases ha : a.1 = a.2
    · by_cases hb : b.1 = b.2
      · have hne : a.1 ≠ b.1 := fun hc => h a.1 ⟨onSeg_left a, hc ▸ onSeg_left b⟩
        have hd : 0 < (b.1.1 - a.1.1) * (b.1.1 - a.1.1) + (b.1.2 - a.1.2) * (b.1.2 - a.1.2) := by
          have : b.1.1 - a.1.1 ≠ 0 ∨ b.1.2 - a.1.2 ≠ 0 := by
            by_contra hc
            push Not at hc
            exact hne (Prod.ext (by linarith [hc.1]) (by linarith [hc.2]))
          rcases this with h | h
          · nlinarith [mul_self_pos.2 h, mul_self_nonneg (b.1.2 - a.1.2)]
          · nlinarith [mul_self_pos.2 h, mul_self_nonneg (b.1.1 - a.1.1)]
        refine separated_of a b (b.1.1 - a.1.1, b.1.2 - a.1.2) ?_ ?_ ?_ ?_ <;> (try rw [← ha]) <;>
          (try rw [← hb]) <;> unfold dotp <;> dsimp only <;> nlinarith
      · refine (separated_parallel b a hb ?_ fun x hx => h x ⟨hx.2, hx.1⟩).symm
        unfold cross at *; linarith
    · exact separated_parallel a b ha hp h
  · set D := cross (dir a) (dir b) with hD
    set u := -(cross (dir a) (b.1.1 - a.1.1, b.1.2 - a.1.2)) / D with hu
    set t := -(cross (dir b) (b.1.1 - a.1.1, b.1.2 - a.1.2)) / D with ht
    have eu : u * D = -(cross (dir a) (b.1.1 - a.1.1, b.1.2 - a.1.2)) := div_mul_cancel₀ _ hp
    have et : t * D = -(cross (dir b) (b.1.1 - a.1.1, b.1.2 - a.1.2)) := div_mul_cancel₀ _ hp
    have hpt : along a t = along b u := by
      unfold along
      ext
      · dsimp only
        apply mul_right_cancel₀ hp
        have : (a.1.1 + t * (a.2.1 - a.1.1)) * D = a.1.1 * D + (t * D) * (a.2.1 - a.1.1) := by ring
        rw [this, et]
        have : (b.1.1 + u * (b.2.1 - b.1.1)) * D = b.1.1 * D + (u * D) * (b.2.1 - b.1.1) := by ring
        rw [this, eu, hD]
        unfold cross dir; dsimp only; ring
      · dsimp only
        apply mul_right_cancel₀ hp
        have : (a.1.2 + t * (a.2.2 - a.1.2)) * D = a.1.2 * D + (t * D) * (a.2.2 - a.1.2) := by ring
        rw [this, et]
        have : (b.1.2 + u * (b.2.2 - b.1.2)) * D = b.1.2 * D + (u * D) * (b.2.2 - b.1.2) := by ring
        rw [this, eu, hD]
        unfold cross dir; dsimp only; ring
    have hout : ∀ z : ℚ, ¬ (0 ≤ z ∧ z ≤ 1) → 0 < (-z) * (1 - z) := by
      intro z hz
      by_cases h0 : 0 ≤ z
      · have : 1 < z := by by_contra hc; exact hz ⟨h0, by linarith⟩
        nlinarith
      · nlinarith
    have hD2 : 0 < D * D := mul_self_pos.2 hp
    by_cases hu01 : 0 ≤ u ∧ u ≤ 1
    · have ht01 : ¬ (0 ≤ t ∧ t ≤ 1) := fun hc => h (along a t) ⟨⟨t, hc.1, hc.2, rfl⟩, u, hu01.1, hu01.2, hpt⟩
      refine (separated_of_side b a ?_).symm
      have e1 : cross (dir b) (a.1.1 - b.1.1, a.1.2 - b.1.2) = t * D := by
        rw [et]; unfold cross; dsimp only; ring
      have e2 : cross (dir b) (a.2.1 - b.1.1, a.2.2 - b.1.2) = -((1 - t) * D) := by
        have : (1 - t) * D = D - t * D := by ring
        rw [this, et, hD]; unfold cross dir; dsimp only; ring
      rw [e1, e2]
      nlinarith [mul_pos (hout t ht01) hD2]
    · refine separated_of_side a b ?_
      have e1 : cross (dir a) (b.1.1 - a.1.1, b.1.2 - a.1.2) = -(u * D) := by rw [eu]; ring
      have e2 : cross (dir a) (b.2.1 - a.1.1, b.2.2 - a.1.2) = (1 - u) * D := by
        have : (1 - u) * D = D - u * D := by ring
        rw [this, eu, hD]; unfold cross dir; dsimp only; ring
      rw [e1, e2]
      nlinarith [mul_pos (hout u hu01) hD2]

/-! ### Small displacements -/

theorem small_affine_lt (x y k : ℚ) (h : x < k) : ∀ᶠ ε in 𝓝[>] (0 : ℚ), x + ε * y < k := by
  have hc : ContinuousAt (fun ε : ℚ => x + ε * y) 0 := by fun_prop
  have : ∀ᶠ ε in 𝓝 (0 : ℚ), x + ε * y < k := by
    apply hc.eventually_lt continuousAt_const
    simpa using h
  exact this.filter_mono nhdsWithin_le_nhds

theorem small_pos : ∀ᶠ ε in 𝓝[>] (0 : ℚ), 0 < ε := eventually_mem_nhdsWithin

theorem small_lt (k : ℚ) (h : 0 < k) : ∀ᶠ ε in 𝓝[>] (0 : ℚ), ε < k := by
  filter_upwards [small_affine_lt 0 1 k h] with ε hε
  linarith

theorem small_list {α : Type*} (S : List α) (P : α → ℚ → Prop)
    (h : ∀ s ∈ S, ∀ᶠ ε in 𝓝[>] (0 : ℚ), P s ε) : ∀ᶠ ε in 𝓝[>] (0 : ℚ), ∀ s ∈ S, P s ε := by
  induction S with
  | nil => exact Eventually.of_forall fun _ _ hs => absurd hs List.not_mem_nil
  | cons a S ih =>
    filter_upwards [h a (by simp), ih fun s hs => h s (by simp [hs])] with ε h1 h2 s hs
    rcases List.mem_cons.1 hs with rfl | hs
    · exact h1
    · exact h2 s hs

theorem small_exists {P : ℚ → Prop} (h : ∀ᶠ ε in 𝓝[>] (0 : ℚ), P ε) : ∃ ε, 0 < ε ∧ P ε := by
  obtain ⟨ε, h1, h2⟩ := (small_pos.and h).exists
  exact ⟨ε, h1, h2⟩

/-- A segment moved a little stays away from a segment it is disjoint from. -/
theorem push (a s : Seg) (v v' : Pt) (h : ∀ x, ¬ (OnSeg a x ∧ OnSeg s x)) :
    ∀ᶠ ε in 𝓝[>] (0 : ℚ), ∀ x, OnSeg (a.1 + ε • v, a.2 + ε • v') x → ¬ OnSeg s x := by
  obtain ⟨w, k, h1, h2, h3, h4⟩ := separated a s h
  filter_upwards [small_affine_lt _ (dotp w v) k h1, small_affine_lt _ (dotp w v') k h2] with ε e1 e2 x hx hs
  obtain ⟨t, t0, t1, rfl⟩ := hx
  obtain ⟨u, u0, u1, hu⟩ := hs
  have e3 : dotp w (along (a.1 + ε • v, a.2 + ε • v') t) < k := by
    rw [dotp_along]
    have f1 : dotp w (a.1 + ε • v) = dotp w a.1 + ε * dotp w v := by
      unfold dotp; simp only [Prod.fst_add, Prod.snd_add, Prod.smul_fst, Prod.smul_snd, smul_eq_mul]; ring
    have f2 : dotp w (a.2 + ε • v') = dotp w a.2 + ε * dotp w v' := by
      unfold dotp; simp only [Prod.fst_add, Prod.snd_add, Prod.smul_fst, Prod.smul_snd, smul_eq_mul]; ring
    dsimp only
    rw [f1, f2]
    rcases eq_or_lt_of_le t0 with rfl | t0
    · simpa using e1
    · rcases eq_or_lt_of_le t1 with rfl | t1
      · simpa using e2
      · nlinarith [mul_lt_mul_of_pos_left e1 (show 0 < 1 - t by linarith), mul_lt_mul_of_pos_left e2 t0]
  have e4 : k < dotp w (along s u) := by
    rw [dotp_along]
    rcases eq_or_lt_of_le u0 with rfl | u0
    · simpa using h3
    · rcases eq_or_lt_of_le u1 with rfl | u1
      · simpa using h4
      · nlinarith [mul_lt_mul_of_pos_left h3 (show 0 < 1 - u by linarith), mul_lt_mul_of_pos_left h4 u0]
  rw [hu] at e3
  linarith

end Ply
