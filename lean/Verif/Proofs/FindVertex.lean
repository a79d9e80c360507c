import Verif.Model.Buffer
import Verif.Proofs.Touch
import Verif.Proofs.SheetBuild
import Mathlib.Tactic.IntervalCases

/-! # Finding the vertex of a convex polygon reached first in a direction -/

namespace Ply

theorem ce_emod (C : List Pt) (k : ℤ) : ce C (k % (C.length : ℤ)) = ce C k := by
  unfold ce
  rw [show cv C (k % (C.length : ℤ)) = cv C k from cycGet_emod C k]
  rw [show cv C (k % (C.length : ℤ) + 1) = cv C (k + 1) by
    show cycGet C _ = cycGet C _
    rw [← cycGet_emod C (k % (C.length : ℤ) + 1), Int.emod_add_emod, cycGet_emod]]

theorem ce_congr (C : List Pt) {k l : ℤ} (h : k % (C.length : ℤ) = l % (C.length : ℤ)) : ce C k = ce C l := by
  rw [← ce_emod C k, h, ce_emod]

theorem cv_congr (C : List Pt) {k l : ℤ} (h : k % (C.length : ℤ) = l % (C.length : ℤ)) : cv C k = cv C l := by
  show cycGet C k = cycGet C l
  rw [← cycGet_emod C k, h, cycGet_emod]

/-- Fractional angle of an edge. -/
def fr (C : List Pt) (k : ℤ) : ℚ := ang (ce C k)

/-- What the dictionary of edges holds: angles of edges, each also a turn further and a turn back. -/
structure FrInv (C : List Pt) (m : FrMap) : Prop where
  mem : ∀ x ∈ m, ∃ s : ℤ, -1 ≤ s ∧ s ≤ 1 ∧ x.2 < C.length ∧ x.1 = fr C x.2 + 8 * s
  all : ∀ x ∈ m, ∀ s : ℤ, -1 ≤ s → s ≤ 1 → ∃ y ∈ m, y.1 = fr C x.2 + 8 * s

namespace Conv

variable {C : List Pt} (hC : Conv C)
include hC

theorem fr_range (k : ℤ) : 0 ≤ fr C k ∧ fr C k < 8 := ang_range (hC.ce_ne k)

theorem gap (k : ℤ) : 0 < cw (fr C k) (fr C (k + 1)) ∧ cw (fr C k) (fr C (k + 1)) < 4 :=
  (cross_cw (hC.ce_ne k) (hC.ce_ne (k + 1))).1.1 (hC.strict k)

theorem edgeStarts_spec (E : List (Seg × Nat)) (hE : ∀ x ∈ E, x.2 < C.length ∧ x.1 = (cv C x.2, cv C (x.2 + 1)))
    (m : FrMap) (hm : FrInv C m) :
    ∃ m', edgeStarts E m = .ok m' ∧ FrInv C m' ∧ (∀ x ∈ m, x ∈ m') ∧
      ∀ x ∈ E, ∃ y ∈ m', y.1 = fr C x.2 := by
  induction E generalizing m with
  | nil => exact ⟨m, rfl, hm, fun _ h => h, by simp⟩
  | cons x E ih =>
    obtain ⟨e, i⟩ := x
    obtain ⟨hi, he⟩ := hE (e, i) (by simp)
    dsimp only at hi he
    have hd : e.2 - e.1 = ce C i := by rw [he]; rfl
    rw [edgeStarts, hd, (ang_spec (hC.ce_ne i)).1]
    have hr := hC.fr_range i
    show ∃ m', (if 0 ≤ fr C i then _ else _) = _ ∧ _
    rw [if_pos hr.1]
    by_cases ha : m.any (fun x => decide (x.1 = ang (ce C i)))
    · rw [if_pos ha]
      obtain ⟨m', h1, h2, h3, h4⟩ := ih (fun x hx => hE x (by simp [hx])) m hm
      refine ⟨m', h1, h2, h3, fun x hx => ?_⟩
      rcases List.mem_cons.1 hx with rfl | hx
      · obtain ⟨y, hy, hye⟩ := List.any_eq_true.1 ha
        exact ⟨y, h3 y hy, of_decide_eq_true hye⟩
      · exact h4 x hx
    · rw [if_neg ha]
      have hm' : FrInv C (m ++ [(ang (ce C i), i), (ang (ce C i) + 8, i), (ang (ce C i) - 8, i)]) := by
        constructor
        · intro x hx
          rcases List.mem_append.1 hx with hx | hx
          · exact hm.mem x hx
          · simp only [List.mem_cons, List.not_mem_nil, or_false] at hx
            rcases hx with rfl | rfl | rfl
            · exact ⟨0, by norm_num, by norm_num, hi, by unfold fr; simp⟩
            · exact ⟨1, by norm_num, by norm_num, hi, by unfold fr; simp⟩
            · exact ⟨-1, by norm_num, by norm_num, hi, by unfold fr; push_cast; ring⟩
        · intro x hx s s0 s1
          rcases List.mem_append.1 hx with hx | hx
          · obtain ⟨y, hy, e⟩ := hm.all x hx s s0 s1
            exact ⟨y, List.mem_append_left _ hy, e⟩
          · have hx2 : x.2 = i := by
              simp only [List.mem_cons, List.not_mem_nil, or_false] at hx
              rcases hx with rfl | rfl | rfl <;> rfl
            rw [hx2]
            interval_cases s
            · exact ⟨(ang (ce C i) - 8, i), by simp, by unfold fr; push_cast; ring⟩
            · exact ⟨(ang (ce C i), i), by simp, by unfold fr; simp⟩
            · exact ⟨(ang (ce C i) + 8, i), by simp, by unfold fr; simp⟩
      obtain ⟨m', h1, h2, h3, h4⟩ := ih (fun x hx => hE x (by simp [hx])) _ hm'
      refine ⟨m', h1, h2, fun x hx => h3 x (List.mem_append_left _ hx), fun x hx => ?_⟩
      rcases List.mem_cons.1 hx with rfl | hx
      · exact ⟨_, h3 (ang (ce C i), i) (by simp), rfl⟩
      · exact h4 x hx

end Conv

theorem floorEntry_spec (f : ℚ) (m : FrMap) :
    (floorEntry f m = none ∧ ∀ x ∈ m, ¬ (-8 ≤ x.1 ∧ x.1 ≤ f)) ∨
    ∃ x ∈ m, floorEntry f m = some x ∧ -8 ≤ x.1 ∧ x.1 ≤ f ∧ ∀ y ∈ m, -8 ≤ y.1 → y.1 ≤ f → y.1 ≤ x.1 := by
  induction m with
  | nil => left; exact ⟨rfl, by simp⟩
  | cons a m ih =>
    rw [floorEntry]
    rcases ih with ⟨h, hn⟩ | ⟨x, hx, h, x1, x2, hmax⟩
    · rw [h]
      by_cases hc : -8 ≤ a.1 ∧ a.1 ≤ f
      · right
        refine ⟨a, by simp, by simp [hc], hc.1, hc.2, fun y hy y1 y2 => ?_⟩
        rcases List.mem_cons.1 hy with rfl | hy
        · exact le_rfl
        · exact absurd ⟨y1, y2⟩ (hn y hy)
      · left
        refine ⟨by simp [hc], fun y hy => ?_⟩
        rcases List.mem_cons.1 hy with rfl | hy
        · exact hc
        · exact hn y hy
    · right
      rw [h]
      by_cases hc : -8 ≤ a.1 ∧ a.1 ≤ f ∧ x.1 < a.1
      · refine ⟨a, by simp, by simp [hc], hc.1, hc.2.1, fun y hy y1 y2 => ?_⟩
        rcases List.mem_cons.1 hy with rfl | hy
        · exact le_rfl
        · exact (hmax y hy y1 y2).trans hc.2.2.le
      · refine ⟨x, by simp [hx], by simp [hc], x1, x2, fun y hy y1 y2 => ?_⟩
        rcases List.mem_cons.1 hy with rfl | hy
        · by_contra hk
          push Not at hk
          exact hc ⟨y1, y2, hk⟩
        · exact hmax y hy y1 y2

/-- The dictionary as built by the code. -/
theorem Conv.starts {C : List Pt} (hC : Conv C) : ∃ m, edgeStarts (edgesIter C).zipIdx [] = .ok m ∧ FrInv C m ∧
    ∀ k : ℤ, ∃ y ∈ m, y.1 = fr C k := by
  obtain ⟨m, h1, h2, _, h4⟩ := hC.edgeStarts_spec (edgesIter C).zipIdx (fun x hx => by
    rw [edgesIter_eq] at hx
    obtain ⟨e, i⟩ := x
    have := List.mem_zipIdx hx
    have hi : i < C.length := by
      have := this.2.1
      have hl : (polyEdges C).length = C.length := by cases C <;> simp [polyEdges]
      simpa [hl] using this
    refine ⟨hi, ?_⟩
    have hg := polyEdges_get C i hi
    have h3 := List.mk_mem_zipIdx_iff_getElem?.1 hx
    rw [hg] at h3
    exact (Option.some.inj h3).symm) [] ⟨by simp, by simp⟩
  refine ⟨m, h1, h2, fun k => ?_⟩
  have hn : (0 : ℤ) < C.length := by have := hC.pos; omega
  have k1 := Int.emod_nonneg k hn.ne'
  have k2 := Int.emod_lt_of_pos k hn
  have hlt : (k % (C.length : ℤ)).toNat < C.length := by omega
  have hx : ((cycGet C (k % (C.length : ℤ)).toNat, cycGet C ((k % (C.length : ℤ)).toNat + 1)), (k % (C.length : ℤ)).toNat) ∈
      (edgesIter C).zipIdx := by
    rw [edgesIter_eq]
    rw [List.mk_mem_zipIdx_iff_getElem?]
    exact polyEdges_get C _ hlt
  obtain ⟨y, hy, e⟩ := h4 _ hx
  refine ⟨y, hy, ?_⟩
  rw [e]
  unfold fr
  dsimp only
  rw [Int.toNat_of_nonneg k1, ce_emod]

/-- The vertex found is the one whose edges enclose the direction. -/
theorem Conv.findVertex {C : List Pt} (hC : Conv C) {m : FrMap} (hm : FrInv C m) (hall : ∀ k : ℤ, ∃ y ∈ m, y.1 = fr C k)
    {f : ℚ} (hf : 0 ≤ f ∧ f < 8) :
    ∃ J : ℕ, findVertexOn m C.length f = .ok J ∧ J < C.length ∧ cw (fr C (J - 1)) f < cw (fr C (J - 1)) (fr C J) := by
  have key : ∀ (k : ℤ) (s : ℤ), -1 ≤ s → s ≤ 1 → ∃ y ∈ m, y.1 = fr C k + 8 * s := by
    intro k s s0 s1
    obtain ⟨x, hx, e⟩ := hall k
    obtain ⟨s', a, b, c, d⟩ := hm.mem x hx
    obtain ⟨y, hy, e'⟩ := hm.all x hx s s0 s1
    have r1 := hC.fr_range k
    have r2 := hC.fr_range x.2
    have : s' = 0 := by
      have h1 : (8 * s' : ℚ) < 8 := by linarith
      have h2 : (-8 : ℚ) < 8 * s' := by linarith
      have h1' : (s' : ℚ) < 1 := by linarith
      have h2' : (-1 : ℚ) < s' := by linarith
      have h1'' : s' < 1 := by exact_mod_cast h1'
      have h2'' : -1 < s' := by exact_mod_cast h2'
      omega
    subst this
    refine ⟨y, hy, ?_⟩
    rw [e', ← e, d]; push_cast; ring
  rcases floorEntry_spec f m with ⟨_, hn⟩ | ⟨x, hx, hfl, x1, x2, hmax⟩
  · exfalso
    obtain ⟨y, hy, e⟩ := key 0 (-1) le_rfl (by norm_num)
    have r := hC.fr_range 0
    push_cast at e
    exact hn y hy ⟨by linarith, by linarith [hf.1]⟩
  · obtain ⟨s, s0, s1, hi, hxe⟩ := hm.mem x hx
    unfold findVertexOn
    rw [hfl]
    refine ⟨(x.2 + 1) % C.length, rfl, Nat.mod_lt _ hC.pos, ?_⟩
    have e1 : fr C (((x.2 + 1) % C.length : ℕ) - 1) = fr C x.2 := by
      unfold fr
      congr 1
      apply ce_congr
      push_cast
      rw [Int.emod_sub_emod]; congr 1; ring
    have e2 : fr C ((x.2 + 1) % C.length : ℕ) = fr C (x.2 + 1) := by
      unfold fr
      congr 1
      apply ce_congr
      push_cast
      rw [Int.emod_emod]
    rw [e1, e2]
    set i : ℤ := ((x.2 : ℕ) : ℤ)
    have r := hC.fr_range i
    have r' := hC.fr_range (i + 1)
    obtain ⟨g0, g4⟩ := hC.gap i
    have hs0 : s ≤ 0 := by
      by_contra hc
      have h1 : (1 : ℚ) ≤ s := by exact_mod_cast (by omega : 1 ≤ s)
      linarith [hf.2]
    have hg : fr C (i + 1) = fr C i + cw (fr C i) (fr C (i + 1)) ∨
        fr C (i + 1) = fr C i + cw (fr C i) (fr C (i + 1)) - 8 := by
      unfold cw
      split_ifs
      · left; ring
      · right; ring
    have hlt : f < fr C i + 8 * s + cw (fr C i) (fr C (i + 1)) := by
      by_contra hc
      push Not at hc
      rcases hg with h | h
      · obtain ⟨y, hy, e⟩ := key (i + 1) s s0 s1
        have := hmax y hy (by linarith) (by linarith)
        linarith
      · obtain ⟨y, hy, e⟩ := key (i + 1) (s + 1) (by omega) (by omega)
        push_cast at e
        have := hmax y hy (by linarith) (by linarith)
        linarith
    have hs : s = 0 ∨ s = -1 := by omega
    rcases hs with rfl | rfl
    · push_cast at *
      have : cw (fr C i) f = f - fr C i := by unfold cw; rw [if_pos (by linarith)]
      rw [this]; linarith
    · push_cast at *
      have hlt' : f < fr C i := by
        by_contra hc
        push Not at hc
        obtain ⟨y, hy, e⟩ := key i 0 (by norm_num) (by norm_num)
        push_cast at e
        have := hmax y hy (by linarith) (by linarith)
        linarith
      have : cw (fr C i) f = f - fr C i + 8 := by unfold cw; rw [if_neg (by linarith)]
      rw [this]; linarith

theorem cw_add {a b c : ℚ} (ha : 0 ≤ a ∧ a < 8) (hb : 0 ≤ b ∧ b < 8) (hc : 0 ≤ c ∧ c < 8) (h1 : cw a b < 4)
    (h2 : cw b c < 4) : cw a c = cw a b + cw b c := by
  obtain ⟨a0, a8⟩ := ha
  obtain ⟨b0, b8⟩ := hb
  obtain ⟨c0, c8⟩ := hc
  unfold cw at *
  split_ifs at * <;> linarith

section

variable {C : List Pt} (hC : Conv C)
include hC

/-- Position relative to a base position. -/
theorem exists_offset (b k : ℤ) : ∃ j : ℕ, j < C.length ∧ (b + j) % (C.length : ℤ) = k % (C.length : ℤ) := by
  have hn : (0 : ℤ) < C.length := by have := hC.pos; omega
  have h1 := Int.emod_nonneg (k - b) hn.ne'
  have h2 := Int.emod_lt_of_pos (k - b) hn
  refine ⟨((k - b) % C.length).toNat, by omega, ?_⟩
  rw [Int.toNat_of_nonneg h1, Int.add_emod_emod, add_sub_cancel]

omit hC in
theorem fr_congr {k l : ℤ} (h : k % (C.length : ℤ) = l % (C.length : ℤ)) : fr C k = fr C l := by
  unfold fr; rw [ce_congr C h]

/-- A direction is enclosed by the edges of one vertex only. -/
theorem cone_unique {J J' : ℤ} {f : ℚ} (hf : 0 ≤ f ∧ f < 8)
    (h : cw (fr C (J - 1)) f < cw (fr C (J - 1)) (fr C J))
    (h' : cw (fr C (J' - 1)) f < cw (fr C (J' - 1)) (fr C J')) : J % (C.length : ℤ) = J' % (C.length : ℤ) := by
  obtain ⟨j, hj, e⟩ := exists_offset hC J J'
  rcases Nat.eq_zero_or_pos j with h0 | hpos
  · rw [h0] at e; simpa using e
  exfalso
  have e' : (J - 1 + j) % (C.length : ℤ) = (J' - 1) % (C.length : ℤ) := by
    rw [show J - 1 + (j : ℤ) = J + j - 1 by ring, Int.sub_emod, e, ← Int.sub_emod]
  have f1 : fr C (J' - 1) = fr C (J - 1 + j) := fr_congr e'.symm
  have f2 : fr C J' = fr C (J + j) := fr_congr e.symm
  rw [f1, f2] at h'
  have rb := hC.fr_range (J - 1)
  have r1 := hC.fr_range (J - 1 + j)
  have r2 := hC.fr_range (J + j)
  have o1 := hC.order (J - 1) 1 (j + 0)
  -- offsets from the base `J - 1`
  have F1 : cw (fr C (J - 1)) (fr C J) ≤ cw (fr C (J - 1)) (fr C (J - 1 + j)) := by
    rcases Nat.lt_or_ge 1 j with h1 | h1
    · have := hC.order (J - 1) 1 j h1 hj
      push_cast at this
      rw [sub_add_cancel] at this
      exact this.le
    · have : j = 1 := by omega
      subst this
      push_cast
      rw [sub_add_cancel]
  have t1 : cw (fr C (J - 1 + j)) f = cw (fr C (J - 1)) f - cw (fr C (J - 1)) (fr C (J - 1 + j)) + 8 := by
    rw [cw_turn rb r1 hf]
    generalize cw (fr C (J - 1)) f = X at *
    generalize cw (fr C (J - 1)) (fr C (J - 1 + j)) = Y at *
    unfold cw
    rw [if_neg (by linarith)]
  have t2 : cw (fr C (J - 1 + j)) (fr C (J + j)) ≤ 8 - cw (fr C (J - 1)) (fr C (J - 1 + j)) := by
    have hr := cw_range rb r1
    have hr2 := cw_range rb r2
    rw [cw_turn rb r1 r2]
    rcases Nat.lt_or_ge (j + 1) C.length with h1 | h1
    · have := hC.order (J - 1) j (j + 1) (by omega) h1
      push_cast at this
      rw [show J - 1 + ((j : ℤ) + 1) = J + j by ring] at this
      have this' : cw (fr C (J - 1)) (fr C (J - 1 + j)) < cw (fr C (J - 1)) (fr C (J + j)) := this
      generalize cw (fr C (J - 1)) (fr C (J - 1 + j)) = Y at *
      generalize cw (fr C (J - 1)) (fr C (J + j)) = Z at *
      unfold cw
      rw [if_pos this'.le]
      linarith [hr2.2]
    · have hz : cw (fr C (J - 1)) (fr C (J + j)) = 0 := by
        rw [cw_eq_zero rb r2]
        apply fr_congr
        have : (C.length : ℤ) = j + 1 := by omega
        rw [show J + (j : ℤ) = J - 1 + C.length by rw [this]; ring, Int.add_emod_right]
      rw [hz]
      have : cw (cw (fr C (J - 1)) (fr C (J - 1 + j))) 0 ≤ 8 - cw (fr C (J - 1)) (fr C (J - 1 + j)) := by
        generalize cw (fr C (J - 1)) (fr C (J - 1 + j)) = Y at *
        unfold cw
        split_ifs <;> linarith [hr.1]
      exact this
  have := (cw_range rb hf).1
  linarith

/-- The edges with angles between two directions are found between the vertices of the directions. -/
theorem edges_between {A B j : ℤ} {f g : ℚ} (hf : 0 ≤ f ∧ f < 8) (hg : 0 ≤ g ∧ g < 8)
    (hA : cw (fr C (A - 1)) f < cw (fr C (A - 1)) (fr C A)) (hB : cw (fr C (B - 1)) g < cw (fr C (B - 1)) (fr C B))
    (h4 : cw f g < 4) (h0 : 0 < cw f (fr C j)) (h1 : cw f (fr C j) ≤ cw f g) :
    ∃ i m : ℕ, i < m ∧ m < C.length ∧ (A + i) % (C.length : ℤ) = j % (C.length : ℤ) ∧
      (A + m) % (C.length : ℤ) = B % (C.length : ℤ) := by
  obtain ⟨m, hm, eB⟩ := exists_offset hC A B
  obtain ⟨l, hl, ej⟩ := exists_offset hC (A - 1) j
  have rb := hC.fr_range (A - 1)
  have rA := hC.fr_range A
  have rj := hC.fr_range j
  have gp := hC.gap (A - 1)
  rw [sub_add_cancel] at gp
  -- offsets from the base `A - 1`
  have eF := cw_add rb hf rj (hA.trans gp.2) (h1.trans_lt h4)
  have eG := cw_add rb hf hg (hA.trans gp.2) h4
  have hl0 : l ≠ 0 := by
    rintro rfl
    have : fr C j = fr C (A - 1) := fr_congr (by rw [← ej]; simp)
    rw [this] at h0
    rw [this, cw_self] at eF
    linarith [(cw_range rb hf).1]
  refine ⟨l - 1, m, ?_, hm, ?_, eB⟩
  · by_contra hc
    have hlm : m < l := by omega
    have fB1 : fr C (B - 1) = fr C (A - 1 + m) := fr_congr (by
      rw [show A - 1 + (m : ℤ) = A + m - 1 by ring, Int.sub_emod (A + m), eB, ← Int.sub_emod])
    have fB : fr C B = fr C (A - 1 + (m + 1 : ℕ)) := fr_congr (by
      rw [← eB]; congr 1; push_cast; ring)
    have fj : fr C j = fr C (A - 1 + l) := fr_congr ej.symm
    rw [fB1, fB] at hB
    have rm := hC.fr_range (A - 1 + m)
    have rm1 := hC.fr_range (A - 1 + (m + 1 : ℕ))
    have o1 : cw (fr C (A - 1)) (fr C (A - 1 + m)) < cw (fr C (A - 1)) (fr C (A - 1 + (m + 1 : ℕ))) :=
      hC.order (A - 1) m (m + 1) (by omega) (by omega)
    have o2 : cw (fr C (A - 1)) (fr C (A - 1 + (m + 1 : ℕ))) ≤ cw (fr C (A - 1)) (fr C j) := by
      rw [fj]
      rcases Nat.lt_or_ge (m + 1) l with h | h
      · exact (hC.order (A - 1) (m + 1) l h hl).le
      · have : m + 1 = l := by omega
        rw [this]
    rw [cw_turn rb rm hg, cw_turn rb rm rm1] at hB
    rw [eF] at o2
    have r8 := cw_range rb hg
    have r9 := cw_range rb rm1
    have hge : cw (fr C (A - 1)) (fr C (A - 1 + (m + 1 : ℕ))) ≤ cw (fr C (A - 1)) g := by rw [eG]; linarith
    generalize cw (fr C (A - 1)) (fr C (A - 1 + (m + 1 : ℕ))) = Y at *
    generalize cw (fr C (A - 1)) (fr C (A - 1 + m)) = Z at *
    generalize cw (fr C (A - 1)) g = G at *
    unfold cw at hB
    rw [if_pos (by linarith), if_pos (by linarith)] at hB
    linarith
  · rw [← ej]
    congr 1
    have : ((l - 1 : ℕ) : ℤ) = l - 1 := by omega
    rw [this]; ring

end

end Ply
