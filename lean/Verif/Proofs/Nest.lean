import Mathlib.Algebra.Order.BigOperators.Group.Finset
import Mathlib.Algebra.BigOperators.Group.Finset.Basic
import Mathlib.Algebra.BigOperators.Ring.Finset
import Mathlib.Data.Int.Cast.Lemmas
import Mathlib.Tactic.Linarith
import Mathlib.Tactic.Ring

/-!
# Nesting of the cells of a drawing in the plane

`w a b` is the winding number of the cell `a` around the points just inside the cell `b`.
-/

namespace Ply.Nest

open Finset Classical

variable {C : Type*}

/-- What winding numbers of cells satisfy.  `conn` says that two cells belong to the same connected part of
the drawing; a cell is positive if it winds around its own points. -/
structure Nested (S : Finset C) (w : C → C → ℤ) (conn : C → C → Prop) (pos : C → Prop) : Prop where
  refl : ∀ a ∈ S, conn a a
  symm : ∀ a ∈ S, ∀ b ∈ S, conn a b → conn b a
  trans : ∀ a ∈ S, ∀ b ∈ S, ∀ c ∈ S, conn a b → conn b c → conn a c
  own : ∀ a ∈ S, w a a = if pos a then -1 else 0
  values : ∀ a ∈ S, ∀ b ∈ S, w a b = w a a ∨ w a b = w a a + 1
  same : ∀ a ∈ S, ∀ b ∈ S, conn a b → a ≠ b → w a b = w a a + 1
  other : ∀ a ∈ S, ∀ b ∈ S, ∀ c ∈ S, ¬ conn a b → conn b c → w a b = w a c
  sum : ∀ b ∈ S, ∀ c ∈ S, ∑ a ∈ S with conn c a, w a b = 0
  all : ∀ b ∈ S, ∑ a ∈ S, w a b = 0
  escape : ∀ a ∈ S, ∀ a' ∈ S, ∀ b ∈ S, ∀ f : ℤ → ℤ → Prop, f (w a b) (w a' b) → ¬ f 0 0 →
    ∃ b1 ∈ S, ∃ b2 ∈ S, conn b1 b2 ∧ f (w a b1) (w a' b1) ∧ ¬ f (w a b2) (w a' b2)

variable {S : Finset C} {w : C → C → ℤ} {conn : C → C → Prop} {pos : C → Prop}

theorem Nested.pos_value (N : Nested S w conn pos) {a b : C} (ha : a ∈ S) (hb : b ∈ S) (hp : pos a) :
    w a b = -1 ∨ w a b = 0 := by
  have := N.values a ha b hb
  rw [N.own a ha, if_pos hp] at this
  simpa using this

theorem Nested.neg_value (N : Nested S w conn pos) {a b : C} (ha : a ∈ S) (hb : b ∈ S) (hp : ¬ pos a) :
    w a b = 0 ∨ w a b = 1 := by
  have := N.values a ha b hb
  rw [N.own a ha, if_neg hp] at this
  simpa using this

/-- Every connected part has exactly one negative cell. -/
theorem Nested.negative (N : Nested S w conn pos) {b : C} (hb : b ∈ S) :
    ∃ n ∈ S, conn b n ∧ ¬ pos n ∧ ∀ m ∈ S, conn b m → ¬ pos m → m = n := by
  have hs := N.sum b hb b hb
  have hbm : b ∈ S.filter fun a => conn b a := mem_filter.2 ⟨hb, N.refl b hb⟩
  rw [← Finset.add_sum_erase _ _ hbm] at hs
  have hw : ∀ a ∈ (S.filter fun a => conn b a).erase b, w a b = if pos a then 0 else 1 := by
    intro a ha
    obtain ⟨h1, h2⟩ := mem_erase.1 ha
    obtain ⟨h2, h3⟩ := mem_filter.1 h2
    rw [N.same a h2 b hb (N.symm b hb a h2 h3) h1, N.own a h2]
    split_ifs <;> rfl
  rw [Finset.sum_congr rfl hw, N.own b hb] at hs
  have hcard : (∑ a ∈ (S.filter fun a => conn b a).erase b, (if pos a then (0 : ℤ) else 1)) =
      ((((S.filter fun a => conn b a).erase b).filter fun a => ¬ pos a).card : ℤ) := by
    rw [Finset.card_filter]
    push_cast
    refine Finset.sum_congr rfl fun a _ => ?_
    by_cases h : pos a <;> simp [h]
  rw [hcard] at hs
  by_cases hp : pos b
  · rw [if_pos hp] at hs
    have h1 : ((((S.filter fun a => conn b a).erase b).filter fun a => ¬ pos a).card) = 1 := by omega
    obtain ⟨n, hn⟩ := Finset.card_eq_one.1 h1
    have hnm : n ∈ (((S.filter fun a => conn b a).erase b).filter fun a => ¬ pos a) := by rw [hn]; exact mem_singleton_self _
    simp only [mem_filter, mem_erase] at hnm
    refine ⟨n, hnm.1.2.1, hnm.1.2.2, hnm.2, fun m hm hc hmp => ?_⟩
    have : m ∈ (((S.filter fun a => conn b a).erase b).filter fun a => ¬ pos a) := by
      simp only [mem_filter, mem_erase]
      exact ⟨⟨fun h => hmp (h ▸ hp), hm, hc⟩, hmp⟩
    rw [hn] at this
    exact mem_singleton.1 this
  · rw [if_neg hp] at hs
    have h1 : ((((S.filter fun a => conn b a).erase b).filter fun a => ¬ pos a).card) = 0 := by omega
    refine ⟨b, hb, N.refl b hb, hp, fun m hm hc hmp => ?_⟩
    by_contra hne
    have : m ∈ (((S.filter fun a => conn b a).erase b).filter fun a => ¬ pos a) := by
      simp only [mem_filter, mem_erase]
      exact ⟨⟨hne, hm, hc⟩, hmp⟩
    rw [Finset.card_eq_zero.1 h1] at this
    exact absurd this (Finset.notMem_empty _)

/-- The negative cells of the other parts that wind around `b`. -/
noncomputable def enc (S : Finset C) (w : C → C → ℤ) (conn : C → C → Prop) (pos : C → Prop) (b : C) : Finset C :=
  S.filter fun n => ¬ pos n ∧ ¬ conn n b ∧ w n b = 1

theorem mem_enc {n b : C} : n ∈ enc S w conn pos b ↔ n ∈ S ∧ ¬ pos n ∧ ¬ conn n b ∧ w n b = 1 := by
  unfold enc; rw [mem_filter]

theorem Nested.enc_conn (N : Nested S w conn pos) {b c : C} (hb : b ∈ S) (hc : c ∈ S) (h : conn b c) :
    enc S w conn pos b = enc S w conn pos c := by
  have key : ∀ b c, b ∈ S → c ∈ S → conn b c → enc S w conn pos b ⊆ enc S w conn pos c := by
    intro b c hb hc h n hn
    obtain ⟨h1, h2, h3, h4⟩ := mem_enc.1 hn
    refine mem_enc.2 ⟨h1, h2, fun h' => h3 (N.trans n h1 c hc b hb h' (N.symm b hb c hc h)), ?_⟩
    rw [← N.other n h1 b hb c hc h3 h]; exact h4
  exact (key b c hb hc h).antisymm (key c b hc hb (N.symm b hb c hc h))

theorem Nested.not_mutual (N : Nested S w conn pos) {a b : C} (hb : b ∈ S) (h1 : a ∈ enc S w conn pos b)
    (h2 : b ∈ enc S w conn pos a) : False := by
  obtain ⟨ha, a1, a2, a3⟩ := mem_enc.1 h1
  obtain ⟨_, b1, b2, b3⟩ := mem_enc.1 h2
  obtain ⟨x, hx, y, hy, hxy, f1, f2⟩ := N.escape a ha b hb b hb (fun x y => x = 1 ∨ y = 1) (Or.inl a3) (by simp)
  apply f2
  by_cases c1 : conn y a
  · right
    rw [N.other b hb y hy a ha (fun h => b2 (N.trans b hb y hy a ha h c1)) c1]; exact b3
  · by_cases c2 : conn y b
    · left
      rw [N.other a ha y hy b hb (fun h => a2 (N.trans a ha y hy b hb h c2)) c2]; exact a3
    · have d1 : ¬ conn a x := fun h => c1 (N.symm a ha y hy (N.trans a ha x hx y hy h hxy))
      have d2 : ¬ conn b x := fun h => c2 (N.symm b hb y hy (N.trans b hb x hx y hy h hxy))
      rw [← N.other a ha x hx y hy d1 hxy, ← N.other b hb x hx y hy d2 hxy]
      exact f1

theorem Nested.enc_trans (N : Nested S w conn pos) {a b c : C} (hc : c ∈ S) (h1 : b ∈ enc S w conn pos c)
    (h2 : a ∈ enc S w conn pos b) : a ∈ enc S w conn pos c := by
  obtain ⟨hb, b1, b2, b3⟩ := mem_enc.1 h1
  obtain ⟨ha, a1, a2, a3⟩ := mem_enc.1 h2
  have hac : ¬ conn a c := by
    intro h
    rw [← N.enc_conn ha hc h] at h1
    exact N.not_mutual hb h2 h1
  refine mem_enc.2 ⟨ha, a1, hac, ?_⟩
  rcases N.neg_value ha hc a1 with h0 | h0
  swap
  · exact h0
  exfalso
  obtain ⟨x, hx, y, hy, hxy, ⟨f1, f1'⟩, f2⟩ := N.escape b hb a ha c hc (fun x y => x = 1 ∧ y = 0) ⟨b3, h0⟩ (by simp)
  by_cases c1 : conn b x
  · have c1' := N.symm b hb x hx c1
    rw [N.other a ha x hx b hb (fun h => a2 (N.trans a ha x hx b hb h c1')) c1', a3] at f1'
    exact one_ne_zero f1'
  · by_cases c2 : conn a x
    · have c2' := N.symm a ha x hx c2
      rw [N.other b hb x hx a ha c1 c2'] at f1
      exact N.not_mutual hb h2 (mem_enc.2 ⟨hb, b1, fun h => a2 (N.symm b hb a ha h), f1⟩)
    · apply f2
      rw [← N.other b hb x hx y hy c1 hxy, ← N.other a ha x hx y hy c2 hxy]
      exact ⟨f1, f1'⟩

theorem Nested.enc_chain (N : Nested S w conn pos) {a b c : C} (hc : c ∈ S) (h1 : a ∈ enc S w conn pos c)
    (h2 : b ∈ enc S w conn pos c) (hab : a ≠ b) : a ∈ enc S w conn pos b ∨ b ∈ enc S w conn pos a := by
  obtain ⟨ha, a1, a2, a3⟩ := mem_enc.1 h1
  obtain ⟨hb, b1, b2, b3⟩ := mem_enc.1 h2
  have hn : ¬ conn a b := by
    intro h
    obtain ⟨n, hn, n1, n2, n3⟩ := N.negative ha
    exact hab ((n3 a ha (N.refl a ha) a1).trans (n3 b hb h b1).symm)
  have hn' : ¬ conn b a := fun h => hn (N.symm b hb a ha h)
  obtain ⟨x, hx, y, hy, hxy, ⟨f1, f1'⟩, f2⟩ := N.escape a ha b hb c hc (fun x y => x = 1 ∧ y = 1) ⟨a3, b3⟩ (by simp)
  by_cases c1 : conn a x
  · have c1' := N.symm a ha x hx c1
    rw [N.other b hb x hx a ha (fun h => hn' (N.trans b hb x hx a ha h c1')) c1'] at f1'
    exact Or.inr (mem_enc.2 ⟨hb, b1, hn', f1'⟩)
  · by_cases c2 : conn b x
    · have c2' := N.symm b hb x hx c2
      rw [N.other a ha x hx b hb c1 c2'] at f1
      exact Or.inl (mem_enc.2 ⟨ha, a1, hn, f1⟩)
    · exfalso
      apply f2
      rw [← N.other a ha x hx y hy c1 hxy, ← N.other b hb x hx y hy c2 hxy]
      exact ⟨f1, f1'⟩

/-- A cell of another part that winds around `b`: the negative cell of its part does so, too. -/
theorem Nested.pos_enc (N : Nested S w conn pos) {a b : C} (ha : a ∈ S) (hb : b ∈ S) (hn : ¬ conn a b)
    (hw : w a b ≠ 0) : ∃ n ∈ enc S w conn pos b, conn a n := by
  obtain ⟨n, hnS, n1, n2, n3⟩ := N.negative ha
  refine ⟨n, mem_enc.2 ⟨hnS, n2, fun h => hn (N.trans a ha n hnS b hb n1 h), ?_⟩, n1⟩
  rcases N.neg_value hnS hb n2 with h | h
  swap
  · exact h
  exfalso
  have hs := N.sum b hb a ha
  have hle : ∀ x ∈ S.filter fun x => conn a x, w x b ≤ 0 := by
    intro x hx
    obtain ⟨x1, x2⟩ := mem_filter.1 hx
    by_cases hxp : pos x
    · rcases N.pos_value x1 hb hxp with e | e <;> rw [e]
      norm_num
    · rw [n3 x x1 x2 hxp, h]
  have := (Finset.sum_eq_zero_iff_of_nonpos hle).1 hs a (mem_filter.2 ⟨ha, N.refl a ha⟩)
  exact hw this

/-- If the negative cell of another part winds around `b`, a positive one of this part does so, too. -/
theorem Nested.enc_pos (N : Nested S w conn pos) {n b : C} (hb : b ∈ S) (h : n ∈ enc S w conn pos b) :
    ∃ a ∈ S, pos a ∧ conn n a ∧ w a b = -1 := by
  obtain ⟨hn, h1, h2, h3⟩ := mem_enc.1 h
  by_contra hc
  push Not at hc
  have hs := N.sum b hb n hn
  have hge : ∀ x ∈ S.filter fun x => conn n x, 0 ≤ w x b := by
    intro x hx
    obtain ⟨x1, x2⟩ := mem_filter.1 hx
    by_cases hxp : pos x
    · rcases N.pos_value x1 hb hxp with e | e
      · exact absurd e (hc x x1 hxp x2)
      · rw [e]
    · rcases N.neg_value x1 hb hxp with e | e <;> rw [e]
      norm_num
  have := (Finset.sum_eq_zero_iff_of_nonneg hge).1 hs n (mem_filter.2 ⟨hn, N.refl n hn⟩)
  omega

/-- The positive cells, other than `b`, that wind around `b`. -/
noncomputable def above (S : Finset C) (w : C → C → ℤ) (pos : C → Prop) (b : C) : Finset C :=
  S.filter fun a => pos a ∧ a ≠ b ∧ w a b ≠ 0

theorem mem_above {a b : C} : a ∈ above S w pos b ↔ a ∈ S ∧ pos a ∧ a ≠ b ∧ w a b ≠ 0 := by
  unfold above; rw [mem_filter]

theorem Nested.card_above (N : Nested S w conn pos) {b : C} (hb : b ∈ S) :
    (above S w pos b).card = (enc S w conn pos b).card := by
  have h1 := N.all b hb
  have h2 := N.sum b hb b hb
  have h3 : ∑ a ∈ S with ¬ conn b a, w a b = 0 := by
    have := Finset.sum_filter_add_sum_filter_not S (fun a => conn b a) (fun a => w a b)
    linarith
  have e1 : ∀ a ∈ S.filter (fun a => ¬ conn b a), w a b = (if a ∈ enc S w conn pos b then (1 : ℤ) else 0) -
      (if a ∈ above S w pos b then 1 else 0) := by
    intro a ha
    obtain ⟨a1, a2⟩ := mem_filter.1 ha
    have a3 : ¬ conn a b := fun h => a2 (N.symm a a1 b hb h)
    have a4 : a ≠ b := fun h => a2 (h ▸ N.refl b hb)
    by_cases hp : pos a
    · have : a ∉ enc S w conn pos b := fun h => (mem_enc.1 h).2.1 hp
      rw [if_neg this]
      rcases N.pos_value a1 hb hp with e | e
      · rw [if_pos (show a ∈ above S w pos b from mem_filter.2 ⟨a1, hp, a4, by rw [e]; norm_num⟩), e]; norm_num
      · rw [if_neg (fun h => (mem_filter.1 h).2.2.2 e), e]; norm_num
    · have : a ∉ above S w pos b := fun h => hp (mem_filter.1 h).2.1
      rw [if_neg this]
      rcases N.neg_value a1 hb hp with e | e
      · rw [if_neg (fun h => by have := (mem_enc.1 h).2.2.2; omega), e]; norm_num
      · rw [if_pos (mem_enc.2 ⟨a1, hp, a3, e⟩), e]; norm_num
  rw [Finset.sum_congr rfl e1, Finset.sum_sub_distrib, Finset.sum_ite_mem, Finset.sum_ite_mem] at h3
  have i1 : S.filter (fun a => ¬ conn b a) ∩ enc S w conn pos b = enc S w conn pos b := by
    refine Finset.inter_eq_right.2 fun n hn => ?_
    obtain ⟨a1, a2, a3, a4⟩ := mem_enc.1 hn
    exact mem_filter.2 ⟨a1, fun h => a3 (N.symm b hb n a1 h)⟩
  have i2 : S.filter (fun a => ¬ conn b a) ∩ above S w pos b = above S w pos b := by
    refine Finset.inter_eq_right.2 fun n hn => ?_
    obtain ⟨a1, a2, a3, a4⟩ := mem_filter.1 hn
    refine mem_filter.2 ⟨a1, fun h => a4 ?_⟩
    rw [N.same n a1 b hb (N.symm b hb n a1 h) a3, N.own n a1, if_pos a2]; norm_num
  rw [i1, i2] at h3
  simp only [sum_const, nsmul_eq_mul, mul_one] at h3
  omega

/-- The degree of a cell as the code computes it. -/
noncomputable def degree (S : Finset C) (w : C → C → ℤ) (pos : C → Prop) (b : C) : ℕ :=
  2 * (above S w pos b).card + if pos b then 1 else 0

theorem Nested.enc_lt (N : Nested S w conn pos) {n b : C} (hb : b ∈ S) (h : n ∈ enc S w conn pos b) :
    (enc S w conn pos n).card < (enc S w conn pos b).card := by
  refine Finset.card_lt_card ⟨fun m hm => N.enc_trans hb h hm, fun hs => ?_⟩
  have hn := (mem_enc.1 h).1
  exact (mem_enc.1 (hs h)).2.2.1 (N.refl n hn)

/-- Every container of a cell has a smaller degree, -/
theorem Nested.degree_lt (N : Nested S w conn pos) {a b : C} (ha : a ∈ S) (hb : b ∈ S) (hab : a ≠ b) (hw : w a b ≠ 0) :
    degree S w pos a + 1 ≤ degree S w pos b := by
  unfold degree
  rw [N.card_above ha, N.card_above hb]
  by_cases hc : conn a b
  · have e := N.same a ha b hb hc hab
    rw [N.own a ha] at e
    have hp : ¬ pos a := by
      intro hp
      rw [if_pos hp] at e
      exact hw (by rw [e]; norm_num)
    have hpb : pos b := by
      by_contra hpb
      obtain ⟨n, hn, n1, n2, n3⟩ := N.negative ha
      exact hab ((n3 a ha (N.refl a ha) hp).trans (n3 b hb hc hpb).symm)
    rw [if_neg hp, if_pos hpb, N.enc_conn ha hb hc]
  · obtain ⟨n, hn, hcn⟩ : ∃ n ∈ enc S w conn pos b, conn a n := by
      by_cases hp : pos a
      · exact N.pos_enc ha hb hc hw
      · exact ⟨a, mem_enc.2 ⟨ha, hp, hc, (N.neg_value ha hb hp).resolve_left hw⟩, N.refl a ha⟩
    rw [N.enc_conn ha (mem_enc.1 hn).1 hcn]
    have := N.enc_lt hb hn
    split_ifs <;> omega

/-- and one of them has the degree just below. -/
theorem Nested.degree_eq (N : Nested S w conn pos) {a b : C} (ha : a ∈ S) (hb : b ∈ S) (hab : a ≠ b) (hw : w a b ≠ 0) :
    ∃ c ∈ S, c ≠ b ∧ w c b ≠ 0 ∧ degree S w pos c + 1 = degree S w pos b := by
  by_cases hp : pos b
  · obtain ⟨n, hn, n1, n2, n3⟩ := N.negative hb
    have hne : n ≠ b := fun h => n2 (h ▸ hp)
    refine ⟨n, hn, hne, ?_, ?_⟩
    · rw [N.same n hn b hb (N.symm b hb n hn n1) hne, N.own n hn, if_neg n2]; norm_num
    · unfold degree
      rw [N.card_above hn, N.card_above hb, if_neg n2, if_pos hp, N.enc_conn hb hn n1]
  · have hne : (enc S w conn pos b).Nonempty := by
      by_cases hc : conn a b
      · exfalso
        have e := N.same a ha b hb hc hab
        rw [N.own a ha] at e
        by_cases hpa : pos a
        · rw [if_pos hpa] at e
          exact hw (by rw [e]; norm_num)
        · obtain ⟨n, hn, n1, n2, n3⟩ := N.negative ha
          exact hab ((n3 a ha (N.refl a ha) hpa).trans (n3 b hb hc hp).symm)
      · by_cases hpa : pos a
        · obtain ⟨n, hn, _⟩ := N.pos_enc ha hb hc hw
          exact ⟨n, hn⟩
        · exact ⟨a, mem_enc.2 ⟨ha, hpa, hc, (N.neg_value ha hb hpa).resolve_left hw⟩⟩
    obtain ⟨n, hn, hmax⟩ := Finset.exists_max_image _ (fun n => (enc S w conn pos n).card) hne
    obtain ⟨c, hc, c1, c2, c3⟩ := N.enc_pos hb hn
    refine ⟨c, hc, fun h => hp (h ▸ c1), by rw [c3]; norm_num, ?_⟩
    unfold degree
    rw [N.card_above hc, N.card_above hb, if_neg hp, if_pos c1, ← N.enc_conn (mem_enc.1 hn).1 hc c2]
    have hle : (enc S w conn pos b).card ≤ (enc S w conn pos n).card + 1 := by
      have : enc S w conn pos b ⊆ insert n (enc S w conn pos n) := by
        intro m hm
        by_cases hmn : m = n
        · rw [hmn]; exact Finset.mem_insert_self _ _
        · refine Finset.mem_insert_of_mem ?_
          rcases N.enc_chain hb hm hn hmn with h | h
          · exact h
          · have h1 := hmax m hm
            have h2 := N.enc_lt (mem_enc.1 hm).1 h
            omega
      exact (Finset.card_le_card this).trans (Finset.card_insert_le _ _)
    have hlt := N.enc_lt hb hn
    omega

end Ply.Nest
