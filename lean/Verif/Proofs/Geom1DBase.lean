import Verif.Model.Geom1D
import Verif.Spec.PointSet1D
import Mathlib.Data.List.Sort

/-! Helper lemmas for `Geom1D`: the order on end points, the constructor, denotations. -/

namespace Ply
open Ply.Geom1D

namespace Ext

theorem toE_fin (q : ℚ) : (Ext.fin q).toE = ((q : ℝ) : EReal) := rfl
@[simp] theorem toE_bot : (⊥ : Ext).toE = ⊥ := rfl
@[simp] theorem toE_top : (⊤ : Ext).toE = ⊤ := rfl

theorem cases3 (a : Ext) : a = ⊥ ∨ a = ⊤ ∨ ∃ q : ℚ, a = Ext.fin q := by
  rcases a with _ | _ | q
  · left; rfl
  · right; left; rfl
  · right; right; exact ⟨q, rfl⟩

theorem fin_le_fin {p q : ℚ} : Ext.fin p ≤ Ext.fin q ↔ p ≤ q := by
  simp [Ext.fin]
theorem fin_lt_fin {p q : ℚ} : Ext.fin p < Ext.fin q ↔ p < q := by
  simp [Ext.fin]
theorem fin_inj {p q : ℚ} : Ext.fin p = Ext.fin q ↔ p = q := by
  simp [Ext.fin]
theorem bot_lt_fin (q : ℚ) : (⊥ : Ext) < Ext.fin q := by simp [Ext.fin]
theorem fin_lt_top (q : ℚ) : Ext.fin q < (⊤ : Ext) := by
  rw [Ext.fin]; exact WithBot.coe_lt_coe.2 (WithTop.coe_lt_top q)

theorem toE_lt {a b : Ext} : a.toE < b.toE ↔ a < b := by
  rcases cases3 a with rfl | rfl | ⟨p, rfl⟩ <;> rcases cases3 b with rfl | rfl | ⟨q, rfl⟩ <;>
    simp [toE_fin, fin_lt_fin, bot_lt_fin, fin_lt_top, EReal.coe_lt_top, EReal.bot_lt_coe]

theorem toE_le {a b : Ext} : a.toE ≤ b.toE ↔ a ≤ b := by
  rw [← not_lt, ← not_lt, toE_lt]

theorem toE_inj {a b : Ext} : a.toE = b.toE ↔ a = b := by
  constructor
  · intro h; exact le_antisymm (toE_le.1 h.le) (toE_le.1 h.ge)
  · rintro rfl; rfl

/-- There is a real point strictly between two different end points. -/
theorem exists_real_between {a b : Ext} (h : a < b) :
    ∃ x : ℝ, a.toE < (x : EReal) ∧ (x : EReal) < b.toE :=
  EReal.lt_iff_exists_real_btwn.1 (toE_lt.2 h)

end Ext

theorem mem_icoSet {a b : Ext} {x : ℝ} :
    x ∈ icoSet a b ↔ a.toE ≤ (x : EReal) ∧ (x : EReal) < b.toE := Iff.rfl

theorem mem_pointsOf {l : List Ivl} {x : ℝ} :
    x ∈ pointsOf l ↔ ∃ iv ∈ l, iv.1.toE ≤ (x : EReal) ∧ (x : EReal) < iv.2.toE := Iff.rfl

theorem pointsOf_nil : pointsOf [] = ∅ := by ext x; simp [mem_pointsOf]

theorem pointsOf_cons (iv : Ivl) (l : List Ivl) :
    pointsOf (iv :: l) = icoSet iv.1 iv.2 ∪ pointsOf l := by
  ext x; simp only [mem_pointsOf, Set.mem_union, mem_icoSet, List.exists_mem_cons_iff]

theorem pointsOf_append (l m : List Ivl) : pointsOf (l ++ m) = pointsOf l ∪ pointsOf m := by
  ext x; simp only [mem_pointsOf, Set.mem_union, List.mem_append, or_and_right, exists_or]

theorem icoSet_empty {a b : Ext} (h : b ≤ a) : icoSet a b = ∅ := by
  ext x
  simp only [mem_icoSet, Set.mem_empty_iff_false, iff_false, not_and, not_lt]
  intro h1
  exact (Ext.toE_le.2 h).trans h1

theorem icoSet_nonempty {a b : Ext} (h : a < b) : (icoSet a b).Nonempty := by
  obtain ⟨x, h1, h2⟩ := Ext.exists_real_between h
  exact ⟨x, h1.le, h2⟩

theorem pointsOf_perm {l m : List Ivl} (h : l.Perm m) : pointsOf l = pointsOf m := by
  ext x; simp only [mem_pointsOf, h.mem_iff]

namespace Geom1D

/-! ### Python numbers -/

theorem toPy_bot : toPy ⊥ = .negInf := rfl
theorem toPy_top : toPy ⊤ = .posInf := rfl
theorem toPy_fin (q : ℚ) : toPy (Ext.fin q) = .mpq q := rfl

@[simp] theorem val_toPy (a : Ext) : (toPy a).val = some a := by
  rcases Ext.cases3 a with rfl | rfl | ⟨q, rfl⟩ <;> rfl

@[simp] theorem convert_toPy (a : Ext) : fractionFromExactOrInf (toPy a) = .ok a := by
  rcases Ext.cases3 a with rfl | rfl | ⟨q, rfl⟩ <;> rfl

theorem le_toPy (a b : Ext) : PyNum.le (toPy a) (toPy b) = decide (a ≤ b) := by
  simp [PyNum.le]

/-- A Python number with a value. -/
theorem val_of_convert {v : PyNum} {a : Ext} (h : fractionFromExactOrInf v = .ok a) :
    v.val = some a := by
  cases v <;> simp [fractionFromExactOrInf, fractionFromExact, bind, Except.bind, pure,
    Except.pure] at h <;> subst h <;> rfl

/-! ### The merge loop -/

/-- Sorted by lower end point. -/
def SortedFst (l : List Ivl) : Prop := l.Pairwise (fun p q => p.1 ≤ q.1)

theorem mergeLoop_spec (l : List Ivl) : ∀ (prev : Option Ivl),
    (∀ iv ∈ l, iv.1 ≤ iv.2) → SortedFst l →
    (∀ p ∈ prev, p.1 < p.2 ∧ ∀ iv ∈ l, p.1 ≤ iv.1) →
    NormalForm (mergeLoop prev l) ∧
    pointsOf (mergeLoop prev l) = pointsOf (prev.toList ++ l) ∧
    (∀ iv ∈ mergeLoop prev l, ∀ lo : Ext, (∀ p ∈ prev.toList ++ l, lo ≤ p.1) → lo ≤ iv.1) := by
  induction l with
  | nil =>
    intro prev _ _ hp
    rcases prev with _ | p
    · simp [mergeLoop, NormalForm]
    · simp only [mergeLoop, Option.toList_some, List.append_nil, List.mem_singleton]
      refine ⟨⟨?_, ?_⟩, trivial, ?_⟩
      · intro iv hiv
        rw [List.mem_singleton] at hiv
        subst hiv
        exact (hp _ rfl).1
      · simp
      · rintro iv rfl lo h
        exact h _ rfl
  | cons iv rest ih =>
    intro prev hle hs hp
    have hle' : ∀ i ∈ rest, i.1 ≤ i.2 := fun i hi => hle i (List.mem_cons_of_mem _ hi)
    have hs' : SortedFst rest := (List.pairwise_cons.1 hs).2
    have hfst : ∀ i ∈ rest, iv.1 ≤ i.1 := (List.pairwise_cons.1 hs).1
    have hiv : iv.1 ≤ iv.2 := hle iv (by simp)
    unfold mergeLoop
    by_cases heq : iv.1 = iv.2
    · rw [if_pos heq]
      have hp' : ∀ p ∈ prev, p.1 < p.2 ∧ ∀ i ∈ rest, p.1 ≤ i.1 := fun p h =>
        ⟨(hp p h).1, fun i hi => (hp p h).2 i (List.mem_cons_of_mem _ hi)⟩
      obtain ⟨h1, h2, h3⟩ := ih prev hle' hs' hp'
      refine ⟨h1, ?_, ?_⟩
      · rw [h2, pointsOf_append, pointsOf_append, pointsOf_cons, icoSet_empty heq.ge,
          Set.empty_union]
      · intro i hi lo hlo
        apply h3 i hi lo
        intro p hpm
        apply hlo
        rw [List.mem_append] at hpm ⊢
        rcases hpm with h | h
        · exact Or.inl h
        · exact Or.inr (List.mem_cons_of_mem _ h)
    · rw [if_neg heq]
      have hlt : iv.1 < iv.2 := lt_of_le_of_ne hiv heq
      rcases prev with _ | p
      · have hp' : ∀ q ∈ some iv, q.1 < q.2 ∧ ∀ i ∈ rest, q.1 ≤ i.1 := by
          intro q hq
          rw [Option.mem_some_iff] at hq
          subst hq
          exact ⟨hlt, hfst⟩
        simpa using ih (some iv) hle' hs' hp'
      · obtain ⟨hp1, hp2⟩ := hp p rfl
        have hpiv : p.1 ≤ iv.1 := hp2 iv (by simp)
        have hprest : ∀ i ∈ rest, p.1 ≤ i.1 := fun i hi => hp2 i (List.mem_cons_of_mem _ hi)
        by_cases hov : p.2 ≥ iv.1
        · simp only [hov, if_true]
          by_cases hgt : iv.2 > p.2
          · simp only [hgt, if_true]
            have hp' : ∀ q ∈ some (p.1, iv.2), q.1 < q.2 ∧ ∀ i ∈ rest, q.1 ≤ i.1 := by
              intro q hq
              rw [Option.mem_some_iff] at hq
              subst hq
              exact ⟨lt_trans hp1 hgt, hprest⟩
            obtain ⟨h1, h2, h3⟩ := ih (some (p.1, iv.2)) hle' hs' hp'
            refine ⟨h1, ?_, ?_⟩
            · rw [h2]
              ext x
              simp only [Option.toList_some, List.cons_append, List.nil_append, pointsOf_cons,
                Set.mem_union, mem_icoSet]
              have e1 := Ext.toE_le.2 hov
              have e2 := (Ext.toE_lt.2 hgt).le
              have e3 := Ext.toE_le.2 hpiv
              constructor
              · rintro (⟨ha, hb⟩ | h)
                · by_cases hc : (x : EReal) < p.2.toE
                  · exact Or.inl ⟨ha, hc⟩
                  · exact Or.inr (Or.inl ⟨e1.trans (not_lt.1 hc), hb⟩)
                · exact Or.inr (Or.inr h)
              · rintro (⟨ha, hb⟩ | ⟨ha, hb⟩ | h)
                · exact Or.inl ⟨ha, lt_of_lt_of_le hb e2⟩
                · exact Or.inl ⟨e3.trans ha, hb⟩
                · exact Or.inr h
            · intro i hi lo hlo
              apply h3 i hi lo
              intro q hq
              simp only [Option.toList_some, List.cons_append, List.nil_append,
                List.mem_cons] at hq
              rcases hq with rfl | hq
              · exact hlo p (by simp)
              · exact hlo q (by simp [hq])
          · simp only [hgt, if_false]
            have hp' : ∀ q ∈ some p, q.1 < q.2 ∧ ∀ i ∈ rest, q.1 ≤ i.1 := by
              intro q hq
              rw [Option.mem_some_iff] at hq
              subst hq
              exact ⟨hp1, hprest⟩
            obtain ⟨h1, h2, h3⟩ := ih (some p) hle' hs' hp'
            refine ⟨h1, ?_, ?_⟩
            · rw [h2]
              ext x
              simp only [Option.toList_some, List.cons_append, List.nil_append, pointsOf_cons,
                Set.mem_union, mem_icoSet]
              have e2 := Ext.toE_le.2 (not_lt.1 hgt)
              have e3 := Ext.toE_le.2 hpiv
              constructor
              · rintro (h | h)
                · exact Or.inl h
                · exact Or.inr (Or.inr h)
              · rintro (h | ⟨ha, hb⟩ | h)
                · exact Or.inl h
                · exact Or.inl ⟨e3.trans ha, lt_of_lt_of_le hb e2⟩
                · exact Or.inr h
            · intro i hi lo hlo
              apply h3 i hi lo
              intro q hq
              simp only [Option.toList_some, List.cons_append, List.nil_append,
                List.mem_cons] at hq
              rcases hq with rfl | hq
              · exact hlo q (by simp)
              · exact hlo q (by simp [hq])
        · simp only [hov, if_false]
          have hp' : ∀ q ∈ some iv, q.1 < q.2 ∧ ∀ i ∈ rest, q.1 ≤ i.1 := by
            intro q hq
            rw [Option.mem_some_iff] at hq
            subst hq
            exact ⟨hlt, hfst⟩
          obtain ⟨h1, h2, h3⟩ := ih (some iv) hle' hs' hp'
          refine ⟨⟨?_, ?_⟩, ?_, ?_⟩
          · intro i hi
            rcases List.mem_cons.1 hi with rfl | hi
            · exact hp1
            · exact h1.1 i hi
          · refine List.pairwise_cons.2 ⟨?_, h1.2⟩
            intro i hi
            refine lt_of_lt_of_le (not_le.1 hov) (h3 i hi iv.1 ?_)
            intro q hq
            simp only [Option.toList_some, List.cons_append, List.nil_append,
              List.mem_cons] at hq
            rcases hq with rfl | hq
            · exact le_rfl
            · exact hfst q hq
          · rw [pointsOf_cons, h2]
            simp [pointsOf_cons]
          · intro i hi lo hlo
            rcases List.mem_cons.1 hi with rfl | hi
            · exact hlo i (by simp)
            · apply h3 i hi lo
              intro q hq
              apply hlo
              simp only [Option.toList_some, List.cons_append, List.nil_append,
                List.mem_cons] at hq ⊢
              exact Or.inr hq

/-! ### The constructor on exact end points -/

theorem mapM_except_ok {α β ε : Type} (f : α → Except ε β) (g : α → β) (l : List α)
    (h : ∀ a ∈ l, f a = .ok (g a)) : l.mapM f = .ok (l.map g) := by
  induction l with
  | nil => rfl
  | cons a l ih =>
    rw [List.mapM_cons, h a (by simp), ih (fun b hb => h b (by simp [hb]))]
    rfl

theorem mapM_except_inv {α β ε : Type} (f : α → Except ε β) (l : List α) (r : List β)
    (h : l.mapM f = .ok r) : List.Forall₂ (fun a b => f a = .ok b) l r := by
  induction l generalizing r with
  | nil =>
    simp only [List.mapM_nil, pure, Except.pure, Except.ok.injEq] at h
    subst h; exact .nil
  | cons a l ih =>
    rw [List.mapM_cons] at h
    cases hfa : f a with
    | error e => simp [hfa, bind, Except.bind] at h
    | ok b =>
      cases hl : l.mapM f with
      | error e => simp [hfa, hl, bind, Except.bind] at h
      | ok bs =>
        simp only [hfa, hl, bind, Except.bind, pure, Except.pure, Except.ok.injEq] at h
        subst h
        exact .cons hfa (ih bs hl)

/-- All values present. -/
def HasVals (iv : PyNum × PyNum) : Prop := ∃ a b : Ext, iv.1.val = some a ∧ iv.2.val = some b

theorem pairLe_of_vals {p q : PyNum × PyNum} {a b c d : Ext}
    (h1 : p.1.val = some a) (h2 : p.2.val = some b)
    (h3 : q.1.val = some c) (h4 : q.2.val = some d) :
    pairLe p q = decide (a < c ∨ (a = c ∧ b ≤ d)) := by
  unfold pairLe PyNum.le
  rw [h1, h2, h3, h4]
  by_cases hac : a = c
  · subst hac; simp
  · have : (a ≤ c) ↔ a < c := ⟨fun h => lt_of_le_of_ne h hac, le_of_lt⟩
    simp [hac, this]

theorem checkConvert_ok {iv : PyNum × PyNum} {r : Ivl} (h : checkConvert iv = .ok r) :
    iv.1.val = some r.1 ∧ iv.2.val = some r.2 ∧ r.1 ≤ r.2 ∧
      fractionFromExactOrInf iv.1 = .ok r.1 ∧ fractionFromExactOrInf iv.2 = .ok r.2 := by
  unfold checkConvert at h
  by_cases hle : PyNum.le iv.1 iv.2
  · rw [if_pos hle] at h
    cases h1 : fractionFromExactOrInf iv.1 with
    | error e => simp [h1, bind, Except.bind] at h
    | ok a =>
      cases h2 : fractionFromExactOrInf iv.2 with
      | error e => simp [h1, h2, bind, Except.bind] at h
      | ok b =>
        simp only [h1, h2, bind, Except.bind, pure, Except.pure, Except.ok.injEq] at h
        subst h
        have v1 := val_of_convert h1
        have v2 := val_of_convert h2
        refine ⟨v1, v2, ?_, rfl, rfl⟩
        unfold PyNum.le at hle
        rw [v1, v2] at hle
        simpa using hle
  · rw [if_neg hle] at h
    exact absurd h (by simp [throw, throwThe, MonadExceptOf.throw])

theorem checkConvert_of {iv : PyNum × PyNum} {r : Ivl}
    (h1 : fractionFromExactOrInf iv.1 = .ok r.1) (h2 : fractionFromExactOrInf iv.2 = .ok r.2)
    (hle : r.1 ≤ r.2) : checkConvert iv = .ok r := by
  unfold checkConvert
  have : PyNum.le iv.1 iv.2 = true := by
    unfold PyNum.le
    rw [val_of_convert h1, val_of_convert h2]
    simpa using hle
  rw [if_pos this, h1, h2]
  rfl

theorem pySorted_perm (l : List (PyNum × PyNum)) : (pySorted l).Perm l := List.perm_insertionSort _ l

/-- Success of the element-wise check is invariant under permutation. -/
theorem sorted_of_vals (raw : List (PyNum × PyNum)) (h : ∀ p ∈ raw, HasVals p) :
    (pySorted raw).Pairwise (fun p q => pairLe p q = true) := by
  -- the comparison is total and transitive on elements with values
  let g : {p : PyNum × PyNum // HasVals p} → PyNum × PyNum := Subtype.val
  obtain ⟨raw', rfl⟩ : ∃ raw' : List {p : PyNum × PyNum // HasVals p}, raw = raw'.map g :=
    ⟨raw.attach.map (fun p => ⟨p.1, h p.1 p.2⟩), by
      simp only [g, List.map_map, Function.comp_def]; exact (List.attach_map_subtype_val raw).symm⟩
  let le' : {p : PyNum × PyNum // HasVals p} → {p : PyNum × PyNum // HasVals p} → Bool :=
    fun p q => pairLe p.1 q.1
  have hmap : pySorted (raw'.map g) = (raw'.insertionSort fun a b => le' a b = true).map g :=
    (List.map_insertionSort (r := fun a b => le' a b = true) (s := fun a b => pairLe a b = true) g raw'
      fun a _ b _ => Iff.rfl).symm
  rw [hmap, List.pairwise_map]
  have htrans : ∀ a b c, le' a b = true → le' b c = true → le' a c = true := by
    rintro ⟨p, a1, a2, pa1, pa2⟩ ⟨q, b1, b2, pb1, pb2⟩ ⟨r, c1, c2, pc1, pc2⟩
    simp only [le', pairLe_of_vals pa1 pa2 pb1 pb2, pairLe_of_vals pb1 pb2 pc1 pc2,
      pairLe_of_vals pa1 pa2 pc1 pc2, decide_eq_true_eq]
    rintro (h1 | ⟨rfl, h1⟩) (h2 | ⟨rfl, h2⟩)
    · exact Or.inl (h1.trans h2)
    · exact Or.inl h1
    · exact Or.inl h2
    · exact Or.inr ⟨rfl, h1.trans h2⟩
  have htotal : ∀ a b, (le' a b || le' b a) = true := by
    rintro ⟨p, a1, a2, pa1, pa2⟩ ⟨q, b1, b2, pb1, pb2⟩
    simp only [le', pairLe_of_vals pa1 pa2 pb1 pb2, pairLe_of_vals pb1 pb2 pa1 pa2,
      Bool.or_eq_true, decide_eq_true_eq]
    rcases lt_trichotomy a1 b1 with h | h | h
    · exact Or.inl (Or.inl h)
    · rcases le_total a2 b2 with h2 | h2
      · exact Or.inl (Or.inr ⟨h, h2⟩)
      · exact Or.inr (Or.inr ⟨h.symm, h2⟩)
    · exact Or.inr (Or.inl h)
  have : Std.Total fun a b => le' a b = true := ⟨fun a b => by simpa using htotal a b⟩
  have : IsTrans _ fun a b => le' a b = true := ⟨htrans⟩
  exact List.pairwise_insertionSort (fun a b => le' a b = true) raw'

/-- Full description of a successful constructor call. -/
theorem construct_ok {raw : List (PyNum × PyNum)} {g : Geom1D} (h : construct raw = .ok g) :
    ∃ ivs : List Ivl, List.Forall₂ (fun p r => checkConvert p = .ok r)
        (pySorted raw) ivs ∧ NormalForm g.intervals ∧
        pointsOf g.intervals = pointsOf ivs := by
  unfold construct at h
  cases hm : (pySorted raw).mapM checkConvert with
  | error e => simp [hm, bind, Except.bind] at h
  | ok ivs =>
    simp only [hm, bind, Except.bind, pure, Except.pure, Except.ok.injEq] at h
    subst h
    have hf := mapM_except_inv _ _ _ hm
    refine ⟨ivs, hf, ?_⟩
    have hvals : ∀ p ∈ raw, HasVals p := by
      intro p hp
      have hp' : p ∈ pySorted raw := (pySorted_perm raw).mem_iff.2 hp
      obtain ⟨hl, hg⟩ := List.forall₂_iff_get.1 hf
      obtain ⟨i, hi, rfl⟩ := List.mem_iff_getElem.1 hp'
      obtain ⟨v1, v2, _⟩ := checkConvert_ok (hg i hi (hl ▸ hi))
      exact ⟨_, _, v1, v2⟩
    have hsorted := sorted_of_vals raw hvals
    have hle : ∀ iv ∈ ivs, iv.1 ≤ iv.2 := by
      intro iv hiv
      obtain ⟨hl, hg⟩ := List.forall₂_iff_get.1 hf
      obtain ⟨i, hi, rfl⟩ := List.mem_iff_getElem.1 hiv
      exact (checkConvert_ok (hg i (hl ▸ hi) hi)).2.2.1
    have hs : SortedFst ivs := by
      unfold SortedFst
      obtain ⟨hl, hg⟩ := List.forall₂_iff_get.1 hf
      rw [List.pairwise_iff_getElem] at hsorted ⊢
      intro i j hi hj hij
      have hi' : i < (pySorted raw).length := hl ▸ hi
      have hj' : j < (pySorted raw).length := hl ▸ hj
      obtain ⟨a1, a2, _⟩ := checkConvert_ok (hg i hi' hi)
      obtain ⟨b1, b2, _⟩ := checkConvert_ok (hg j hj' hj)
      have := hsorted i j hi' hj' hij
      simp only [List.get_eq_getElem] at a1 a2 b1 b2
      rw [pairLe_of_vals a1 a2 b1 b2, decide_eq_true_eq] at this
      rcases this with h | ⟨h, _⟩
      · exact h.le
      · exact h.le
    obtain ⟨h1, h2, _⟩ := mergeLoop_spec ivs none hle hs (by simp)
    exact ⟨h1, by simpa using h2⟩

end Geom1D
end Ply
