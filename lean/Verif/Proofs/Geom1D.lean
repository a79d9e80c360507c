import Verif.Proofs.Geom1DBase
import Mathlib.MeasureTheory.Measure.Lebesgue.Basic
import Mathlib.Tactic.Linarith

/-! Helper lemmas for `Geom1D`: constructor, canonicity, operators, buffer, measure. -/

namespace Ply
namespace Geom1D

theorem ofIvls_ok {l : List Ivl} (h : ∀ iv ∈ l, iv.1 ≤ iv.2) :
    ∃ g, ofIvls l = .ok g ∧ NormalForm g.intervals ∧ pointsOf g.intervals = pointsOf l := by
  have hraw : ∀ p ∈ l.map (fun iv => (toPy iv.1, toPy iv.2)),
      ∃ r ∈ l, p = (toPy r.1, toPy r.2) := by
    intro p hp
    obtain ⟨r, hr, rfl⟩ := List.mem_map.1 hp
    exact ⟨r, hr, rfl⟩
  let back : PyNum × PyNum → Ivl := fun p => (p.1.val.getD ⊥, p.2.val.getD ⊥)
  have hok : ∀ p ∈ pySorted (l.map (fun iv => (toPy iv.1, toPy iv.2))),
      checkConvert p = .ok (back p) := by
    intro p hp
    rw [(pySorted_perm _).mem_iff] at hp
    obtain ⟨r, hr, rfl⟩ := hraw p hp
    apply checkConvert_of <;> simp [back, h r hr]
  have hm := mapM_except_ok _ _ _ hok
  have hc : ofIvls l = .ok ⟨mergeLoop none
      ((pySorted (l.map (fun iv => (toPy iv.1, toPy iv.2)))).map back)⟩ := by
    unfold ofIvls construct
    simp only [hm]; rfl
  refine ⟨_, hc, ?_⟩
  obtain ⟨ivs, hf, h1, h2⟩ := construct_ok hc
  refine ⟨h1, h2.trans ?_⟩
  ext x
  obtain ⟨hl, hg⟩ := List.forall₂_iff_get.1 hf
  rw [mem_pointsOf, mem_pointsOf]
  constructor
  · rintro ⟨iv, hiv, hx⟩
    obtain ⟨i, hi, rfl⟩ := List.mem_iff_getElem.1 hiv
    have hi' := hl ▸ hi
    have hmem := List.getElem_mem hi'
    rw [(pySorted_perm _).mem_iff] at hmem
    obtain ⟨r, hr, hre⟩ := hraw _ hmem
    have hcc := checkConvert_ok (hg i hi' hi)
    simp only [List.get_eq_getElem] at hcc
    rw [hre] at hcc
    obtain ⟨v1, v2, _⟩ := hcc
    rw [val_toPy, Option.some.injEq] at v1 v2
    refine ⟨r, hr, ?_⟩
    rw [v1, v2]; exact hx
  · rintro ⟨r, hr, hx⟩
    have hmem : (toPy r.1, toPy r.2) ∈
        pySorted (l.map (fun iv => (toPy iv.1, toPy iv.2))) := by
      rw [(pySorted_perm _).mem_iff]
      exact List.mem_map.2 ⟨r, hr, rfl⟩
    obtain ⟨i, hi, hie⟩ := List.mem_iff_getElem.1 hmem
    have hi' := hl ▸ hi
    have hcc := checkConvert_ok (hg i hi hi')
    simp only [List.get_eq_getElem] at hcc
    rw [hie] at hcc
    obtain ⟨v1, v2, _⟩ := hcc
    rw [val_toPy, Option.some.injEq] at v1 v2
    refine ⟨ivs[i], List.getElem_mem _, ?_⟩
    rw [← v1, ← v2]; exact hx

theorem construct_isOk_iff (raw : List (PyNum × PyNum)) :
    (∃ g, construct raw = .ok g) ↔ ∀ iv ∈ raw, ∃ r, checkConvert iv = .ok r := by
  constructor
  · rintro ⟨g, hg⟩ iv hiv
    obtain ⟨ivs, hf, _⟩ := construct_ok hg
    have hp' : iv ∈ pySorted raw := (pySorted_perm raw).mem_iff.2 hiv
    obtain ⟨hl, hg⟩ := List.forall₂_iff_get.1 hf
    obtain ⟨i, hi, rfl⟩ := List.mem_iff_getElem.1 hp'
    exact ⟨_, hg i hi (hl ▸ hi)⟩
  · intro h
    classical
    let f : PyNum × PyNum → Ivl := fun p => if hp : ∃ r, checkConvert p = .ok r then hp.choose
      else (⊥, ⊥)
    have hok : ∀ p ∈ pySorted raw, checkConvert p = .ok (f p) := by
      intro p hp
      rw [(pySorted_perm _).mem_iff] at hp
      have := h p hp
      simp only [f, dif_pos this]
      exact this.choose_spec
    refine ⟨⟨mergeLoop none ((pySorted raw).map f)⟩, ?_⟩
    unfold construct
    simp only [mapM_except_ok _ _ _ hok]; rfl

theorem construct_points {raw : List (PyNum × PyNum)} {g : Geom1D} (h : construct raw = .ok g)
    (x : ℝ) : x ∈ pointsOf g.intervals ↔
      ∃ iv ∈ raw, ∃ a b, iv.1.val = some a ∧ iv.2.val = some b ∧ x ∈ icoSet a b := by
  obtain ⟨ivs, hf, _, h2⟩ := construct_ok h
  rw [h2, mem_pointsOf]
  obtain ⟨hl, hg⟩ := List.forall₂_iff_get.1 hf
  constructor
  · rintro ⟨iv, hiv, hx⟩
    obtain ⟨i, hi, rfl⟩ := List.mem_iff_getElem.1 hiv
    have hi' := hl ▸ hi
    have hmem := List.getElem_mem hi'
    rw [(pySorted_perm _).mem_iff] at hmem
    obtain ⟨v1, v2, _⟩ := checkConvert_ok (hg i hi' hi)
    exact ⟨_, hmem, _, _, v1, v2, hx⟩
  · rintro ⟨iv, hiv, a, b, ha, hb, hx⟩
    have hp' : iv ∈ pySorted raw := (pySorted_perm raw).mem_iff.2 hiv
    obtain ⟨i, hi, rfl⟩ := List.mem_iff_getElem.1 hp'
    have hi' := hl ▸ hi
    obtain ⟨v1, v2, _⟩ := checkConvert_ok (hg i hi hi')
    simp only [List.get_eq_getElem] at v1 v2
    rw [v1, Option.some.injEq] at ha
    rw [v2, Option.some.injEq] at hb
    exact ⟨_, List.getElem_mem hi', by rw [ha, hb]; exact hx⟩

/-! ### Normal forms -/

theorem nf_tail {p : Ivl} {l : List Ivl} (h : NormalForm (p :: l)) : NormalForm l :=
  ⟨fun iv hi => h.1 iv (List.mem_cons_of_mem _ hi), (List.pairwise_cons.1 h.2).2⟩

theorem nf_head {p : Ivl} {l : List Ivl} (h : NormalForm (p :: l)) : p.1 < p.2 := h.1 p (by simp)

theorem nf_gap {p : Ivl} {l : List Ivl} (h : NormalForm (p :: l)) : ∀ iv ∈ l, p.2 < iv.1 :=
  (List.pairwise_cons.1 h.2).1

theorem nf_nil : NormalForm [] := ⟨by simp, by simp⟩

theorem nf_singleton {p : Ivl} (h : p.1 < p.2) : NormalForm [p] := ⟨by simpa using h, by simp⟩

/-- There is a gap after the first interval, all of it below `b`. -/
theorem nf_gap_point {p : Ivl} {l : List Ivl} (h : NormalForm (p :: l)) {b : Ext} (hb : p.2 < b) :
    ∃ x : ℝ, p.2.toE < (x : EReal) ∧ (x : EReal) < b.toE ∧ x ∉ pointsOf (p :: l) := by
  obtain ⟨c, hc1, hc2, hc3⟩ : ∃ c : Ext, p.2 < c ∧ c ≤ b ∧ ∀ iv ∈ l, c ≤ iv.1 := by
    cases l with
    | nil => exact ⟨b, hb, le_rfl, by simp⟩
    | cons q l =>
      refine ⟨min b q.1, lt_min hb (nf_gap h q (by simp)), min_le_left _ _, ?_⟩
      intro iv hiv
      refine (min_le_right _ _).trans ?_
      rcases List.mem_cons.1 hiv with rfl | hiv
      · exact le_rfl
      · exact ((nf_head (nf_tail h)).trans (nf_gap (nf_tail h) iv hiv)).le
  obtain ⟨x, hx1, hx2⟩ := Ext.exists_real_between hc1
  refine ⟨x, hx1, lt_of_lt_of_le hx2 (Ext.toE_le.2 hc2), ?_⟩
  rw [mem_pointsOf]
  rintro ⟨iv, hiv, h1, h2⟩
  rcases List.mem_cons.1 hiv with rfl | hiv
  · exact absurd h2 (not_lt.2 hx1.le)
  · exact absurd (lt_of_lt_of_le hx2 (Ext.toE_le.2 (hc3 iv hiv))) (not_lt.2 h1)

theorem nf_points_ge {p : Ivl} {l : List Ivl} (h : NormalForm (p :: l)) {x : ℝ}
    (hx : x ∈ pointsOf (p :: l)) : p.1.toE ≤ (x : EReal) := by
  obtain ⟨iv, hiv, h1, _⟩ := mem_pointsOf.1 hx
  rcases List.mem_cons.1 hiv with rfl | hiv
  · exact h1
  · exact (Ext.toE_le.2 ((nf_head h).trans (nf_gap h iv hiv)).le).trans h1

theorem nf_head_le {p q : Ivl} {l m : List Ivl} (hl : NormalForm (p :: l))
    (hm : NormalForm (q :: m)) (h : pointsOf (p :: l) ⊆ pointsOf (q :: m)) : q.1 ≤ p.1 := by
  by_contra hlt
  rw [not_le] at hlt
  obtain ⟨x, hx1, hx2⟩ := Ext.exists_real_between (lt_min (nf_head hl) hlt)
  have hx2' := lt_of_lt_of_le hx2 (Ext.toE_le.2 (min_le_left p.2 q.1))
  have hx3' := lt_of_lt_of_le hx2 (Ext.toE_le.2 (min_le_right p.2 q.1))
  have hx : x ∈ pointsOf (p :: l) := mem_pointsOf.2 ⟨p, by simp, hx1.le, hx2'⟩
  exact absurd (nf_points_ge hm (h hx)) (not_le.2 hx3')

theorem nf_tail_points {p : Ivl} {l : List Ivl} (hl : NormalForm (p :: l)) :
    pointsOf l = pointsOf (p :: l) \ icoSet p.1 p.2 := by
  ext x
  rw [pointsOf_cons]
  simp only [Set.mem_sdiff, Set.mem_union]
  constructor
  · intro hx
    refine ⟨Or.inr hx, ?_⟩
    rintro ⟨_, h2⟩
    obtain ⟨iv, hiv, h3, _⟩ := mem_pointsOf.1 hx
    have := Ext.toE_lt.2 (nf_gap hl iv hiv)
    exact absurd (lt_trans (lt_of_lt_of_le this h3) h2) (lt_irrefl _)
  · rintro ⟨h | h, h'⟩
    · exact absurd h h'
    · exact h

theorem nf_canonical : ∀ {l m : List Ivl}, NormalForm l → NormalForm m →
    pointsOf l = pointsOf m → l = m := by
  intro l
  induction l with
  | nil =>
    intro m _ hm h
    cases m with
    | nil => rfl
    | cons q m =>
      exfalso
      obtain ⟨x, hx⟩ := icoSet_nonempty (nf_head hm)
      have : x ∈ pointsOf [] := by rw [h, pointsOf_cons]; exact Or.inl hx
      rw [pointsOf_nil] at this; exact this
  | cons p l ih =>
    intro m hl hm h
    cases m with
    | nil =>
      exfalso
      obtain ⟨x, hx⟩ := icoSet_nonempty (nf_head hl)
      have : x ∈ pointsOf [] := by rw [← h, pointsOf_cons]; exact Or.inl hx
      rw [pointsOf_nil] at this; exact this
    | cons q m =>
      have e1 : p.1 = q.1 := le_antisymm (nf_head_le hm hl h.ge) (nf_head_le hl hm h.le)
      have e2 : p.2 = q.2 := by
        rcases lt_trichotomy p.2 q.2 with hlt | heq | hlt
        · exfalso
          obtain ⟨x, hx1, hx2, hx3⟩ := nf_gap_point hl hlt
          apply hx3
          rw [h]
          refine mem_pointsOf.2 ⟨q, by simp, ?_, hx2⟩
          rw [← e1]
          exact ((Ext.toE_lt.2 (nf_head hl)).trans hx1).le
        · exact heq
        · exfalso
          obtain ⟨x, hx1, hx2, hx3⟩ := nf_gap_point hm hlt
          apply hx3
          rw [← h]
          refine mem_pointsOf.2 ⟨p, by simp, ?_, hx2⟩
          rw [e1]
          exact ((Ext.toE_lt.2 (nf_head hm)).trans hx1).le
      have e : p = q := Prod.ext e1 e2
      subst e
      congr 1
      apply ih (nf_tail hl) (nf_tail hm)
      rw [nf_tail_points hl, nf_tail_points hm, h]

/-! ### Operators -/

/-- Postcondition shared by all operators. -/
def Denotes (r : Except PyErr Geom1D) (S : Set ℝ) : Prop :=
  ∃ g, r = .ok g ∧ NormalForm g.intervals ∧ pointsOf g.intervals = S

theorem Denotes.bind {r : Except PyErr Geom1D} {S T : Set ℝ} {f : Geom1D → Except PyErr Geom1D}
    (h : Denotes r S)
    (hf : ∀ g, NormalForm g.intervals → pointsOf g.intervals = S → Denotes (f g) T) :
    Denotes (r >>= f) T := by
  obtain ⟨g, rfl, h1, h2⟩ := h
  exact hf g h1 h2

theorem nf_le {l : List Ivl} (h : NormalForm l) : ∀ iv ∈ l, iv.1 ≤ iv.2 :=
  fun iv hi => (h.1 iv hi).le

theorem or_denotes {a b : Geom1D} (ha : NormalForm a.intervals) (hb : NormalForm b.intervals) :
    Denotes (or a b) (pointsOf a.intervals ∪ pointsOf b.intervals) := by
  have h : ∀ iv ∈ a.intervals ++ b.intervals, iv.1 ≤ iv.2 := by
    intro iv hi
    rcases List.mem_append.1 hi with hi | hi
    · exact nf_le ha iv hi
    · exact nf_le hb iv hi
  obtain ⟨g, h1, h2, h3⟩ := ofIvls_ok h
  exact ⟨g, h1, h2, h3.trans (pointsOf_append _ _)⟩

/-- The intervals between the given ones, from `lo` on. -/
def gaps : Ext → List Ivl → List Ivl
  | lo, [] => [(lo, ⊤)]
  | lo, iv :: rest => (lo, iv.1) :: gaps iv.2 rest

theorem zip_eq_gaps (lo : Ext) (l : List Ivl) :
    (evens (lo :: (l.flatMap (fun iv => [iv.1, iv.2]) ++ [⊤]))).zip
      (odds (lo :: (l.flatMap (fun iv => [iv.1, iv.2]) ++ [⊤]))) = gaps lo l := by
  induction l generalizing lo with
  | nil => simp [evens, odds, gaps]
  | cons iv rest ih =>
    have := ih iv.2
    simp only [List.flatMap_cons, List.cons_append, List.nil_append, gaps, odds, List.tail_cons]
      at this ⊢
    simp only [evens, List.zip_cons_cons]
    rw [this]

theorem gaps_spec (l : List Ivl) : ∀ (lo : Ext), NormalForm l → (∀ iv ∈ l, lo ≤ iv.1) →
    (∀ iv ∈ gaps lo l, iv.1 ≤ iv.2) ∧
    pointsOf (gaps lo l) = {x : ℝ | lo.toE ≤ (x : EReal)} \ pointsOf l := by
  induction l with
  | nil =>
    intro lo _ _
    refine ⟨by simp [gaps], ?_⟩
    unfold gaps; rw [pointsOf_cons, pointsOf_nil]
    ext x
    simp [mem_icoSet, EReal.coe_lt_top]
  | cons p rest ih =>
    intro lo hn hlo
    obtain ⟨i1, i2⟩ := ih p.2 (nf_tail hn) (fun iv hi => (nf_gap hn iv hi).le)
    have hlp := hlo p (by simp)
    refine ⟨?_, ?_⟩
    · intro iv hi
      rcases List.mem_cons.1 hi with rfl | hi
      · exact hlp
      · exact i1 iv hi
    · unfold gaps; rw [pointsOf_cons, i2, nf_tail_points hn]
      ext x
      have hge : x ∈ pointsOf (p :: rest) → p.1.toE ≤ (x : EReal) := nf_points_ge hn
      have hin : x ∈ icoSet p.1 p.2 → x ∈ pointsOf (p :: rest) := by
        intro h; rw [pointsOf_cons]; exact Or.inl h
      have e1 := Ext.toE_le.2 hlp
      have e2 := (Ext.toE_lt.2 (nf_head hn)).le
      simp only [Set.mem_union, Set.mem_sdiff, Set.mem_ofPred_eq]
      constructor
      · rintro (⟨h1, h2⟩ | ⟨h1, h2⟩)
        · exact ⟨h1, fun h => absurd (hge h) (not_le.2 h2)⟩
        · refine ⟨e1.trans (e2.trans h1), fun h => h2 ⟨h, fun hm => ?_⟩⟩
          exact absurd hm.2 (not_lt.2 h1)
      · rintro ⟨h1, h2⟩
        by_cases hc : (x : EReal) < p.1.toE
        · exact Or.inl ⟨h1, hc⟩
        · refine Or.inr ⟨?_, fun h => h2 h.1⟩
          by_contra hd
          exact h2 (hin ⟨not_lt.1 hc, not_le.1 hd⟩)

theorem invert_denotes {a : Geom1D} (ha : NormalForm a.intervals) :
    Denotes (invert a) (pointsOf a.intervals)ᶜ := by
  unfold invert
  have := zip_eq_gaps ⊥ a.intervals
  simp only [List.cons_append, List.nil_append]
  rw [this]
  obtain ⟨h1, h2⟩ := gaps_spec a.intervals ⊥ ha (fun _ _ => bot_le)
  obtain ⟨g, e1, e2, e3⟩ := ofIvls_ok h1
  refine ⟨g, e1, e2, ?_⟩
  rw [e3, h2]
  ext x; simp

theorem and_denotes {a b : Geom1D} (ha : NormalForm a.intervals) (hb : NormalForm b.intervals) :
    Denotes (and a b) (pointsOf a.intervals ∩ pointsOf b.intervals) := by
  unfold and
  refine (invert_denotes ha).bind fun na n1 p1 => ?_
  refine (invert_denotes hb).bind fun nb n2 p2 => ?_
  refine (or_denotes n1 n2).bind fun u n3 p3 => ?_
  obtain ⟨g, h1, h2, h3⟩ := invert_denotes n3
  refine ⟨g, h1, h2, ?_⟩
  rw [h3, p3, p1, p2, Set.compl_union, compl_compl, compl_compl]

theorem sub_denotes {a b : Geom1D} (ha : NormalForm a.intervals) (hb : NormalForm b.intervals) :
    Denotes (sub a b) (pointsOf a.intervals \ pointsOf b.intervals) := by
  unfold sub
  refine (invert_denotes hb).bind fun nb n2 p2 => ?_
  obtain ⟨g, h1, h2, h3⟩ := and_denotes ha n2
  exact ⟨g, h1, h2, by rw [h3, p2]; rfl⟩

theorem xor_denotes {a b : Geom1D} (ha : NormalForm a.intervals) (hb : NormalForm b.intervals) :
    Denotes (xor a b) (symmDiff (pointsOf a.intervals) (pointsOf b.intervals)) := by
  unfold xor
  refine (invert_denotes ha).bind fun na n1 p1 => ?_
  refine (and_denotes n1 hb).bind fun l nl pl => ?_
  refine (invert_denotes hb).bind fun nb n2 p2 => ?_
  refine (and_denotes ha n2).bind fun r nr pr => ?_
  obtain ⟨g, h1, h2, h3⟩ := or_denotes nl nr
  refine ⟨g, h1, h2, ?_⟩
  rw [h3, pl, pr, p1, p2, Set.symmDiff_def]
  ext x
  simp only [Set.mem_union, Set.mem_inter_iff, Set.mem_compl_iff, Set.mem_sdiff]
  tauto

theorem empty_denotes : Denotes empty ∅ := by
  obtain ⟨g, h1, h2, h3⟩ := ofIvls_ok (l := []) (by simp)
  exact ⟨g, h1, h2, h3.trans pointsOf_nil⟩

theorem full_denotes : Denotes full Set.univ := by
  obtain ⟨g, h1, h2, h3⟩ := ofIvls_ok (l := [(⊥, ⊤)]) (by simp)
  refine ⟨g, h1, h2, h3.trans ?_⟩
  rw [pointsOf_cons, pointsOf_nil]
  ext x; simp [mem_icoSet, EReal.coe_lt_top]

/-- Every normal form is what the constructor returns for it. -/
theorem construct_of_nf {g : Geom1D} (h : NormalForm g.intervals) : ofIvls g.intervals = .ok g := by
  obtain ⟨g', h1, h2, h3⟩ := ofIvls_ok (nf_le h)
  have : g' = g := by
    cases g'; cases g
    simp only [Geom1D.mk.injEq]
    exact nf_canonical h2 h h3
  rw [h1, this]

/-! ### locate -/

theorem locateLoop_spec (x : Ext) (l : List Ivl) (h : NormalForm l) :
    (locateLoop x l = 0 ↔ ∃ iv ∈ l, x = iv.1 ∨ x = iv.2) ∧
    (locateLoop x l = 1 ↔ ∃ iv ∈ l, iv.1 < x ∧ x < iv.2) ∧
    (locateLoop x l = -1 ∨ locateLoop x l = 0 ∨ locateLoop x l = 1) := by
  induction l with
  | nil => simp [locateLoop]
  | cons p l ih =>
    obtain ⟨i0, i1, i2⟩ := ih (nf_tail h)
    have hg := nf_gap h
    have hh := nf_head h
    have hin : ∀ iv ∈ l, iv.1 < iv.2 := fun iv hi => (nf_tail h).1 iv hi
    unfold locateLoop
    split_ifs with c1 c2 c3
    · refine ⟨⟨fun _ => ⟨p, by simp, ?_⟩, fun _ => rfl⟩, ?_, by simp⟩
      · rcases c1 with c | c
        · exact Or.inl c.symm
        · exact Or.inr c.symm
      · refine ⟨fun h => by simp at h, ?_⟩
        rintro ⟨iv, hi, h1, h2⟩
        exfalso
        rcases List.mem_cons.1 hi with rfl | hi
        · rcases c1 with c | c
          · exact absurd c h1.ne
          · exact absurd c.symm h2.ne
        · have := hg iv hi
          rcases c1 with c | c
          · rw [← c] at h1
            exact absurd (h1.trans (hh.trans this)) (lt_irrefl _)
          · rw [← c] at h1
            exact absurd (h1.trans this) (lt_irrefl _)
    · refine ⟨⟨fun h => by simp at h, ?_⟩, ⟨fun _ => ⟨p, by simp, c2⟩, fun _ => rfl⟩, by simp⟩
      rintro ⟨iv, hi, he⟩
      exfalso
      rcases List.mem_cons.1 hi with rfl | hi
      · rcases he with e | e
        · exact c1 (Or.inl e.symm)
        · exact c1 (Or.inr e.symm)
      · have h1 := hg iv hi
        rcases he with e | e
        · rw [← e] at h1; exact absurd (h1.trans c2.2) (lt_irrefl _)
        · have h2 := hin iv hi
          rw [← e] at h2
          exact absurd ((h1.trans h2).trans c2.2) (lt_irrefl _)
    · have key : ∀ iv ∈ p :: l, x < iv.1 := by
        intro iv hi
        rcases List.mem_cons.1 hi with rfl | hi
        · exact c3
        · exact lt_trans c3 (hh.trans (hg iv hi))
      refine ⟨⟨fun h => by simp at h, ?_⟩, ⟨fun h => by simp at h, ?_⟩, by simp⟩
      · rintro ⟨iv, hi, e | e⟩
        · exact absurd e (key iv hi).ne
        · exact absurd e ((key iv hi).trans (h.1 iv hi)).ne
      · rintro ⟨iv, hi, h1, _⟩
        exact absurd (h1.trans (key iv hi)) (lt_irrefl _)
    · refine ⟨?_, ?_, i2⟩
      · rw [i0]
        constructor
        · rintro ⟨iv, hi, he⟩; exact ⟨iv, by simp [hi], he⟩
        · rintro ⟨iv, hi, he⟩
          rcases List.mem_cons.1 hi with rfl | hi
          · exfalso; apply c1
            rcases he with e | e
            · exact Or.inl e.symm
            · exact Or.inr e.symm
          · exact ⟨iv, hi, he⟩
      · rw [i1]
        constructor
        · rintro ⟨iv, hi, he⟩; exact ⟨iv, by simp [hi], he⟩
        · rintro ⟨iv, hi, he⟩
          rcases List.mem_cons.1 hi with rfl | hi
          · exact absurd he c2
          · exact ⟨iv, hi, he⟩

/-! ### buffer -/

theorem addRat_mono {x y : Ext} (r : ℚ) (h : x ≤ y) : addRat x r ≤ addRat y r := by
  rcases Ext.cases3 x with rfl | rfl | ⟨p, rfl⟩ <;> rcases Ext.cases3 y with rfl | rfl | ⟨q, rfl⟩
  · exact le_rfl
  · exact h
  · exact bot_le
  · exact absurd h (by simp)
  · exact le_rfl
  · exact absurd h (not_le.2 (Ext.fin_lt_top q))
  · exact absurd h (not_le.2 (Ext.bot_lt_fin p))
  · exact (Ext.fin_lt_top _).le
  · rw [Ext.fin_le_fin] at h
    exact Ext.fin_le_fin.2 (by linarith)

theorem addRat_le_iff (x : Ext) (r : ℚ) (y : ℝ) :
    (addRat x r).toE ≤ (y : EReal) ↔ x.toE ≤ ((y - r : ℝ) : EReal) := by
  rcases Ext.cases3 x with rfl | rfl | ⟨p, rfl⟩
  · simp [addRat]
  · change (⊤ : EReal) ≤ _ ↔ (⊤ : EReal) ≤ _
    simp only [top_le_iff]
    exact ⟨fun h => absurd h (EReal.coe_ne_top _), fun h => absurd h (EReal.coe_ne_top _)⟩
  · change (((p + r : ℚ) : ℝ) : EReal) ≤ _ ↔ ((p : ℝ) : EReal) ≤ _
    rw [EReal.coe_le_coe_iff, EReal.coe_le_coe_iff]
    push_cast
    constructor <;> intro h <;> linarith

theorem lt_addRat_iff (x : Ext) (r : ℚ) (y : ℝ) :
    (y : EReal) < (addRat x r).toE ↔ ((y - r : ℝ) : EReal) < x.toE := by
  rw [← not_le, ← not_le, addRat_le_iff]

theorem mem_buffer_ivl (iv : Ivl) (r : ℚ) (x : ℝ) :
    x ∈ icoSet (addRat iv.1 (-r)) (addRat iv.2 r) ↔
      iv.1.toE ≤ ((x + r : ℝ) : EReal) ∧ ((x - r : ℝ) : EReal) < iv.2.toE := by
  rw [mem_icoSet, addRat_le_iff, lt_addRat_iff]
  simp

/-- `buffer` in terms of shifted intervals. -/
theorem buffer_denotes (g : Geom1D) (amount : PyNum) (r : ℚ)
    (hr : fractionFromExact amount = .ok r) :
    Denotes (buffer g amount) {x | ∃ iv ∈ g.intervals,
      iv.1.toE ≤ ((x + r : ℝ) : EReal) ∧ ((x - r : ℝ) : EReal) < iv.2.toE} := by
  unfold buffer
  rw [hr]
  have hle : ∀ iv ∈ (g.intervals.filterMap fun iv =>
      let prop : Ivl := (addRat iv.1 (-r), addRat iv.2 r)
      if prop.2 ≤ prop.1 then none else some prop), iv.1 ≤ iv.2 := by
    intro iv hi
    obtain ⟨p, hp, he⟩ := List.mem_filterMap.1 hi
    simp only at he
    split_ifs at he with hc
    simp only [Option.some.injEq] at he
    subst he
    exact (not_le.1 hc).le
  obtain ⟨g', h1, h2, h3⟩ := ofIvls_ok hle
  refine ⟨g', h1, h2, h3.trans ?_⟩
  ext x
  rw [mem_pointsOf, Set.mem_ofPred_eq]
  constructor
  · rintro ⟨iv, hi, hx⟩
    obtain ⟨p, hp, he⟩ := List.mem_filterMap.1 hi
    simp only at he
    split_ifs at he with hc
    simp only [Option.some.injEq] at he
    subst he
    exact ⟨p, hp, (mem_buffer_ivl p r x).1 hx⟩
  · rintro ⟨p, hp, hx⟩
    have hx' := (mem_buffer_ivl p r x).2 hx
    refine ⟨(addRat p.1 (-r), addRat p.2 r), ?_, hx'⟩
    refine List.mem_filterMap.2 ⟨p, hp, ?_⟩
    have : ¬ addRat p.2 r ≤ addRat p.1 (-r) := by
      intro hc
      have := icoSet_empty hc
      rw [this] at hx'
      exact hx'
    simp [this]

theorem dilate_points {l : List Ivl} (hn : ∀ iv ∈ l, iv.1 < iv.2) {r : ℚ} (hr : 0 ≤ r) :
    {x : ℝ | ∃ iv ∈ l, iv.1.toE ≤ ((x + r : ℝ) : EReal) ∧ ((x - r : ℝ) : EReal) < iv.2.toE} =
    {x : ℝ | ∃ y ∈ pointsOf l, |x - y| ≤ (r : ℝ)} := by
  have hr' : (0 : ℝ) ≤ r := by exact_mod_cast hr
  ext x
  simp only [Set.mem_ofPred_eq]
  constructor
  · rintro ⟨iv, hi, h1, h2⟩
    by_cases hc : iv.1.toE ≤ ((x - r : ℝ) : EReal)
    · exact ⟨x - r, mem_pointsOf.2 ⟨iv, hi, hc, h2⟩, by simp [abs_of_nonneg hr']⟩
    · rw [not_le] at hc
      -- the lower end point is finite and within reach
      rcases Ext.cases3 iv.1 with he | he | ⟨q, he⟩
      · rw [he] at hc; simp at hc
      · rw [he] at h1; simp at h1
        exact absurd h1 (EReal.coe_ne_top _)
      · rw [he, Ext.toE_fin, EReal.coe_le_coe_iff] at h1
        rw [he, Ext.toE_fin, EReal.coe_lt_coe_iff] at hc
        refine ⟨(q : ℝ), mem_pointsOf.2 ⟨iv, hi, by rw [he]; exact le_rfl, ?_⟩, ?_⟩
        · have := Ext.toE_lt.2 (hn iv hi)
          rw [he] at this; exact this
        · rw [abs_le]; constructor <;> linarith
  · rintro ⟨y, hy, hxy⟩
    obtain ⟨iv, hi, h1, h2⟩ := mem_pointsOf.1 hy
    rw [abs_le] at hxy
    refine ⟨iv, hi, h1.trans ?_, lt_of_le_of_lt ?_ h2⟩
    · rw [EReal.coe_le_coe_iff]; linarith
    · rw [EReal.coe_le_coe_iff]; linarith

theorem nf_end_not_mem {l : List Ivl} (hn : NormalForm l) {p : Ivl} (hp : p ∈ l) {x : ℝ}
    (hx : p.2.toE = (x : EReal)) : x ∉ pointsOf l := by
  induction l with
  | nil => simp at hp
  | cons q l ih =>
    rw [pointsOf_cons]
    rintro (h | h)
    · rcases List.mem_cons.1 hp with rfl | hp
      · exact absurd h.2 (by rw [hx]; exact lt_irrefl _)
      · have := Ext.toE_lt.2 ((nf_gap hn p hp).trans ((nf_tail hn).1 p hp))
        rw [hx] at this
        exact absurd (this.trans h.2) (lt_irrefl _)
    · rcases List.mem_cons.1 hp with rfl | hp
      · obtain ⟨iv, hi, h1, _⟩ := mem_pointsOf.1 h
        have := Ext.toE_lt.2 (nf_gap hn iv hi)
        rw [hx] at this
        exact absurd h1 (not_le.2 this)
      · exact ih (nf_tail hn) hp h

theorem erode_points {l : List Ivl} (hn : NormalForm l) {r : ℚ} (hr : 0 ≤ r) :
    {x : ℝ | ∃ iv ∈ l, iv.1.toE ≤ ((x + (-r : ℚ) : ℝ) : EReal) ∧
      ((x - (-r : ℚ) : ℝ) : EReal) < iv.2.toE} =
    {x : ℝ | ∀ y : ℝ, |x - y| ≤ (r : ℝ) → y ∈ pointsOf l} := by
  have hr' : (0 : ℝ) ≤ r := by exact_mod_cast hr
  ext x
  have e1 : x + ((-r : ℚ) : ℝ) = x - r := by push_cast; ring
  have e2 : x - ((-r : ℚ) : ℝ) = x + r := by push_cast; ring
  simp only [Set.mem_ofPred_eq, e1, e2]
  constructor
  · rintro ⟨iv, hi, h1, h2⟩ y hy
    rw [abs_le] at hy
    refine mem_pointsOf.2 ⟨iv, hi, h1.trans ?_, lt_of_le_of_lt ?_ h2⟩
    · rw [EReal.coe_le_coe_iff]; linarith
    · rw [EReal.coe_le_coe_iff]; linarith
  · intro h
    have hlo := h (x - r) (by simp [abs_of_nonneg hr'])
    obtain ⟨iv, hi, h1, h2⟩ := mem_pointsOf.1 hlo
    refine ⟨iv, hi, h1, ?_⟩
    by_contra hc
    rw [not_lt] at hc
    rcases Ext.cases3 iv.2 with he | he | ⟨q, he⟩
    · rw [he] at h2; simp at h2
    · rw [he] at hc
      simp only [Ext.toE_top, top_le_iff] at hc
      exact absurd hc (EReal.coe_ne_top _)
    · rw [he, Ext.toE_fin, EReal.coe_le_coe_iff] at hc
      rw [he, Ext.toE_fin, EReal.coe_lt_coe_iff] at h2
      refine nf_end_not_mem hn hi (x := (q : ℝ)) (by rw [he]; rfl) (h q ?_)
      rw [abs_le]; constructor <;> linarith

/-! ### measure -/

open MeasureTheory

theorem pySub_measure {iv : Ivl} (h : iv.1 < iv.2) :
    ∃ v : Ext, pySub iv.2 iv.1 = some v ∧ 0 ≤ v.toE ∧
      v.toE = ((volume (icoSet iv.1 iv.2) : ENNReal) : EReal) := by
  obtain ⟨a, b⟩ := iv
  simp only at h ⊢
  rcases Ext.cases3 a with rfl | rfl | ⟨p, rfl⟩ <;> rcases Ext.cases3 b with rfl | rfl | ⟨q, rfl⟩
  · exact absurd h (lt_irrefl _)
  · refine ⟨⊤, rfl, by simp, ?_⟩
    have : icoSet ⊥ ⊤ = Set.univ := by ext x; simp [mem_icoSet, EReal.coe_lt_top]
    rw [this, Real.volume_univ]; rfl
  · refine ⟨⊤, rfl, by simp, ?_⟩
    have : icoSet ⊥ (Ext.fin q) = Set.Iio (q : ℝ) := by
      ext x; simp [mem_icoSet, Ext.toE_fin, EReal.coe_lt_coe_iff]
    rw [this, Real.volume_Iio]; rfl
  · exact absurd h (by simp)
  · exact absurd h (lt_irrefl _)
  · exact absurd h (not_lt.2 (Ext.fin_lt_top q).le)
  · exact absurd h (not_lt.2 (Ext.bot_lt_fin p).le)
  · refine ⟨⊤, rfl, by simp, ?_⟩
    have : icoSet (Ext.fin p) ⊤ = Set.Ici (p : ℝ) := by
      ext x; simp [mem_icoSet, Ext.toE_fin, EReal.coe_le_coe_iff, EReal.coe_lt_top]
    rw [this, Real.volume_Ici]; rfl
  · rw [Ext.fin_lt_fin] at h
    have h' : (p : ℝ) < q := by exact_mod_cast h
    have hpos : (0 : ℝ) ≤ ((q - p : ℚ) : ℝ) := by push_cast; linarith
    refine ⟨Ext.fin (q - p), rfl, ?_, ?_⟩
    · rw [Ext.toE_fin]; exact_mod_cast hpos
    · have : icoSet (Ext.fin p) (Ext.fin q) = Set.Ico (p : ℝ) q := by
        ext x; simp [mem_icoSet, Ext.toE_fin, EReal.coe_le_coe_iff, EReal.coe_lt_coe_iff]
      rw [this, Real.volume_Ico, Ext.toE_fin, EReal.coe_ennreal_ofReal, Rat.cast_sub,
        max_eq_left (by linarith)]

theorem pyAdd_toE {a b : Ext} (ha : 0 ≤ a.toE) (hb : 0 ≤ b.toE) :
    ∃ v, pyAdd (some a) (some b) = some v ∧ 0 ≤ v.toE ∧ v.toE = a.toE + b.toE := by
  rcases Ext.cases3 a with rfl | rfl | ⟨p, rfl⟩ <;> rcases Ext.cases3 b with rfl | rfl | ⟨q, rfl⟩
  any_goals (simp at ha; done)
  any_goals (simp at hb; done)
  · exact ⟨⊤, rfl, by simp, by simp⟩
  · exact ⟨⊤, rfl, by simp, by simp [Ext.toE_fin]⟩
  · exact ⟨⊤, rfl, by simp, by simp [Ext.toE_fin]⟩
  · refine ⟨Ext.fin (p + q), rfl, ?_, ?_⟩
    · rw [Ext.toE_fin] at *
      have ha' : (0 : ℝ) ≤ p := by exact_mod_cast ha
      have hb' : (0 : ℝ) ≤ q := by exact_mod_cast hb
      push_cast
      exact_mod_cast add_nonneg ha' hb'
    · simp [Ext.toE_fin]

theorem icoSet_measurable (a b : Ext) : MeasurableSet (icoSet a b) := by
  have : icoSet a b = (fun x : ℝ => (x : EReal)) ⁻¹' (Set.Ico a.toE b.toE) := rfl
  rw [this]
  exact measurable_coe_real_ereal measurableSet_Ico

theorem pointsOf_measurable (l : List Ivl) : MeasurableSet (pointsOf l) := by
  induction l with
  | nil => rw [pointsOf_nil]; exact MeasurableSet.empty
  | cons p l ih => rw [pointsOf_cons]; exact (icoSet_measurable _ _).union ih

theorem foldl_measure (l : List Ivl) (hn : NormalForm l) : ∀ (acc : Ext), 0 ≤ acc.toE →
    ∃ v, (l.map fun iv => pySub iv.2 iv.1).foldl pyAdd (some acc) = some v ∧ 0 ≤ v.toE ∧
      v.toE = acc.toE + ((volume (pointsOf l) : ENNReal) : EReal) := by
  induction l with
  | nil => intro acc h; exact ⟨acc, rfl, h, by simp [pointsOf_nil]⟩
  | cons p l ih =>
    intro acc hacc
    obtain ⟨v, hv1, hv2, hv3⟩ := pySub_measure (nf_head hn)
    obtain ⟨w, hw1, hw2, hw3⟩ := pyAdd_toE hacc hv2
    obtain ⟨u, hu1, hu2, hu3⟩ := ih (nf_tail hn) w hw2
    refine ⟨u, ?_, hu2, ?_⟩
    · simp only [List.map_cons, List.foldl_cons, hv1, hw1]
      exact hu1
    · rw [hu3, hw3, hv3, pointsOf_cons, measure_union, EReal.coe_ennreal_add, add_assoc]
      · rw [nf_tail_points hn]; exact Set.disjoint_sdiff_right
      · exact pointsOf_measurable l

theorem measure1d_spec {g : Geom1D} (hn : NormalForm g.intervals) :
    ∃ v, measure1d g = some v ∧ v.toE = ((volume (pointsOf g.intervals) : ENNReal) : EReal) := by
  obtain ⟨v, h1, _, h3⟩ := foldl_measure g.intervals hn (Ext.fin 0) (by simp [Ext.toE_fin])
  refine ⟨v, h1, ?_⟩
  rw [h3]; simp [Ext.toE_fin]

end Geom1D
end Ply
