import Verif.Model.SegmentTree
import Mathlib.Tactic.Linarith
import Mathlib.Data.List.Perm.Basic
import Mathlib.Data.List.Sort

namespace Ply.STree

variable {ι : Type}

/-- The values a subtree is responsible for. -/
def Reg (t : STree ι) (v : ℚ) : Prop :=
  (if t.closedLow then t.min ≤ v else t.min < v) ∧ (if t.closedHigh then v ≤ t.max else v < t.max)

def WF : STree ι → Prop
  | point _ _ => True
  | range l h _ => l < h
  | node mn cl mx ch cut _ left right =>
    mn = left.min ∧ cl = left.closedLow ∧ mx = right.max ∧ ch = right.closedHigh ∧
    cut = left.max ∧ cut = right.min ∧ left.closedHigh = (!right.closedLow) ∧ left.WF ∧ right.WF

/-- The end points of `s` are not strictly inside any range leaf. -/
def Align (s : STSeg ι) : STree ι → Prop
  | point _ _ => True
  | range l h _ => (s.1 ≤ l ∨ h ≤ s.1) ∧ (s.2.1 ≤ l ∨ h ≤ s.2.1)
  | node _ _ _ _ _ _ left right => left.Align s ∧ right.Align s

theorem wf_le : ∀ {t : STree ι}, t.WF → t.min ≤ t.max
  | point _ _, _ => le_rfl
  | range _ _ _, h => le_of_lt h
  | node mn cl mx ch cut _ left right, h => by
    obtain ⟨h1, _, h3, _, h5, h6, _, h8, h9⟩ := h
    have a := wf_le h8
    have b := wf_le h9
    show mn ≤ mx
    rw [h1, h3]
    linarith

theorem add_fields (s : STSeg ι) (t : STree ι) :
    (t.addSegment s).min = t.min ∧ (t.addSegment s).max = t.max ∧
    (t.addSegment s).closedLow = t.closedLow ∧ (t.addSegment s).closedHigh = t.closedHigh := by
  cases t <;> unfold addSegment <;> split_ifs <;> exact ⟨rfl, rfl, rfl, rfl⟩

theorem wf_add (s : STSeg ι) (t : STree ι) (h : t.WF) : (t.addSegment s).WF := by
  induction t with
  | point v at_ => unfold addSegment; split_ifs <;> exact h
  | range l h' at_ => unfold addSegment; split_ifs <;> exact h
  | node mn cl mx ch cut segs left right il ir =>
    unfold addSegment
    obtain ⟨h1, h2, h3, h4, h5, h6, h7, h8, h9⟩ := h
    split_ifs
    · exact ⟨h1, h2, h3, h4, h5, h6, h7, h8, h9⟩
    · exact ⟨h1, h2, h3, h4, h5, h6, h7, h8, h9⟩
    · exact ⟨h1, h2, h3, h4, h5, h6, h7, h8, h9⟩
    · obtain ⟨a1, a2, a3, a4⟩ := add_fields s left
      obtain ⟨b1, b2, b3, b4⟩ := add_fields s right
      unfold WF
      rw [a1, a2, a3, a4, b1, b2, b3, b4]
      exact ⟨h1, h2, h3, h4, h5, h6, h7, il h8, ir h9⟩

theorem align_add (s s' : STSeg ι) (t : STree ι) (h : t.Align s') : (t.addSegment s).Align s' := by
  induction t with
  | point v at_ => unfold addSegment; split_ifs <;> exact h
  | range l h' at_ => unfold addSegment; split_ifs <;> exact h
  | node mn cl mx ch cut segs left right il ir =>
    unfold addSegment
    split_ifs
    · exact h
    · exact h
    · exact h
    · exact ⟨il h.1, ir h.2⟩

theorem stab_add (s : STSeg ι) (v : ℚ) (t : STree ι) (hw : t.WF) (ha : t.Align s) (hr : t.Reg v) :
    List.Perm ((t.addSegment s).stab v)
      ((if s.1 ≤ v ∧ v ≤ s.2.1 then [s] else []) ++ t.stab v) := by
  induction t with
  | point x at_ =>
    unfold Reg at hr
    simp only [min, max, closedLow, closedHigh, if_true] at hr
    have e : v = x := le_antisymm hr.2 hr.1
    subst e
    unfold addSegment
    by_cases h1 : s.1 ≤ v ∧ v ≤ s.2.1
    · rw [if_pos h1, if_pos h1]
      simp only [stab, if_true]; exact List.perm_append_comm
    · rw [if_neg h1, if_neg h1]; exact List.Perm.refl _
  | range l h at_ =>
    unfold Reg at hr
    simp only [min, max, closedLow, closedHigh, Bool.false_eq_true, if_false] at hr
    obtain ⟨a1, a2⟩ := ha
    unfold addSegment
    by_cases h1 : s.1 < h ∧ s.2.1 > l
    · have h2 : s.1 ≤ v ∧ v ≤ s.2.1 := by
        refine ⟨?_, ?_⟩
        · rcases a1 with a | a
          · linarith [hr.1]
          · linarith [h1.1]
        · rcases a2 with a | a
          · linarith [h1.2]
          · linarith [hr.2]
      rw [if_pos h1, if_pos h2]
      simp only [stab]
      rw [if_pos hr, if_pos hr]; exact List.perm_append_comm
    · rw [if_neg h1, if_neg (fun h2 => h1 ⟨lt_of_le_of_lt h2.1 hr.2, lt_of_lt_of_le hr.1 h2.2⟩)]
      exact List.Perm.refl _
  | node mn cl mx ch cut segs left right il ir =>
    obtain ⟨w1, w2, w3, w4, w5, w6, w7, w8, w9⟩ := hw
    unfold Reg at hr
    simp only [min, max, closedLow, closedHigh] at hr
    obtain ⟨hr1, hr2⟩ := hr
    have hmn : mn ≤ v := by
      cases cl
      · simp at hr1; exact hr1.le
      · simpa using hr1
    have hmx : v ≤ mx := by
      cases ch
      · simp at hr2; exact hr2.le
      · simpa using hr2
    unfold addSegment
    by_cases h1 : isInside mn cl mx ch s.1 (-1) = false
    · rw [if_pos h1, if_neg]
      · exact List.Perm.refl _
      · rintro ⟨h4, _⟩
        simp only [isInside] at h1
        cases ch
        · simp at h1 hr2; linarith
        · simp at h1 hr2; linarith
    by_cases h2 : isInside mn cl mx ch s.2.1 1 = false
    · rw [if_neg h1, if_pos h2, if_neg]
      · exact List.Perm.refl _
      · rintro ⟨_, h4⟩
        simp only [isInside] at h2
        cases cl
        · simp at h2 hr1; linarith
        · simp at h2 hr1; linarith
    rw [if_neg h1, if_neg h2]
    by_cases h3 : s.1 ≤ mn ∧ s.2.1 ≥ mx
    · rw [if_pos h3, if_pos (⟨h3.1.trans hmn, hmx.trans h3.2⟩ : s.1 ≤ v ∧ v ≤ s.2.1)]
      simp only [stab]
      rw [if_pos (⟨hmn, hmx⟩ : mn ≤ v ∧ v ≤ mx), if_pos (⟨hmn, hmx⟩ : mn ≤ v ∧ v ≤ mx),
        ← List.append_assoc]
      exact List.Perm.append_right _ List.perm_append_comm
    rw [if_neg h3]
    obtain ⟨a1, a2⟩ := ha
    simp only [stab]
    rw [(add_fields s left).2.2.2]
    by_cases hcut : v < cut ∨ v = cut ∧ left.closedHigh = true
    · have hreg : left.Reg v := by
        refine ⟨?_, ?_⟩
        · rw [← w1, ← w2]; exact hr1
        · rw [← w5]
          rcases hcut with hc | ⟨hc, hc'⟩
          · split_ifs
            · exact hc.le
            · exact hc
          · rw [if_pos hc']; exact hc.le
      rw [if_pos hcut, if_pos hcut]
      exact (List.Perm.append_left _ (il w8 a1 hreg)).trans (List.perm_append_comm_assoc _ _ _)
    · have hreg : right.Reg v := by
        refine ⟨?_, ?_⟩
        · rw [← w6]
          have hle : cut ≤ v := not_lt.1 fun h => hcut (Or.inl h)
          split_ifs with hcl
          · exact hle
          · refine lt_of_le_of_ne hle fun he => hcut (Or.inr ⟨he.symm, ?_⟩)
            rw [w7]; simp [hcl]
        · rw [← w3, ← w4]; exact hr2
      rw [if_neg hcut, if_neg hcut]
      exact (List.Perm.append_left _ (ir w9 a2 hreg)).trans (List.perm_append_comm_assoc _ _ _)

theorem stab_outside (v : ℚ) (t : STree ι) (hw : t.WF) (h : v < t.min ∨ t.max < v) : t.stab v = [] := by
  induction t with
  | point x at_ =>
    unfold stab
    rw [if_neg]
    rintro rfl
    rcases h with h | h <;> exact lt_irrefl _ h
  | range l h' at_ =>
    unfold stab
    rw [if_neg]
    rintro ⟨h1, h2⟩
    rcases h with h | h
    · exact lt_asymm h h1
    · exact lt_asymm h h2
  | node mn cl mx ch cut segs left right il ir =>
    obtain ⟨w1, w2, w3, w4, w5, w6, w7, w8, w9⟩ := hw
    have l1 := wf_le w8
    have l2 := wf_le w9
    simp only [min, max] at h
    unfold stab
    rcases h with h | h
    · rw [if_neg (by rintro ⟨a, _⟩; linarith), if_pos (by left; linarith), il w8 (by left; linarith)]; rfl
    · rw [if_neg (by rintro ⟨_, a⟩; linarith), if_neg (by rintro (a | ⟨a, _⟩) <;> linarith),
        ir w9 (by right; linarith)]; rfl

end Ply.STree

namespace Ply

variable {ι : Type}

/-- A list of adjacent subtrees covering `mn .. mx`, each satisfying `P`. -/
def GoodList (P : STree ι → Prop) : ℚ → Bool → ℚ → Bool → List (STree ι) → Prop
  | _, _, _, _, [] => False
  | mn, cl, mx, ch, [a] => a.min = mn ∧ a.closedLow = cl ∧ a.max = mx ∧ a.closedHigh = ch ∧ a.WF ∧ P a
  | mn, cl, mx, ch, a :: b :: rest => a.min = mn ∧ a.closedLow = cl ∧ a.WF ∧ P a ∧
      GoodList P a.max (!a.closedHigh) mx ch (b :: rest)

theorem stPairUp_good (P : STree ι → Prop)
    (hP : ∀ mn cl mx ch cut a b, P a → P b → P (.node mn cl mx ch cut [] a b)) :
    ∀ (n : ℕ) (l : List (STree ι)) (mn : ℚ) (cl : Bool) (mx : ℚ) (ch : Bool), l.length ≤ n →
      GoodList P mn cl mx ch l → ∃ l', stPairUp l = .ok l' ∧ GoodList P mn cl mx ch l' ∧
        2 * l'.length ≤ l.length + 1 := by
  intro n
  induction n with
  | zero =>
    intro l mn cl mx ch hn h
    have : l = [] := List.length_eq_zero_iff.1 (by omega)
    subst this; exact absurd h (by simp [GoodList])
  | succ n ih =>
    intro l mn cl mx ch hn h
    match l, hn, h with
    | [a], _, h => exact ⟨[a], rfl, h, by simp⟩
    | [a, b], _, h =>
      obtain ⟨h1, h2, h3, h4, h5, h6, h7, h8, h9, h10⟩ := h
      refine ⟨[.node a.min a.closedLow b.max b.closedHigh a.max [] a b], ?_, ?_, by simp⟩
      · unfold stPairUp STree.mkNode
        rw [if_pos h5.symm, if_pos (by rw [h6]; simp)]
        rfl
      · exact ⟨h1, h2, h7, h8, ⟨rfl, rfl, rfl, rfl, rfl, h5.symm, by rw [h6]; simp, h3, h9⟩,
          hP _ _ _ _ _ _ _ h4 h10⟩
    | a :: b :: c :: rest, hn, h =>
      obtain ⟨h1, h2, h3, h4, h5, h6, h7, h8, h9⟩ := h
      obtain ⟨l', e, g, hl⟩ := ih (c :: rest) _ _ _ _ (by simp at hn ⊢; omega) h9
      refine ⟨.node a.min a.closedLow b.max b.closedHigh a.max [] a b :: l', ?_, ?_, ?_⟩
      · unfold stPairUp STree.mkNode
        rw [if_pos h5.symm, if_pos (by rw [h6]; simp), e]
        rfl
      · match l', g with
        | x :: l'', g =>
          exact ⟨h1, h2, ⟨rfl, rfl, rfl, rfl, rfl, h5.symm, by rw [h6]; simp, h3, h7⟩,
            hP _ _ _ _ _ _ _ h4 h8, g⟩
      · simp only [List.length_cons] at hl ⊢; omega

theorem stReduce_good (P : STree ι → Prop)
    (hP : ∀ mn cl mx ch cut a b, P a → P b → P (.node mn cl mx ch cut [] a b)) :
    ∀ (fuel : ℕ) (l : List (STree ι)) (mn : ℚ) (cl : Bool) (mx : ℚ) (ch : Bool), l.length ≤ fuel + 1 →
      GoodList P mn cl mx ch l → ∃ r, stReduce fuel l = .ok r ∧ GoodList P mn cl mx ch [r] := by
  intro fuel
  induction fuel with
  | zero =>
    intro l mn cl mx ch hn h
    match l, hn, h with
    | [a], _, h => exact ⟨a, rfl, h⟩
  | succ n ih =>
    intro l mn cl mx ch hn h
    match l, hn, h with
    | [a], _, h => exact ⟨a, rfl, h⟩
    | a :: b :: rest, hn, h =>
      obtain ⟨l', e, g, hl⟩ := stPairUp_good P hP _ _ _ _ _ _ le_rfl h
      obtain ⟨r, er, gr⟩ := ih l' mn cl mx ch (by simp only [List.length_cons] at hn hl; omega) g
      refine ⟨r, ?_, gr⟩
      unfold stReduce
      rw [e]
      exact er

theorem stLeaves_good (P : STree ι → Prop) (hp : ∀ v, P (.point v [])) :
    ∀ (e : ℚ) (l : List ℚ), (e :: l).Pairwise (· < ·) →
      (∀ x y : ℚ, x ∈ e :: l → y ∈ e :: l → x < y → (∀ z ∈ e :: l, z ≤ x ∨ y ≤ z) → P (.range x y [])) →
      GoodList P e true ((e :: l).getLast (by simp)) true (stLeaves (e :: l)) := by
  intro e l
  induction l generalizing e with
  | nil => intro _ _; exact ⟨rfl, rfl, rfl, rfl, trivial, hp e⟩
  | cons e' l ih =>
    intro hs hr
    have hs' := (List.pairwise_cons.1 hs).2
    have hlt := (List.pairwise_cons.1 hs).1
    have hs2 := (List.pairwise_cons.1 hs').1
    have key := ih e' hs' (by
      intro x y hx hy hxy hz
      refine hr x y (List.mem_cons_of_mem _ hx) (List.mem_cons_of_mem _ hy) hxy ?_
      intro z hz'
      rcases List.mem_cons.1 hz' with rfl | hz'
      · exact Or.inl (hlt x hx).le
      · exact hz z hz')
    have hrange : P (.range e e' []) := hr e e' (by simp) (by simp) (hlt e' (by simp)) (by
      intro z hz
      rcases List.mem_cons.1 hz with rfl | hz
      · exact Or.inl le_rfl
      · rcases List.mem_cons.1 hz with rfl | hz
        · exact Or.inr le_rfl
        · exact Or.inr (hs2 z hz).le)
    rw [List.getLast_cons (by simp)]
    unfold stLeaves
    have hne : ∃ a r, stLeaves (ι := ι) (e' :: l) = a :: r := by
      cases l with
      | nil => exact ⟨_, _, rfl⟩
      | cons c l => exact ⟨_, _, rfl⟩
    obtain ⟨a, r, har⟩ := hne
    rw [har] at key ⊢
    refine ⟨rfl, rfl, trivial, hp e, rfl, rfl, hlt e' (by simp), hrange, ?_⟩
    exact key

theorem le_getLast_of_sorted : ∀ (l : List ℚ), l.Pairwise (· < ·) → ∀ x (hx : x ∈ l),
    x ≤ l.getLast (List.ne_nil_of_mem hx)
  | [], _, x, hx => by simp at hx
  | [a], _, x, hx => by simp at hx; simp [hx]
  | a :: b :: l, h, x, hx => by
    have := le_getLast_of_sorted (b :: l) (List.pairwise_cons.1 h).2
    rw [List.getLast_cons (by simp)]
    rcases List.mem_cons.1 hx with rfl | hx
    · exact ((List.pairwise_cons.1 h).1 b (by simp)).le.trans (this b (by simp))
    · exact this x hx

theorem pyMin_sorted (a : ℚ) (l : List ℚ) (h : (a :: l).Pairwise (· < ·)) : pyMin (a :: l) = .ok a := by
  have : ∀ (l : List ℚ) (a : ℚ), (∀ x ∈ l, a < x) → l.foldl (fun m x => if x < m then x else m) a = a := by
    intro l
    induction l with
    | nil => intro a _; rfl
    | cons b l ih =>
      intro a h
      rw [List.foldl_cons, if_neg (not_lt.2 (h b (by simp)).le)]
      exact ih a fun x hx => h x (List.mem_cons_of_mem _ hx)
  show Except.ok _ = _
  rw [this l a (List.pairwise_cons.1 h).1]

theorem pyMax_sorted (a : ℚ) (l : List ℚ) (h : (a :: l).Pairwise (· < ·)) :
    pyMax (a :: l) = .ok ((a :: l).getLast (by simp)) := by
  have : ∀ (l : List ℚ) (a : ℚ), (a :: l).Pairwise (· < ·) →
      l.foldl (fun m x => if m < x then x else m) a = (a :: l).getLast (by simp) := by
    intro l
    induction l with
    | nil => intro a _; rfl
    | cons b l ih =>
      intro a h
      rw [List.foldl_cons, if_pos ((List.pairwise_cons.1 h).1 b (by simp)),
        ih b (List.pairwise_cons.1 h).2]
      exact (List.getLast_cons (by simp)).symm
  show Except.ok _ = _
  rw [this l a h]

theorem stEndpoints_ok (segs : List (STSeg ι)) (h : ∀ s ∈ segs, s.1 ≤ s.2.1) :
    ∃ eps, stEndpoints segs = .ok eps ∧ ∀ x, x ∈ eps ↔ ∃ s ∈ segs, x = s.1 ∨ x = s.2.1 := by
  induction segs with
  | nil => exact ⟨[], rfl, by simp⟩
  | cons s segs ih =>
    obtain ⟨eps, e, he⟩ := ih fun s hs => h s (List.mem_cons_of_mem _ hs)
    refine ⟨s.1 :: s.2.1 :: eps, ?_, ?_⟩
    · unfold stEndpoints
      rw [if_pos (h s (by simp)), e]; rfl
    · intro x
      simp only [List.mem_cons, he]
      constructor
      · rintro (rfl | rfl | ⟨s', hs', hx⟩)
        · exact ⟨s, Or.inl rfl, Or.inl rfl⟩
        · exact ⟨s, Or.inl rfl, Or.inr rfl⟩
        · exact ⟨s', Or.inr hs', hx⟩
      · rintro ⟨s', rfl | hs', hx⟩
        · rcases hx with h | h
          · exact Or.inl h
          · exact Or.inr (Or.inl h)
        · exact Or.inr (Or.inr ⟨s', hs', hx⟩)

theorem stEndpoints_err (segs : List (STSeg ι)) (h : ¬ ∀ s ∈ segs, s.1 ≤ s.2.1) :
    stEndpoints segs = .error .assertion := by
  induction segs with
  | nil => simp at h
  | cons s segs ih =>
    unfold stEndpoints
    by_cases hs : s.1 ≤ s.2.1
    · rw [if_pos hs, ih (by simpa [hs] using h)]; rfl
    · rw [if_neg hs]

theorem sorted_lt (eps : List ℚ) : (eps.dedup.insertionSort (fun a b => a ≤ b)).Pairwise (· < ·) := by
  have h1 : (eps.dedup.insertionSort (fun a b => a ≤ b)).Pairwise (fun a b => a ≤ b) :=
    List.pairwise_insertionSort _ _
  have h2 : (eps.dedup.insertionSort (fun a b => a ≤ b)).Nodup :=
    (List.perm_insertionSort _ _).nodup_iff.2 (List.nodup_dedup _)
  have := List.pairwise_and_iff.2 ⟨h1, h2⟩
  refine this.imp ?_
  rintro a b ⟨h, h'⟩
  exact lt_of_le_of_ne h h'

/-- The tree after adding a list of segments answers every query with those segments. -/
theorem foldl_stab (segs : List (STSeg ι)) (t : STree ι) (v : ℚ) (hw : t.WF) (hr : t.Reg v)
    (ha : ∀ s ∈ segs, t.Align s) :
    List.Perm ((segs.foldl (fun t s => t.addSegment s) t).stab v) (slowStab segs v ++ t.stab v) := by
  induction segs generalizing t with
  | nil => exact List.Perm.refl _
  | cons s segs ih =>
    rw [List.foldl_cons]
    have hr' : (t.addSegment s).Reg v := by
      obtain ⟨a1, a2, a3, a4⟩ := STree.add_fields s t
      unfold STree.Reg
      rw [a1, a2, a3, a4]; exact hr
    refine (ih _ (STree.wf_add s t hw) hr' fun s' hs' => STree.align_add s s' t
      (ha s' (List.mem_cons_of_mem _ hs'))).trans ?_
    refine (List.Perm.append_left _ (STree.stab_add s v t hw (ha s (by simp)) hr)).trans ?_
    have : slowStab (s :: segs) v = (if s.1 ≤ v ∧ v ≤ s.2.1 then [s] else []) ++ slowStab segs v := by
      unfold slowStab
      by_cases h : s.1 ≤ v ∧ v ≤ s.2.1
      · rw [if_pos h, List.filter_cons_of_pos (by simp [h])]; rfl
      · rw [if_neg h, List.filter_cons_of_neg (by simpa using h)]; rfl
    rw [this, List.append_assoc]
    exact List.perm_append_comm_assoc _ _ _

theorem foldl_fields (segs : List (STSeg ι)) (t : STree ι) (hw : t.WF) :
    (segs.foldl (fun t s => t.addSegment s) t).min = t.min ∧
    (segs.foldl (fun t s => t.addSegment s) t).max = t.max ∧
    (segs.foldl (fun t s => t.addSegment s) t).WF := by
  induction segs generalizing t with
  | nil => exact ⟨rfl, rfl, hw⟩
  | cons s segs ih =>
    rw [List.foldl_cons]
    obtain ⟨a1, a2, a3⟩ := ih _ (STree.wf_add s t hw)
    obtain ⟨b1, b2, _⟩ := STree.add_fields s t
    exact ⟨a1.trans b1, a2.trans b2, a3⟩

/-- Everything about the constructor and the unguarded query. -/
theorem segmentTree_spec (segs : List (STSeg ι)) (h : ∀ s ∈ segs, s.1 ≤ s.2.1) :
    ∃ root, segmentTree segs = .ok root ∧ ∀ v, List.Perm (root.stab v) (slowStab segs v) := by
  obtain ⟨eps, e, he⟩ := stEndpoints_ok segs h
  set sorted := eps.dedup.insertionSort (fun a b => a ≤ b) with hsd
  have hmem : ∀ x, x ∈ sorted ↔ x ∈ eps := fun x => by
    rw [hsd, List.mem_insertionSort, List.mem_dedup]
  set endpoints : List ℚ := if sorted.length = 0 then [0, 1] else sorted with hep
  have hpw : endpoints.Pairwise (· < ·) := by
    rw [hep]
    split_ifs
    · simp
    · exact sorted_lt eps
  have hne : endpoints ≠ [] := by
    rw [hep]; split_ifs with h0
    · simp
    · intro h'; rw [h'] at h0; simp at h0
  have hin : ∀ s ∈ segs, s.1 ∈ endpoints ∧ s.2.1 ∈ endpoints := by
    intro s hs
    have m1 := (hmem s.1).2 ((he _).2 ⟨s, hs, Or.inl rfl⟩)
    have m2 := (hmem s.2.1).2 ((he _).2 ⟨s, hs, Or.inr rfl⟩)
    have : sorted.length ≠ 0 := fun h0 => by
      rw [List.length_eq_zero_iff.1 h0] at m1; simp at m1
    rw [hep, if_neg this]
    exact ⟨m1, m2⟩
  obtain ⟨e0, l, hel⟩ := List.exists_cons_of_ne_nil hne
  rw [hel] at hpw hin
  let P : STree ι → Prop := fun t => (∀ s ∈ segs, t.Align s) ∧ ∀ v, t.stab v = []
  have hgood := stLeaves_good P (fun v => ⟨fun _ _ => trivial, fun _ => by simp [STree.stab]⟩) e0 l hpw
    (fun x y _ _ _ hz => ⟨fun s hs => ⟨hz _ (hin s hs).1, hz _ (hin s hs).2⟩,
      fun _ => by simp [STree.stab]⟩)
  obtain ⟨root₀, er, g1, g2, g3, g4, g5, g6, g7⟩ := stReduce_good P
    (fun mn cl mx ch cut a b ha hb => ⟨fun s hs => ⟨ha.1 s hs, hb.1 s hs⟩, fun v => by
      simp [STree.stab, ha.2 v, hb.2 v]⟩) _ _ _ _ _ _ (Nat.le_succ _) hgood
  obtain ⟨f1, f2, f3⟩ := foldl_fields segs root₀ g5
  refine ⟨segs.foldl (fun t s => t.addSegment s) root₀, ?_, ?_⟩
  · unfold segmentTree
    rw [e]
    simp only [bind, Except.bind]
    rw [← hsd, ← hep, hel, er]
    simp only
    rw [pyMin_sorted e0 l hpw, pyMax_sorted e0 l hpw]
    simp only
    rw [if_pos (f1.trans g1), if_pos (f2.trans g3)]
    rfl
  · intro v
    by_cases hv : root₀.min ≤ v ∧ v ≤ root₀.max
    · have hr : root₀.Reg v := by
        unfold STree.Reg; rw [g2, g4]; simpa using hv
      have := foldl_stab segs root₀ v g5 hr g6
      rwa [g7 v, List.append_nil] at this
    · rw [STree.stab_outside v _ f3 (by
        rw [f1, f2]
        rw [not_and_or, not_le, not_le] at hv; exact hv)]
      have : slowStab segs v = [] := by
        unfold slowStab
        rw [List.filter_eq_nil_iff]
        intro s hs hc
        simp only [Bool.and_eq_true, decide_eq_true_eq] at hc
        apply hv
        have b1 : ∀ x ∈ e0 :: l, e0 ≤ x := by
          intro x hx
          rcases List.mem_cons.1 hx with rfl | hx
          · exact le_rfl
          · exact ((List.pairwise_cons.1 hpw).1 x hx).le
        have b2 : ∀ x ∈ e0 :: l, x ≤ (e0 :: l).getLast (by simp) := by
          intro x hx
          exact le_getLast_of_sorted _ hpw _ hx
        exact ⟨g1 ▸ (b1 _ (hin s hs).1).trans hc.1, g3 ▸ (hc.2.le.trans (b2 _ (hin s hs).2))⟩
      rw [this]

end Ply
