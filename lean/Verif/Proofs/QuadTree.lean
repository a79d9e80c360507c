import Verif.Model.QuadTree
import Verif.Props.AABB

namespace Ply

/-- The stored centre is the centre. -/
def AABB.Coh (b : AABB) : Prop := b.updateMiddle = b

theorem AABB.coh_make (l u : Option Pt) : (AABB.make l u).Coh := rfl

theorem AABB.coh_boxOf (pts : List Pt) : (boxOf pts).Coh := by
  by_cases h : pts = []
  · subst h; rfl
  · obtain ⟨lo, hi, e, _⟩ := c20_corners pts h
    rw [e]; exact AABB.coh_make _ _

theorem AABB.eq_make_of_contains {b : AABB} (hb : b.Coh) {p : Pt} (h : b.contains p = true) :
    ∃ lo hi, b = AABB.make (some lo) (some hi) ∧ InBox lo hi p := by
  obtain ⟨⟨l1, l2⟩, ⟨u1, u2⟩, m⟩ := b
  unfold AABB.Coh AABB.updateMiddle at hb
  simp only [AABB.mk.injEq, true_and] at hb
  cases l1 <;> cases l2 <;> cases u1 <;> cases u2 <;>
    simp [AABB.contains, NQ.le] at h
  rename_i a b c d
  refine ⟨(a, b), (c, d), ?_, h.2.1, h.1.1, h.2.2, h.1.2⟩
  rw [AABB.make_some, ← hb]
  rfl

theorem AABB.intersectsSegment_of {b : AABB} (hb : b.Coh) {p : Pt} (h : b.contains p = true) {s : Seg}
    (hs : OnSeg s p) : b.intersectsSegment s = true := by
  obtain ⟨lo, hi, rfl, hin⟩ := AABB.eq_make_of_contains hb h
  exact (c21_segment lo hi (hin.1.trans hin.2.1) (hin.2.2.1.trans hin.2.2.2) s).2 ⟨p, hs, hin⟩

namespace QNode

variable {α : Type}

/-- All boxes have the right centre, and the children of a node cover it. -/
def WF : QNode α → Prop
  | leaf b _ => b.Coh
  | quad b _ c00 c01 c10 c11 => b.Coh ∧
      (∀ p, b.contains p = true → c00.aabb.contains p = true ∨ c01.aabb.contains p = true ∨
        c10.aabb.contains p = true ∨ c11.aabb.contains p = true) ∧
      c00.WF ∧ c01.WF ∧ c10.WF ∧ c11.WF

/-- `i` is stored in a node all of whose ancestors contain `p`. -/
def Found (p : Pt) (i : α) : QNode α → Prop
  | leaf b items => b.contains p = true ∧ i ∈ items
  | quad b items c00 c01 c10 c11 => b.contains p = true ∧
      (i ∈ items ∨ c00.Found p i ∨ c01.Found p i ∨ c10.Found p i ∨ c11.Found p i)

/-- `i` is stored somewhere. -/
def Stored (i : α) : QNode α → Prop
  | leaf _ items => i ∈ items
  | quad _ items c00 c01 c10 c11 =>
      i ∈ items ∨ c00.Stored i ∨ c01.Stored i ∨ c10.Stored i ∨ c11.Stored i

theorem splitBoxes_cover {b : AABB} (hb : b.Coh) {p : Pt} (h : b.contains p = true) :
    (splitBoxes b).1.contains p = true ∨ (splitBoxes b).2.1.contains p = true ∨
    (splitBoxes b).2.2.1.contains p = true ∨ (splitBoxes b).2.2.2.contains p = true := by
  obtain ⟨lo, hi, rfl, h1, h2, h3, h4⟩ := AABB.eq_make_of_contains hb h
  have e : ∀ x0 x1 y0 y1 : ℚ, boxOfRanges (some x0) (some x1) (some y0) (some y1) =
      AABB.make (some (x0, y0)) (some (x1, y1)) := fun _ _ _ _ => rfl
  rw [AABB.make_some]
  simp only [splitBoxes, NQ.map2, e, AABB.contains_make, InBox]
  rcases le_total p.1 ((hi.1 + lo.1) / 2) with hx | hx <;>
    rcases le_total p.2 ((hi.2 + lo.2) / 2) with hy | hy
  · exact Or.inl ⟨h1, hx, h3, hy⟩
  · exact Or.inr (Or.inl ⟨h1, hx, hy, h4⟩)
  · exact Or.inr (Or.inr (Or.inl ⟨hx, h2, h3, hy⟩))
  · exact Or.inr (Or.inr (Or.inr ⟨hx, h2, hy, h4⟩))

theorem split_wf {b : AABB} (hb : b.Coh) (items : Finset α) : (split b items).WF := by
  unfold split
  refine ⟨hb, fun p hp => splitBoxes_cover hb hp, ?_, ?_, ?_, ?_⟩ <;> rfl

theorem found_contains {p : Pt} {i : α} : ∀ {t : QNode α}, t.Found p i → t.aabb.contains p = true
  | leaf _ _, h => h.1
  | quad _ _ _ _ _ _, h => h.1

variable [DecidableEq α]

theorem aabb_addNoSplit (inter : α → AABB → Bool) (j : α) (t : QNode α) :
    (t.addNoSplit inter j).aabb = t.aabb := by
  cases t <;> unfold addNoSplit <;> split_ifs <;> rfl

theorem aabb_add (inter : α → AABB → Bool) (k : Int) (j : α) (t : QNode α) :
    (t.add inter k j).aabb = t.aabb := by
  cases t <;> unfold add <;> split_ifs <;> rfl

theorem wf_addNoSplit (inter : α → AABB → Bool) (j : α) (t : QNode α) (h : t.WF) :
    (t.addNoSplit inter j).WF := by
  induction t with
  | leaf b items => unfold addNoSplit; split_ifs <;> exact h
  | quad b items a b' c d ia ib ic id =>
    unfold addNoSplit
    split_ifs
    · obtain ⟨h1, h2, h3, h4, h5, h6⟩ := h
      refine ⟨h1, ?_, ia h3, ib h4, ic h5, id h6⟩
      simpa only [aabb_addNoSplit] using h2
    · exact h

theorem wf_add (inter : α → AABB → Bool) (k : Int) (j : α) (t : QNode α) (h : t.WF) :
    (t.add inter k j).WF := by
  induction t with
  | leaf b items =>
    unfold add
    split_ifs
    · obtain ⟨h1, h2, h3, h4, h5, h6⟩ := split_wf (α := α) h items
      unfold split add.addChildren
      refine ⟨h1, ?_, wf_addNoSplit _ _ _ h3, wf_addNoSplit _ _ _ h4, wf_addNoSplit _ _ _ h5,
        wf_addNoSplit _ _ _ h6⟩
      simpa only [aabb_addNoSplit] using h2
    · exact h
    · exact h
  | quad b items a b' c d ia ib ic id =>
    unfold add
    split_ifs
    · obtain ⟨h1, h2, h3, h4, h5, h6⟩ := h
      refine ⟨h1, ?_, ia h3, ib h4, ic h5, id h6⟩
      simpa only [aabb_add] using h2
    · exact h

theorem found_addNoSplit_mono (inter : α → AABB → Bool) (j : α) (t : QNode α) (p : Pt) (i : α)
    (h : t.Found p i) : (t.addNoSplit inter j).Found p i := by
  induction t with
  | leaf b items =>
    unfold addNoSplit
    split_ifs
    · exact ⟨h.1, Finset.mem_insert_of_mem h.2⟩
    · exact h
  | quad b items a b' c d ia ib ic id =>
    unfold addNoSplit
    split_ifs
    · obtain ⟨h1, h2⟩ := h
      exact ⟨h1, h2.imp (fun x => x) (Or.imp ia (Or.imp ib (Or.imp ic id)))⟩
    · exact h

theorem found_add_mono (inter : α → AABB → Bool) (k : Int) (j : α) (t : QNode α) (p : Pt) (i : α)
    (h : t.Found p i) : (t.add inter k j).Found p i := by
  induction t with
  | leaf b items =>
    unfold add
    split_ifs
    · unfold split add.addChildren
      exact ⟨h.1, Or.inl h.2⟩
    · exact ⟨h.1, Finset.mem_insert_of_mem h.2⟩
    · exact h
  | quad b items a b' c d ia ib ic id =>
    unfold add
    split_ifs
    · obtain ⟨h1, h2⟩ := h
      exact ⟨h1, h2.imp (fun x => x) (Or.imp ia (Or.imp ib (Or.imp ic id)))⟩
    · exact h

omit [DecidableEq α] in
theorem coh_of_wf : ∀ {t : QNode α}, t.WF → t.aabb.Coh
  | leaf _ _, h => h
  | quad _ _ _ _ _ _, h => h.1

theorem found_addNoSplit (inter : α → AABB → Bool) (j : α) (t : QNode α) (p : Pt) (hw : t.WF)
    (hI : ∀ b : AABB, b.Coh → b.contains p = true → inter j b = true)
    (h : t.aabb.contains p = true) : (t.addNoSplit inter j).Found p j := by
  induction t with
  | leaf b items =>
    unfold addNoSplit
    rw [if_pos (hI b hw h)]
    exact ⟨h, Finset.mem_insert_self _ _⟩
  | quad b items a b' c d ia ib ic id =>
    unfold addNoSplit
    obtain ⟨h1, h2, h3, h4, h5, h6⟩ := hw
    rw [if_pos (hI b h1 h)]
    refine ⟨h, Or.inr ?_⟩
    exact (h2 p h).imp (ia h3) (Or.imp (ib h4) (Or.imp (ic h5) (id h6)))

theorem found_add (inter : α → AABB → Bool) (k : Int) (j : α) (t : QNode α) (p : Pt) (hw : t.WF)
    (hI : ∀ b : AABB, b.Coh → b.contains p = true → inter j b = true)
    (h : t.aabb.contains p = true) : (t.add inter k j).Found p j := by
  induction t with
  | leaf b items =>
    unfold add
    rw [if_pos (hI b hw h)]
    split_ifs
    · have hw' := split_wf (α := α) hw items
      have := found_addNoSplit inter j (split b items) p hw' hI h
      unfold split at this ⊢
      unfold addNoSplit at this
      rw [if_pos (hI b hw h)] at this
      exact this
    · exact ⟨h, Finset.mem_insert_self _ _⟩
  | quad b items a b' c d ia ib ic id =>
    unfold add
    obtain ⟨h1, h2, h3, h4, h5, h6⟩ := hw
    rw [if_pos (hI b h1 h)]
    refine ⟨h, Or.inr ?_⟩
    exact (h2 p h).imp (ia h3) (Or.imp (ib h4) (Or.imp (ic h5) (id h6)))

theorem findAll_of_found (pred : AABB → Bool) (t : QNode α) (p : Pt) (i : α) (hw : t.WF)
    (hI : ∀ b : AABB, b.Coh → b.contains p = true → pred b = true) (h : t.Found p i) :
    i ∈ t.findAll pred := by
  induction t with
  | leaf b items =>
    unfold findAll
    rw [if_pos (hI b hw h.1)]
    exact h.2
  | quad b items a b' c d ia ib ic id =>
    unfold findAll
    obtain ⟨h1, h2, h3, h4, h5, h6⟩ := hw
    rw [if_pos (hI b h1 h.1)]
    simp only [Finset.mem_union]
    rcases h.2 with h | h | h | h | h
    · simp [h]
    · simp [ia h3 h]
    · simp [ib h4 h]
    · simp [ic h5 h]
    · simp [id h6 h]

theorem stored_of_findAll (pred : AABB → Bool) (t : QNode α) (i : α) (h : i ∈ t.findAll pred) :
    t.Stored i := by
  induction t with
  | leaf b items =>
    unfold findAll at h
    split_ifs at h
    · exact h
    · simp at h
  | quad b items a b' c d ia ib ic id =>
    unfold findAll at h
    split_ifs at h
    · simp only [Finset.mem_union] at h
      rcases h with (((h | h) | h) | h) | h
      · exact Or.inl h
      · exact Or.inr (Or.inl (ia h))
      · exact Or.inr (Or.inr (Or.inl (ib h)))
      · exact Or.inr (Or.inr (Or.inr (Or.inl (ic h))))
      · exact Or.inr (Or.inr (Or.inr (Or.inr (id h))))
    · simp at h

theorem stored_addNoSplit (inter : α → AABB → Bool) (j : α) (t : QNode α) (i : α)
    (h : (t.addNoSplit inter j).Stored i) : t.Stored i ∨ i = j := by
  induction t with
  | leaf b items =>
    unfold addNoSplit at h
    split_ifs at h
    · rcases Finset.mem_insert.1 h with h | h
      · exact Or.inr h
      · exact Or.inl h
    · exact Or.inl h
  | quad b items a b' c d ia ib ic id =>
    unfold addNoSplit at h
    split_ifs at h
    · unfold Stored at h ⊢
      rcases h with h | h | h | h | h
      · simp [h]
      · rcases ia h with h | h <;> simp [h]
      · rcases ib h with h | h <;> simp [h]
      · rcases ic h with h | h <;> simp [h]
      · rcases id h with h | h <;> simp [h]
    · exact Or.inl h

theorem stored_add (inter : α → AABB → Bool) (k : Int) (j : α) (t : QNode α) (i : α)
    (h : (t.add inter k j).Stored i) : t.Stored i ∨ i = j := by
  induction t with
  | leaf b items =>
    unfold add at h
    split_ifs at h
    · unfold split add.addChildren Stored at h
      unfold Stored
      have key : ∀ b : AABB, (addNoSplit inter j (leaf b ∅)).Stored i → i = j := by
        intro b hb
        rcases stored_addNoSplit inter j _ i hb with h | h
        · exact absurd h (by simp [Stored])
        · exact h
      rcases h with h | h | h | h | h
      · exact Or.inl h
      all_goals exact Or.inr (key _ h)
    · rcases Finset.mem_insert.1 h with h | h
      · exact Or.inr h
      · exact Or.inl h
    · exact Or.inl h
  | quad b items a b' c d ia ib ic id =>
    unfold add at h
    split_ifs at h
    · unfold Stored at h ⊢
      rcases h with h | h | h | h | h
      · simp [h]
      · rcases ia h with h | h <;> simp [h]
      · rcases ib h with h | h <;> simp [h]
      · rcases ic h with h | h <;> simp [h]
      · rcases id h with h | h <;> simp [h]
    · exact Or.inl h

end QNode

namespace PMRQuadTree

variable {α : Type} [DecidableEq α]

theorem inter_add (t : PMRQuadTree α) (j : α) : (t.add j).inter = t.inter := rfl

theorem foldl_inter (t : PMRQuadTree α) (l : List α) : (l.foldl add t).inter = t.inter := by
  induction l generalizing t with
  | nil => rfl
  | cons a l ih => rw [List.foldl_cons, ih]; rfl

theorem foldl_aabb (t : PMRQuadTree α) (l : List α) :
    (l.foldl add t).root.aabb = t.root.aabb := by
  induction l generalizing t with
  | nil => rfl
  | cons a l ih => rw [List.foldl_cons, ih]; exact QNode.aabb_add _ _ _ _

theorem foldl_wf (t : PMRQuadTree α) (l : List α) (h : t.root.WF) : (l.foldl add t).root.WF := by
  induction l generalizing t with
  | nil => exact h
  | cons a l ih => exact ih _ (QNode.wf_add _ _ _ _ h)

theorem foldl_mono (t : PMRQuadTree α) (l : List α) (p : Pt) (i : α) (h : t.root.Found p i) :
    (l.foldl add t).root.Found p i := by
  induction l generalizing t with
  | nil => exact h
  | cons a l ih => exact ih _ (QNode.found_add_mono _ _ _ _ _ _ h)

theorem foldl_found (t : PMRQuadTree α) (l : List α) (p : Pt) (i : α) (hi : i ∈ l) (hw : t.root.WF)
    (hI : ∀ b : AABB, b.Coh → b.contains p = true → t.inter i b = true)
    (h : t.root.aabb.contains p = true) : (l.foldl add t).root.Found p i := by
  induction l generalizing t with
  | nil => simp at hi
  | cons a l ih =>
    rw [List.foldl_cons]
    rcases List.mem_cons.1 hi with rfl | hi
    · exact foldl_mono _ _ _ _ (QNode.found_add _ _ _ _ _ hw hI h)
    · exact ih _ hi (QNode.wf_add _ _ _ _ hw) hI (by
        rw [show (t.add a).root.aabb = t.root.aabb from QNode.aabb_add _ _ _ _]; exact h)

theorem foldl_stored (t : PMRQuadTree α) (l : List α) (i : α) (h : (l.foldl add t).root.Stored i) :
    t.root.Stored i ∨ i ∈ l := by
  induction l generalizing t with
  | nil => exact Or.inl h
  | cons a l ih =>
    rcases ih _ h with h | h
    · rcases QNode.stored_add _ _ _ _ _ h with h | h
      · exact Or.inl h
      · exact Or.inr (by simp [h])
    · exact Or.inr (by simp [h])

end PMRQuadTree
end Ply
