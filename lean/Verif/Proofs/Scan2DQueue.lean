import Verif.Proofs.Scan2DOrder

/-! The event queue and the sorted list of active keys. -/

namespace Ply

/-! ### event queue -/

/-- The entry of a point in the queue. -/
def qget : EventQueue → Pt → Option (List SweepKey)
  | [], _ => none
  | (q, l) :: rest, z => if q = z then some l else qget rest z

def QSorted (q : EventQueue) : Prop := q.Pairwise fun a b => ek a.1 < ek b.1

theorem qget_mem {q : EventQueue} {z : Pt} {l : List SweepKey} (h : qget q z = some l) : (z, l) ∈ q := by
  induction q with
  | nil => exact absurd h (by simp [qget])
  | cons a q ih =>
    obtain ⟨x, m⟩ := a
    rw [qget] at h
    split_ifs at h with hx
    · injection h with h; subst hx h; simp
    · exact List.mem_cons_of_mem _ (ih h)

theorem qget_isSome {q : EventQueue} {z : Pt} : (qget q z).isSome ↔ ∃ l, (z, l) ∈ q := by
  induction q with
  | nil => simp [qget]
  | cons a q ih =>
    obtain ⟨x, m⟩ := a
    rw [qget]
    split_ifs with hx
    · subst hx; simp
    · rw [ih]
      simp only [List.mem_cons, Prod.mk.injEq]
      constructor
      · rintro ⟨l, h⟩; exact ⟨l, Or.inr h⟩
      · rintro ⟨l, h | h⟩
        · exact absurd h.1.symm hx
        · exact ⟨l, h⟩

theorem addEvent_points {pt z : Pt} {k : Option SweepKey} {q : EventQueue} :
    (∃ l, (z, l) ∈ addEvent pt k q) ↔ z = pt ∨ ∃ l, (z, l) ∈ q := by
  induction q with
  | nil => simp [addEvent]
  | cons a q ih =>
    obtain ⟨x, m⟩ := a
    rw [addEvent]
    split_ifs with h1 h2
    · subst h1
      simp only [List.mem_cons, Prod.mk.injEq, exists_or, exists_and_left, exists_eq]
      tauto
    · simp only [List.mem_cons, Prod.mk.injEq, exists_or, exists_and_left, exists_eq, and_true]
    · simp only [List.mem_cons, Prod.mk.injEq, exists_or, exists_and_left, exists_eq, and_true]
      rw [ih]
      tauto

theorem addEvent_sorted {pt : Pt} {k : Option SweepKey} {q : EventQueue} (h : QSorted q) :
    QSorted (addEvent pt k q) := by
  induction q with
  | nil => simp [addEvent, QSorted]
  | cons a q ih =>
    obtain ⟨x, m⟩ := a
    obtain ⟨h1, h2⟩ := List.pairwise_cons.1 h
    rw [addEvent]
    split_ifs with c1 c2
    · exact List.pairwise_cons.2 ⟨h1, h2⟩
    · rw [evLt_iff] at c2
      refine List.pairwise_cons.2 ⟨?_, h⟩
      intro b hb
      rcases List.mem_cons.1 hb with rfl | hb
      · exact c2
      · exact c2.trans (h1 b hb)
    · rw [evLt_iff] at c2
      have : ek x < ek pt := lt_of_le_of_ne (not_lt.1 c2) fun e => c1 (ek_inj.1 e)
      refine List.pairwise_cons.2 ⟨?_, ih h2⟩
      rintro ⟨z, l⟩ hb
      rcases addEvent_points.1 ⟨l, hb⟩ with rfl | ⟨l', hl⟩
      · exact this
      · exact h1 (z, l') hl

theorem qget_addEvent {pt z : Pt} {k : Option SweepKey} {q : EventQueue} (h : QSorted q) :
    qget (addEvent pt k q) z =
      if z = pt then some ((qget q pt).getD [] ++ k.toList) else qget q z := by
  induction q with
  | nil =>
    simp only [addEvent, qget]
    by_cases hz : z = pt
    · simp [hz]
    · simp [hz, Ne.symm hz]
  | cons a q ih =>
    obtain ⟨x, m⟩ := a
    obtain ⟨h1, h2⟩ := List.pairwise_cons.1 h
    rw [addEvent]
    split_ifs with c1 c2 c2 hz hz
    · subst c1
      simp [c2, qget]
    · subst c1
      rw [qget, qget, if_neg (Ne.symm c2), if_neg (Ne.symm c2)]
    · subst hz
      rw [evLt_iff] at c2
      have : qget ((x, m) :: q) z = none := by
        by_contra hc
        obtain ⟨l, hl⟩ := qget_isSome.1 (Option.isSome_iff_ne_none.2 hc)
        rcases List.mem_cons.1 hl with hl | hl
        · injection hl with hl; exact c1 hl.symm
        · exact lt_asymm (h1 _ hl) c2
      rw [this]
      simp [qget]
    · rw [qget, if_neg (Ne.symm hz)]
    · subst hz
      rw [qget, if_neg c1, ih h2, if_pos rfl, qget, if_neg c1]
    · rw [qget, qget, ih h2, if_neg hz]

/-- The keys of the segments starting at `z`. -/
def starts (S : List Seg) (z : Pt) : List SweepKey :=
  (S.filter fun s => decide (lowPt s = z)).map fun s => ⟨s, z⟩

/-- The queue holds events after `p` only, with the right start lists, and all end points after `p`. -/
structure QOK (S : List Seg) (p : Pt) (q : EventQueue) : Prop where
  sorted : QSorted q
  entry : ∀ z l, qget q z = some l → EventPoint S z ∧ ek p < ek z ∧ l = starts S z
  ends : ∀ s ∈ S, ∀ z, z = lowPt s ∨ z = topPt s → ek p < ek z → (qget q z).isSome

theorem QOK.add {S : List Seg} {p z : Pt} {q : EventQueue} (h : QOK S p q) (hz : EventPoint S z)
    (hp : ek p < ek z) : QOK S p (addEvent z none q) ∧ (qget (addEvent z none q) z).isSome ∧
      ∀ x, (qget q x).isSome → (qget (addEvent z none q) x).isSome := by
  refine ⟨⟨addEvent_sorted h.sorted, ?_, ?_⟩, ?_, ?_⟩
  · intro x l hx
    rw [qget_addEvent h.sorted] at hx
    split_ifs at hx with hxz
    · subst hxz
      refine ⟨hz, hp, ?_⟩
      injection hx with hx
      rw [← hx]
      cases hq : qget q x with
      | some l' => simp only [Option.getD_some, Option.toList_none, List.append_nil]; exact (h.entry _ _ hq).2.2
      | none =>
        simp only [Option.getD_none, Option.toList_none, List.append_nil]
        symm
        unfold starts
        rw [List.map_eq_nil_iff, List.filter_eq_nil_iff]
        intro s hs hd
        have := h.ends s hs x (Or.inl (of_decide_eq_true hd).symm) hp
        rw [hq] at this
        exact absurd this (by simp)
    · exact h.entry _ _ hx
  · intro s hs x hx hpx
    rw [qget_addEvent h.sorted]
    split_ifs
    · rfl
    · exact h.ends s hs x hx hpx
  · rw [qget_addEvent h.sorted, if_pos rfl]; rfl
  · intro x hx
    rw [qget_addEvent h.sorted]
    split_ifs
    · rfl
    · exact hx

/-- After filling the queue from the segments `P`. -/
structure QInit (P : List Seg) (q : EventQueue) : Prop where
  sorted : QSorted q
  entry : ∀ z l, qget q z = some l → (∃ s ∈ P, z = lowPt s ∨ z = topPt s) ∧ l = starts P z
  ends : ∀ s ∈ P, ∀ z, z = lowPt s ∨ z = topPt s → (qget q z).isSome

theorem starts_append (P Q : List Seg) (z : Pt) : starts (P ++ Q) z = starts P z ++ starts Q z := by
  unfold starts; simp

theorem starts_nil_of {P : List Seg} {z : Pt} (h : ∀ s ∈ P, lowPt s ≠ z) : starts P z = [] := by
  unfold starts
  rw [List.map_eq_nil_iff, List.filter_eq_nil_iff]
  intro s hs hd
  exact h s hs (of_decide_eq_true hd)

theorem QInit.getD {P : List Seg} {q : EventQueue} (h : QInit P q) (z : Pt) :
    (qget q z).getD [] = starts P z := by
  cases hq : qget q z with
  | some l => exact (h.entry _ _ hq).2
  | none =>
    symm
    apply starts_nil_of
    rintro s hs rfl
    have := h.ends s hs _ (Or.inl rfl)
    rw [hq] at this
    exact absurd this (by simp)

theorem low_ne_top {s : Seg} (h : NonH s) : lowPt s ≠ topPt s := by
  intro e
  have := h.lt
  rw [← lowPt_y, ← topPt_y, e] at this
  exact lt_irrefl _ this

/-- Adding the two end points of a segment, in either order. -/
theorem QInit.step {P : List Seg} {q q' : EventQueue} {s : Seg} (h : QInit P q) (hs : NonH s)
    (hsort : QSorted q')
    (hq : ∀ z, qget q' z = if z = lowPt s then some ((qget q z).getD [] ++ [⟨s, lowPt s⟩]) else
      if z = topPt s then some ((qget q z).getD []) else qget q z) : QInit (P ++ [s]) q' := by
  have hne := low_ne_top hs
  refine ⟨hsort, ?_, ?_⟩
  · intro z l hz
    rw [hq, h.getD] at hz
    rw [starts_append]
    split_ifs at hz with h1 h2
    · injection hz with hz
      refine ⟨⟨s, by simp, Or.inl h1⟩, ?_⟩
      rw [← hz]
      simp [starts, h1]
    · injection hz with hz
      refine ⟨⟨s, by simp, Or.inr h2⟩, ?_⟩
      rw [← hz, starts_nil_of (P := [s]) (by simp; exact Ne.symm h1), List.append_nil]
    · obtain ⟨⟨t, ht, ht'⟩, e⟩ := h.entry _ _ hz
      refine ⟨⟨t, by simp [ht], ht'⟩, ?_⟩
      rw [e, starts_nil_of (P := [s]) (by simp; exact Ne.symm h1), List.append_nil]
  · intro t ht z hz
    rw [hq]
    split_ifs with h1 h2
    · rfl
    · rfl
    · rcases List.mem_append.1 ht with ht | ht
      · exact h.ends t ht z hz
      · simp at ht; subst ht; exact absurd hz (by tauto)

theorem initQueue_spec {P S : List Seg} (hS : ∀ s ∈ S, NonH s) {q : EventQueue} (h : QInit P q) :
    ∃ q', initQueue q S = .ok q' ∧ QInit (P ++ S) q' := by
  induction S generalizing P q with
  | nil => exact ⟨q, rfl, by simpa using h⟩
  | cons s S ih =>
    have hs := hS s (by simp)
    have hne := low_ne_top hs
    have hrest := fun t ht => hS t (List.mem_cons_of_mem _ ht)
    rw [initQueue]
    have e : P ++ s :: S = (P ++ [s]) ++ S := by simp
    rw [e]
    by_cases hlt : s.1.2 < s.2.2
    · have hl : lowPt s = s.1 := if_pos hlt
      have ht : topPt s = s.2 := if_pos hlt
      rw [if_pos (evLt_iff.2 (ek_lt.2 (Or.inl hlt))), mkSweepKey_ok hs]
      have s1 : QSorted (addEvent s.1 (some ⟨s, s.1⟩) q) := addEvent_sorted h.sorted
      refine ih hrest (h.step hs (addEvent_sorted s1) ?_)
      intro z
      rw [qget_addEvent s1, qget_addEvent h.sorted, qget_addEvent h.sorted, hl, ht]
      rw [hl, ht] at hne
      by_cases c1 : z = s.1
      · subst c1; simp [hne]
      · by_cases c2 : z = s.2
        · subst c2; simp [Ne.symm hne]
        · simp [c1, c2]
    · have hl : lowPt s = s.2 := if_neg hlt
      have ht : topPt s = s.1 := if_neg hlt
      have hnot : ¬ (evLt s.1 s.2 = true) := by
        rw [evLt_iff, ek_lt]
        rintro (hc | hc)
        · exact hlt hc
        · exact hs hc.1
      rw [if_neg hnot, mkSweepKey_ok hs]
      have s1 : QSorted (addEvent s.1 none q) := addEvent_sorted h.sorted
      refine ih hrest (h.step hs (addEvent_sorted s1) ?_)
      intro z
      rw [qget_addEvent s1, qget_addEvent h.sorted, qget_addEvent h.sorted, hl, ht]
      rw [hl, ht] at hne
      by_cases c1 : z = s.2
      · subst c1; simp [hne]
      · by_cases c2 : z = s.1
        · subst c2; simp [c1]
        · simp [c1, c2]

/-! ### active list -/

theorem activeRemove_eq {k : SweepKey} {l1 l2 : List SweepKey} (h1 : ∀ a ∈ l1, a.lt k = true)
    (h2 : k.lt k = false) : activeRemove k (l1 ++ k :: l2) = .ok (l1 ++ l2) := by
  induction l1 with
  | nil =>
    rw [List.nil_append, activeRemove, if_neg (by rw [h2]; simp), if_pos rfl]
    rfl
  | cons a l1 ih =>
    rw [List.cons_append, activeRemove, if_pos (h1 a (by simp)),
      ih fun b hb => h1 b (List.mem_cons_of_mem _ hb)]
    rfl

theorem activeRemoveAll_eq {ks l : List SweepKey} (hs : l.Pairwise fun a b => a.lt b = true)
    (hirr : ∀ a ∈ l, a.lt a = false) (hnd : ks.Nodup) (hsub : ∀ k ∈ ks, k ∈ l) :
    activeRemoveAll ks l = .ok (l.filter fun a => decide (a ∉ ks)) := by
  induction ks generalizing l with
  | nil => rw [activeRemoveAll]; simp
  | cons k ks ih =>
    obtain ⟨hk, hnd'⟩ := List.nodup_cons.1 hnd
    obtain ⟨l1, l2, rfl⟩ := List.append_of_mem (hsub k (by simp))
    rw [List.pairwise_append, List.pairwise_cons] at hs
    obtain ⟨s1, ⟨s2, s3⟩, s4⟩ := hs
    have n1 : k ∉ l1 := fun hc => by
      have := s4 k hc k (by simp)
      rw [hirr k (by simp)] at this; exact absurd this (by simp)
    have n2 : k ∉ l2 := fun hc => by
      have := s2 k hc
      rw [hirr k (by simp)] at this; exact absurd this (by simp)
    rw [activeRemoveAll, activeRemove_eq (fun a ha => s4 a ha k (by simp)) (hirr k (by simp))]
    show activeRemoveAll ks (l1 ++ l2) = _
    rw [ih]
    · congr 1
      rw [List.filter_append, List.filter_append]
      congr 1
      · apply List.filter_congr
        intro a ha
        have : a ≠ k := fun e => n1 (e ▸ ha)
        simp [this]
      · rw [List.filter_cons_of_neg (by simp)]
        apply List.filter_congr
        intro a ha
        have : a ≠ k := fun e => n2 (e ▸ ha)
        simp [this]
    · rw [List.pairwise_append]
      exact ⟨s1, s3, fun a ha b hb => s4 a ha b (List.mem_cons_of_mem _ hb)⟩
    · intro a ha
      apply hirr
      rcases List.mem_append.1 ha with ha | ha <;> simp [ha]
    · exact hnd'
    · intro a ha
      have := hsub a (List.mem_cons_of_mem _ ha)
      have hne : a ≠ k := fun e => hk (e ▸ ha)
      simpa [hne] using this

theorem activeAdd_eq {k : SweepKey} {A R : List SweepKey} (h1 : ∀ a ∈ A, k.lt a = false)
    (h2 : ∀ b ∈ R, k.lt b = true) : activeAdd k (A ++ R) = A ++ k :: R := by
  induction A with
  | nil =>
    cases R with
    | nil => rfl
    | cons b R => rw [List.nil_append, activeAdd, if_pos (h2 b (by simp))]; rfl
  | cons a A ih =>
    rw [List.cons_append, activeAdd, if_neg (by rw [h1 a (by simp)]; simp),
      ih fun b hb => h1 b (List.mem_cons_of_mem _ hb)]
    rfl

theorem foldl_activeAdd {L N R : List SweepKey} (h1 : ∀ k ∈ N, ∀ a ∈ L, k.lt a = false)
    (h2 : ∀ k ∈ N, ∀ b ∈ R, k.lt b = true) (h3 : N.Pairwise fun a b => b.lt a = false) :
    N.foldl (fun act k => activeAdd k act) (L ++ R) = L ++ N ++ R := by
  induction N generalizing L with
  | nil => simp
  | cons k N ih =>
    obtain ⟨p1, p2⟩ := List.pairwise_cons.1 h3
    rw [List.foldl_cons, activeAdd_eq (h1 k (by simp)) (h2 k (by simp))]
    have : L ++ k :: R = (L ++ [k]) ++ R := by simp
    rw [this, ih]
    · simp
    · intro k' hk' a ha
      rcases List.mem_append.1 ha with ha | ha
      · exact h1 k' (List.mem_cons_of_mem _ hk') a ha
      · simp at ha; subst ha; exact p1 k' hk'
    · exact fun k' hk' => h2 k' (List.mem_cons_of_mem _ hk')
    · exact p2

theorem takeWhile_append3 {α : Type*} {g : α → Bool} {A B C : List α} (hA : ∀ a ∈ A, g a = true)
    (hC : ∀ a ∈ C, g a = false) :
    (A ++ B ++ C).takeWhile g = A ++ B.takeWhile g ∧ (A ++ B ++ C).dropWhile g = B.dropWhile g ++ C := by
  induction A with
  | nil =>
    simp only [List.nil_append]
    induction B with
    | nil =>
      cases C with
      | nil => simp
      | cons c C => simp [hC c (by simp)]
    | cons b B ih =>
      by_cases hb : g b = true
      · simp [hb, ih]
      · simp [hb]
  | cons a A ih =>
    have := ih fun b hb => hA b (List.mem_cons_of_mem _ hb)
    simp only [List.cons_append, List.takeWhile_cons, List.dropWhile_cons, hA a (by simp), if_true]
    exact ⟨by rw [this.1], this.2⟩

end Ply
