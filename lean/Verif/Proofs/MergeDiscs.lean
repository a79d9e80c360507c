import Verif.Proofs.TotalMerge
import Verif.Proofs.RingGlue

/-!
# Merging cells when every linked group of them has one ring as its border
-/

namespace Ply.CellMerger

variable {V : Type} [DecidableEq V]

open Relation (ReflTransGen)

/-- The edges of the cells whose reverse is not an edge of one of them. -/
def border (F : List (List V)) : List (V × V) := (allEdges F).filter fun e => decide (opp e ∉ allEdges F)

theorem mem_border {F : List (List V)} {e : V × V} : e ∈ border F ↔ e ∈ allEdges F ∧ opp e ∉ allEdges F := by
  unfold border
  rw [List.mem_filter, decide_eq_true_eq]

/-- From each cell one gets to each other through adjacent cells. -/
def Linked (F : List (List V)) : Prop := ∀ a ∈ F, ∀ b ∈ F, ReflTransGen (fun a b => a ∈ F ∧ b ∈ F ∧ Adjacent a b) a b

omit [DecidableEq V] in
theorem linked_one (c : List V) : Linked [c] := by
  intro a ha b hb
  rw [List.mem_singleton.1 ha, List.mem_singleton.1 hb]

omit [DecidableEq V] in
theorem Linked.append {F G : List (List V)} (hF : Linked F) (hG : Linked G) {a b : List V} (ha : a ∈ F) (hb : b ∈ G)
    (h : Adjacent a b) : Linked (F ++ G) := by
  have mF : ∀ x y, ReflTransGen (fun a b => a ∈ F ∧ b ∈ F ∧ Adjacent a b) x y →
      ReflTransGen (fun a b => a ∈ F ++ G ∧ b ∈ F ++ G ∧ Adjacent a b) x y := fun x y hxy =>
    Relation.ReflTransGen.mono (fun u v h => by obtain ⟨h1, h2, h3⟩ := h; exact ⟨List.mem_append_left _ h1, List.mem_append_left _ h2, h3⟩) x y hxy
  have mG : ∀ x y, ReflTransGen (fun a b => a ∈ G ∧ b ∈ G ∧ Adjacent a b) x y →
      ReflTransGen (fun a b => a ∈ F ++ G ∧ b ∈ F ++ G ∧ Adjacent a b) x y := fun x y hxy =>
    Relation.ReflTransGen.mono (fun u v h => by obtain ⟨h1, h2, h3⟩ := h; exact ⟨List.mem_append_right _ h1, List.mem_append_right _ h2, h3⟩) x y hxy
  have e1 : ReflTransGen (fun a b => a ∈ F ++ G ∧ b ∈ F ++ G ∧ Adjacent a b) a b :=
    .single ⟨List.mem_append_left _ ha, List.mem_append_right _ hb, h⟩
  have e2 : ReflTransGen (fun a b => a ∈ F ++ G ∧ b ∈ F ++ G ∧ Adjacent a b) b a :=
    .single ⟨List.mem_append_right _ hb, List.mem_append_left _ ha, adjacent_symm h⟩
  intro x hx y hy
  rcases List.mem_append.1 hx with hx | hx <;> rcases List.mem_append.1 hy with hy | hy
  · exact mF _ _ (hF x hx y hy)
  · exact ((mF _ _ (hF x hx a ha)).trans e1).trans (mG _ _ (hG b hb y hy))
  · exact ((mG _ _ (hG x hx b hb)).trans e2).trans (mF _ _ (hF a ha y hy))
  · exact mG _ _ (hG x hx y hy)

/-- Each linked group of the cells has one ring as its border. -/
structure Discs (cs : List (List V)) : Prop where
  ne : ∀ c ∈ cs, c ≠ []
  list : cs.Nodup
  nodup : (allEdges cs).Nodup
  self : ∀ c ∈ cs, ¬ Adjacent c c
  ring : ∀ F : List (List V), F ≠ [] → F.Nodup → (∀ c ∈ F, c ∈ cs) → Linked F →
    Ring (fun u v => (u, v) ∈ border F) ∧ border F ≠ []

/-- Cells such that the border of any linked group of several of them is one ring.  A single cell may touch itself. -/
structure Fusing (cs : List (List V)) : Prop where
  ne : ∀ c ∈ cs, c ≠ []
  list : cs.Nodup
  nodup : (allEdges cs).Nodup
  self : ∀ c ∈ cs, ¬ Adjacent c c
  ring : ∀ F : List (List V), 2 ≤ F.length → F.Nodup → (∀ c ∈ F, c ∈ cs) → Linked F →
    Ring (fun u v => (u, v) ∈ border F) ∧ border F ≠ []

theorem Discs.fusing {cs : List (List V)} (h : Discs cs) : Fusing cs where
  ne := h.ne
  list := h.list
  nodup := h.nodup
  self := h.self
  ring F hF := h.ring F (by rintro rfl; simp at hF)

omit [DecidableEq V] in
theorem edges_sub_nodup {cs F : List (List V)} (h : (allEdges cs).Nodup) (hF : F.Nodup) (hsub : ∀ c ∈ F, c ∈ cs) :
    (allEdges F).Nodup := by
  obtain ⟨l, h1, h2⟩ := List.subperm_of_subset hF hsub
  have h3 : (allEdges l).Nodup := by
    have key : ∀ {a b : List (List V)}, a.Sublist b → (allEdges a).Sublist (allEdges b) := by
      intro a b hab
      induction hab with
      | slnil => exact List.Sublist.refl _
      | cons x _ ih => exact ih.trans (List.sublist_append_right _ _)
      | cons_cons x _ ih => exact List.Sublist.append_left ih _
    exact (key h2).nodup h
  exact (h1.flatMap_right _).nodup_iff.1 h3

/-- A cell of the merger that is the border of its linked group of originals. -/
structure GroupOK (c : Cell V) : Prop where
  ne : c.vertices ≠ []
  some : c.origs ≠ []
  linked : Linked c.origs
  edges : (polyEdges c.vertices).Perm (border c.origs)

theorem merged_group {pick : ℕ → List V → V} (hpick : ∀ n vs, vs ≠ [] → pick n vs ∈ vs) {cs : List (List V)} (h : Fusing cs)
    {a b : Cell V} (ha : GroupOK a) (hb : GroupOK b) (hnd : (a.origs ++ b.origs).Nodup)
    (hsub : ∀ c ∈ a.origs ++ b.origs, c ∈ cs) :
    merged pick a b = .ok none ∨ ∃ m, merged pick a b = .ok (some [m]) ∧ GroupOK m ∧ m.origs = a.origs ++ b.origs := by
  have hE : (allEdges a.origs ++ allEdges b.origs).Nodup := by
    have := edges_sub_nodup h.nodup hnd hsub
    unfold allEdges at this ⊢
    rwa [List.flatMap_append] at this
  obtain ⟨nA, nB, dis⟩ := List.nodup_append.1 hE
  have mA : ∀ e, e ∈ polyEdges a.vertices ↔ e ∈ allEdges a.origs ∧ opp e ∉ allEdges a.origs := fun e =>
    ha.edges.mem_iff.trans mem_border
  have mB : ∀ e, e ∈ polyEdges b.vertices ↔ e ∈ allEdges b.origs ∧ opp e ∉ allEdges b.origs := fun e =>
    hb.edges.mem_iff.trans mem_border
  have nA' : (polyEdges a.vertices).Nodup := ha.edges.nodup_iff.2 (nA.filter _)
  have nB' : (polyEdges b.vertices).Nodup := hb.edges.nodup_iff.2 (nB.filter _)
  have hnd2 : (allEdges [a.vertices, b.vertices]).Nodup := by
    have : allEdges [a.vertices, b.vertices] = polyEdges a.vertices ++ polyEdges b.vertices := by simp [allEdges]
    rw [this, List.nodup_append]
    exact ⟨nA', nB', fun e he f hf => dis e ((mA e).1 he).1 f ((mB f).1 hf).1⟩
  rcases c30_merged hpick a b hnd2 with h1 | ⟨ms, h1, ⟨u, v, hu, hv⟩, h3, h4⟩
  · exact Or.inl h1.1
  · right
    have hall : allEdges (a.origs ++ b.origs) = allEdges a.origs ++ allEdges b.origs := by
      unfold allEdges; rw [List.flatMap_append]
    have hmem : ∀ e, e ∈ (polyEdges a.vertices).filter (fun e => decide ((e.2, e.1) ∉ polyEdges b.vertices)) ++
        (polyEdges b.vertices).filter (fun e => decide ((e.2, e.1) ∉ polyEdges a.vertices)) ↔ e ∈ border (a.origs ++ b.origs) := by
      intro e
      rw [List.mem_append, List.mem_filter, List.mem_filter, decide_eq_true_eq, decide_eq_true_eq, mem_border, hall]
      change _ ∧ opp e ∉ _ ∨ _ ∧ opp e ∉ _ ↔ _
      rw [mA e, mB e, mA (opp e), mB (opp e), opp_opp, List.mem_append, List.mem_append]
      have d1 : e ∈ allEdges a.origs → e ∉ allEdges b.origs := fun h1 h2 => dis e h1 e h2 rfl
      tauto
    have hnF : (border (a.origs ++ b.origs)).Nodup := by
      unfold border; rw [hall]; exact hE.filter _
    have hp : (allEdges (ms.map Cell.vertices)).Perm (border (a.origs ++ b.origs)) := by
      refine h3.trans ((List.perm_ext_iff_of_nodup ?_ hnF).2 hmem)
      rw [List.nodup_append]
      exact ⟨nA'.filter _, nB'.filter _, fun e he f hf =>
        dis e ((mA e).1 (List.mem_filter.1 he).1).1 f ((mB f).1 (List.mem_filter.1 hf).1).1⟩
    obtain ⟨x, hx, hx'⟩ := List.mem_flatMap.1 ((mA _).1 hu).1
    obtain ⟨y, hy, hy'⟩ := List.mem_flatMap.1 ((mB _).1 hv).1
    have hl := ha.linked.append hb.linked hx hy ⟨u, v, hx', hy'⟩
    have hne : a.origs ++ b.origs ≠ [] := by
      have := ha.some
      simp [this]
    obtain ⟨r1, r2⟩ := h.ring _ (by
      have h1 := List.length_pos_iff.2 ha.some
      have h2 := List.length_pos_iff.2 hb.some
      rw [List.length_append]; omega) hnd hsub hl
    obtain ⟨e, he⟩ := List.exists_mem_of_ne_nil _ r2
    obtain ⟨m, hm⟩ := r1.single (ms := ms.map Cell.vertices) (by
      intro m hm
      obtain ⟨c, hc, rfl⟩ := List.mem_map.1 hm
      exact (h4 c hc).1) (fun u v => hp.mem_iff) (hp.nodup_iff.2 hnF) ⟨e.1, e.2, he⟩
    match ms, hm, h1, h4, hp with
    | [c], _, h1, h4, hp =>
      obtain ⟨k1, k2⟩ := h4 c (by simp)
      refine ⟨c, h1, ⟨k1, by rw [k2]; exact hne, by rw [k2]; exact hl, ?_⟩, k2⟩
      rw [k2]
      simpa [allEdges] using hp

theorem mergeLoop_group {pick : ℕ → ℕ → List V → V} (hpick : ∀ j n vs, vs ≠ [] → pick j n vs ∈ vs) {cs : List (List V)}
    (h : Fusing cs) (ann : List (List V)) (others : List (Cell V)) : ∀ (cell : Cell V) (kept cells : List (Cell V)), (kept ++ others).Perm cells →
    GroupOK cell → (∀ c ∈ cells, GroupOK c) → (cell.origs ++ cells.flatMap Cell.origs).Nodup →
    (∀ c ∈ cell.origs ++ cells.flatMap Cell.origs, c ∈ cs) →
    ∃ cell' cells', mergeLoop pick others cell cells ann [] = .ok (some cell', cells', ann, []) ∧ GroupOK cell' ∧
      (∀ c ∈ cells', GroupOK c) ∧
      (cell'.origs ++ cells'.flatMap Cell.origs).Perm (cell.origs ++ cells.flatMap Cell.origs) := by
  induction others with
  | nil => exact fun cell kept cells _ h1 h2 _ _ => ⟨cell, cells, rfl, h1, h2, .refl _⟩
  | cons o others ih =>
    intro cell kept cells hp hc hcs hnd hsub
    have ho : o ∈ cells := hp.mem_iff.1 (by simp)
    have hsplit : (cells.flatMap Cell.origs).Perm (o.origs ++ (cells.erase o).flatMap Cell.origs) :=
      (List.perm_cons_erase ho).flatMap_right _
    have hall : (cell.origs ++ cells.flatMap Cell.origs).Perm
        ((cell.origs ++ o.origs) ++ (cells.erase o).flatMap Cell.origs) := by
      rw [List.append_assoc]; exact hsplit.append_left _
    have hnd' := hall.nodup_iff.1 hnd
    rw [mergeLoop]
    rcases merged_group (hpick others.length) h hc (hcs o ho) (List.nodup_append.1 hnd').1
      (fun c hc' => hsub c (hall.mem_iff.2 (List.mem_append_left _ hc'))) with e | ⟨m, e, m1, m2⟩
    · rw [e]
      exact ih cell (kept ++ [o]) cells (by rw [List.append_assoc]; exact hp) hc hcs hnd hsub
    · rw [e]
      have hp' : (kept ++ others).Perm (cells.erase o) := by
        have h1 : (o :: (kept ++ others)).Perm cells := (List.perm_middle.symm).trans hp
        have := h1.erase o
        rwa [List.erase_cons_head] at this
      obtain ⟨c', cs', f1, f2, f3, f4⟩ := ih m kept (cells.erase o) hp' m1 (fun c hc' => hcs c (List.mem_of_mem_erase hc'))
        (by rw [m2]; exact hnd') (fun c hc' => hsub c (hall.mem_iff.2 (by rwa [m2] at hc')))
      refine ⟨c', cs', ?_, f2, f3, f4.trans ?_⟩
      · show mergeLoop pick others m (cells.erase o) ann ([] ++ []) = _
        exact f1
      · rw [m2]; exact hall.symm

/-- The state after the cells `done`: linked groups of them. -/
structure Grouped (done : List (List V)) (s : Merger V) : Prop where
  cells : ∀ c ∈ s.cells, GroupOK c
  origs : (s.cells.flatMap Cell.origs).Perm done
  original : s.original = done
  ann : s.annihilated = []

theorem one_group {cs : List (List V)} (h : Fusing cs) {a : List V} (ha : a ∈ cs) : GroupOK (lone a) where
  ne := h.ne a ha
  some := by simp [lone]
  linked := linked_one a
  edges := by
    have : border [a] = polyEdges a := by
      unfold border
      rw [List.filter_eq_self.2]
      · simp [allEdges]
      · intro e he
        rw [decide_eq_true_eq]
        intro hc
        have h1 : e ∈ polyEdges a := by simpa [allEdges] using he
        have h2 : opp e ∈ polyEdges a := by simpa [allEdges] using hc
        exact h.self a ha ⟨e.1, e.2, h1, h2⟩
    show (polyEdges a).Perm (border [a])
    rw [this]

theorem addCell_group {o : Orders V} (ho : o.Valid) {fuel : ℕ} (hf : 0 < fuel) {cs : List (List V)} (h : Fusing cs)
    {done : List (List V)} (hnd : (done ++ [a]).Nodup) (hdone : ∀ c ∈ done ++ [a], c ∈ cs) {s : Merger V}
    (hs : Grouped done s) : ∃ s', addCell o fuel s a = .ok s' ∧ Grouped (done ++ [a]) s' := by
  obtain ⟨n, rfl⟩ := Nat.exists_eq_succ_of_ne_zero hf.ne'
  have hnone : a ∉ s.original := by
    rw [hs.original]
    intro hc
    exact (List.nodup_append.1 hnd).2.2 a hc a (by simp) rfl
  have hp : ((lone a).origs ++ s.cells.flatMap Cell.origs).Perm (done ++ [a]) :=
    (List.perm_append_comm).trans (hs.origs.append_right _)
  obtain ⟨c', cs', e1, e2, e3, e4⟩ := mergeLoop_group (fun j n' vs hv => ho.pick n j n' vs hv) h s.annihilated
    (o.order n s.cells) (lone a) [] s.cells (ho.order n s.cells) (one_group h (hdone a (by simp))) hs.cells
    (hp.nodup_iff.2 hnd) (fun c hc => hdone c (hp.mem_iff.1 hc)) (pick := o.pick n)
  refine ⟨⟨cs' ++ [c'], s.original ++ [a], s.annihilated⟩, ?_, ?_, ?_, by rw [← hs.original], hs.ann⟩
  · unfold addCell
    rw [if_neg hnone]
    have : addLoop o (n + 1) [lone a] s.cells s.annihilated = .ok (cs' ++ [c'], s.annihilated) := by
      rw [addLoop_step (by simp) (by simpa using e1), addLoop_nil]
      rfl
    show (addLoop o (n + 1) [lone a] s.cells s.annihilated >>= _) = _
    rw [this]
    rfl
  · intro c hc
    rcases List.mem_append.1 hc with hc | hc
    · exact e3 c hc
    · rw [List.mem_singleton.1 hc]; exact e2
  · show ((cs' ++ [c']).flatMap Cell.origs).Perm _
    rw [List.flatMap_append]
    refine (List.perm_append_comm).trans (List.Perm.trans ?_ (e4.trans hp))
    simp

theorem addCells_group {cs : List (List V)} (h : Fusing cs) (runs : List (Orders V × ℕ × List V)) :
    ∀ (done : List (List V)) (s : Merger V), (∀ r ∈ runs, r.1.Valid ∧ 0 < r.2.1) →
      (done ++ runs.map fun r => r.2.2) = cs → Grouped done s → ∃ s', addCells s runs = .ok s' ∧ Grouped cs s' := by
  induction runs with
  | nil =>
    intro done s _ hd hs
    simp only [List.map_nil, List.append_nil] at hd
    exact ⟨s, rfl, hd ▸ hs⟩
  | cons r runs ih =>
    intro done s hr hd hs
    obtain ⟨o, fuel, a⟩ := r
    obtain ⟨hv, hf⟩ := hr _ List.mem_cons_self
    have hd' : (done ++ [a]) ++ runs.map (fun r => r.2.2) = cs := by rw [← hd]; simp
    have hnd := h.list
    rw [← hd'] at hnd
    obtain ⟨s1, e1, k1⟩ := addCell_group hv hf h (List.nodup_append.1 hnd).1
      (fun c hc => by rw [← hd']; exact List.mem_append_left _ hc) hs
    obtain ⟨s2, e2, k2⟩ := ih (done ++ [a]) s1 (fun r hr' => hr r (List.mem_cons_of_mem _ hr')) hd' k1
    refine ⟨s2, ?_, k2⟩
    rw [addCells]
    show (addCell o fuel s a >>= _) = _
    rw [e1]
    exact e2

/-- All cells can be added, and each linked group becomes its border. -/
theorem merger_groups (runs : List (Orders V × ℕ × List V)) (h : Fusing (runs.map fun r => r.2.2))
    (hr : ∀ r ∈ runs, r.1.Valid ∧ 0 < r.2.1) :
    ∃ s : Merger V, addCells Merger.empty runs = .ok s ∧ Grouped (runs.map fun r => r.2.2) s ∧
      getCellsOriginals s = .ok (s.cells.map fun c => (c.vertices, c.origs)) := by
  obtain ⟨s, e, k⟩ := addCells_group h runs [] Merger.empty hr (by simp) ⟨by simp [Merger.empty], by simp [Merger.empty], rfl, rfl⟩
  refine ⟨s, e, k, ?_⟩
  have hck : check s = .ok () := by
    unfold check
    dsimp only
    rw [k.ann, List.append_nil, if_neg, if_pos]
    · rw [k.original]
      exact ⟨fun c hc => k.origs.mem_iff.1 hc, fun c hc => k.origs.mem_iff.2 hc⟩
    · rw [meets_iff]
      rintro ⟨x, -, hx⟩
      cases hx
  unfold getCellsOriginals
  rw [hck]
  rfl

end Ply.CellMerger
