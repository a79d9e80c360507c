import Verif.Props.CellMerger
import Verif.Proofs.ArrOp

/-!
# What merging keeps constant along the cells

A label of the half-edges that is constant along every cell added, and agrees on the two sides of every edge
along which cells can be merged, is constant along every cell of the result.
-/

namespace Ply.CellMerger

variable {V : Type} [DecidableEq V] {β : Type*}

/-- The label is constant along the cell, and the cell has no edge in both directions. -/
structure Good (E : List (V × V)) (Φ : V × V → β) (c : Cell V) : Prop where
  sub : ∀ e ∈ c.edges, e ∈ E
  const : ∀ e ∈ c.edges, ∀ f ∈ c.edges, Φ e = Φ f
  once : ∀ e ∈ c.edges, opp e ∉ c.edges

omit [DecidableEq V] in
theorem Good.of_vertices {E : List (V × V)} {Φ : V × V → β} {c d : Cell V} (h : Good E Φ c) (e : c.vertices = d.vertices) :
    Good E Φ d := by
  obtain ⟨a, b, c'⟩ := h
  unfold Cell.edges at a b c'
  rw [e] at a b c'
  exact ⟨a, b, c'⟩

variable {E : List (V × V)} {Φ : V × V → β} (hΦ : ∀ e ∈ E, opp e ∈ E → Φ e = Φ (opp e))
include hΦ

theorem merged_good {pick : ℕ → List V → V} (hpick : ∀ n vs, vs ≠ [] → pick n vs ∈ vs) {a b : Cell V}
    (hnd : (a.edges ++ b.edges).Nodup) (ha : Good E Φ a) (hb : Good E Φ b) {ms : List (Cell V)}
    (h : merged pick a b = .ok (some ms)) : ∀ m ∈ ms, Good E Φ m := by
  rcases merged_spec hpick a b hnd with ⟨h', _⟩ | ⟨ms', D, h', hD, hp, _, hDm⟩
  · rw [h] at h'; cases h'
  rw [h] at h'
  cases h'
  intro m hm
  have hin : ∀ e ∈ m.edges, e ∈ cellsEdges ms := fun e he => List.mem_flatMap.2 ⟨m, hm, he⟩
  have hab : ∀ e ∈ m.edges, e ∈ a.edges ∨ e ∈ b.edges := fun e he =>
    List.mem_append.1 (hp.mem_iff.2 (List.mem_append_right _ (hin e he)))
  have hout : ∀ e ∈ m.edges, e ∉ D ∧ opp e ∉ D := by
    intro e he
    have hn := (List.nodup_append.1 (hp.nodup_iff.1 hnd)).2.2
    refine ⟨fun hc => hn e (List.mem_append_left _ hc) e (hin e he) rfl, fun hc => ?_⟩
    exact hn e (List.mem_append_right _ (List.mem_map.2 ⟨_, hc, opp_opp e⟩)) e (hin e he) rfl
  obtain ⟨x, hx⟩ := List.exists_mem_of_ne_nil D hD
  obtain ⟨xa, xb⟩ := (hDm x).1 hx
  have hval : ∀ e ∈ m.edges, Φ e = Φ x := by
    intro e he
    rcases hab e he with h | h
    · exact ha.const e h x xa
    · rw [hb.const e h _ xb]; exact (hΦ x (ha.sub x xa) (hb.sub _ xb)).symm
  refine ⟨fun e he => ?_, fun e he f hf => (hval e he).trans (hval f hf).symm, fun e he hc => ?_⟩
  · rcases hab e he with h | h
    · exact ha.sub e h
    · exact hb.sub e h
  · rcases hab e he with h1 | h1 <;> rcases hab _ hc with h2 | h2
    · exact ha.once e h1 h2
    · exact (hout e he).1 ((hDm e).2 ⟨h1, h2⟩)
    · exact (hout e he).2 ((hDm _).2 ⟨h2, h1⟩)
    · exact hb.once e h1 h2

theorem mergeLoop_good {pick : ℕ → ℕ → List V → V} (hpick : ∀ j n vs, vs ≠ [] → pick j n vs ∈ vs)
    (others : List (Cell V)) : ∀ (cell : Cell V) (cells : List (Cell V)) (ann : List (List V))
      (toAdd : List (Cell V)) (r : Option (Cell V)) (cells' : List (Cell V)) (ann' : List (List V)) (toAdd' : List (Cell V)),
      (cell.edges ++ cellsEdges cells).Nodup → others.Subperm cells →
      Good E Φ cell → (∀ c ∈ cells, Good E Φ c) → (∀ c ∈ toAdd, Good E Φ c) →
      mergeLoop pick others cell cells ann toAdd = .ok (r, cells', ann', toAdd') →
      (∀ c ∈ r, Good E Φ c) ∧ (∀ c ∈ cells', Good E Φ c) ∧ ∀ c ∈ toAdd', Good E Φ c := by
  induction others with
  | nil =>
    intro cell cells ann toAdd r cells' ann' toAdd' hnd hsub h1 h2 h3 h
    rw [mergeLoop] at h
    cases h
    exact ⟨fun c hc => by cases hc; exact h1, h2, h3⟩
  | cons other rest ih =>
    intro cell cells ann toAdd r cells' ann' toAdd' hnd hsub h1 h2 h3 h
    have hmem : other ∈ cells := hsub.subset List.mem_cons_self
    have hce := List.perm_cons_erase hmem
    have hE : (cell.edges ++ cellsEdges cells).Perm
        ((cell.edges ++ other.edges) ++ cellsEdges (cells.erase other)) := by
      rw [List.append_assoc, ← cellsEdges_cons]
      exact (cellsEdges_perm hce).append_left _
    have hnd2 : (cell.edges ++ other.edges).Nodup := (List.nodup_append.1 (hE.nodup_iff.1 hnd)).1
    have hsub' : rest.Subperm (cells.erase other) := by
      have := hsub.erase other
      rwa [List.erase_cons_head] at this
    have h2' : ∀ c ∈ cells.erase other, Good E Φ c := fun c hc => h2 c (List.mem_of_mem_erase hc)
    rw [mergeLoop] at h
    obtain ⟨om, hm, h⟩ := (bind_ok _ _ _).1 h
    match om, hm, h with
    | none, hm, h =>
      exact ih cell cells ann toAdd r cells' ann' toAdd' hnd (hsub'.trans (List.erase_subperm _ _)) h1 h2 h3 h
    | some [], hm, h =>
      dsimp only at h
      split_ifs at h
      cases h
      refine ⟨(fun c hc => by cases hc), fun c hc => ?_, h3⟩
      obtain ⟨d, hd, rfl⟩ := List.mem_map.1 hc
      refine (h2' d hd).of_vertices ?_
      split_ifs <;> rfl
    | some (m :: ms), hm, h =>
      dsimp only at h
      have hg := merged_good hΦ (hpick rest.length) hnd2 h1 (h2 other hmem) hm
      have hnd' : (m.edges ++ cellsEdges (cells.erase other)).Nodup := by
        rcases merged_spec (hpick rest.length) cell other hnd2 with ⟨h', _⟩ | ⟨ms', D, h', hD, hp, _, hDm⟩
        · rw [hm] at h'; cases h'
        rw [hm] at h'
        cases h'
        have hp' : (cell.edges ++ cellsEdges cells).Perm
            ((D ++ D.map opp) ++ ((m.edges ++ cellsEdges (cells.erase other)) ++ cellsEdges ms)) := by
          refine hE.trans ((hp.append_right _).trans ?_)
          rw [cellsEdges_cons, List.perm_iff_count]
          intro e
          simp only [List.count_append]
          omega
        exact (List.nodup_append.1 (List.nodup_append.1 (hp'.nodup_iff.1 hnd)).2.1).1
      refine ih m (cells.erase other) ann (toAdd ++ ms) r cells' ann' toAdd' hnd' hsub' (hg m List.mem_cons_self) h2' ?_ h
      intro c hc
      rcases List.mem_append.1 hc with hc | hc
      · exact h3 c hc
      · exact hg c (List.mem_cons_of_mem _ hc)

theorem addLoop_good {o : Orders V} (ho : o.Valid) (n : ℕ) :
    ∀ (toAdd cells : List (Cell V)) (ann : List (List V)) (cells' : List (Cell V)) (ann' : List (List V)),
      (cellsEdges toAdd ++ cellsEdges cells).Nodup → Separate cells →
      (∀ c ∈ toAdd, Good E Φ c) → (∀ c ∈ cells, Good E Φ c) →
      addLoop o n toAdd cells ann = .ok (cells', ann') →
      (∀ c ∈ cells', Good E Φ c) ∧ Separate cells' ∧
        ∃ D, (cellsEdges toAdd ++ cellsEdges cells).Perm ((D ++ D.map opp) ++ cellsEdges cells') := by
  induction n with
  | zero =>
    intro toAdd cells ann cells' ann' hnd hsep h1 h2 h
    by_cases h0 : toAdd = []
    · subst h0
      rw [addLoop_nil] at h
      cases h
      exact ⟨h2, hsep, [], by simp [cellsEdges]⟩
    · rw [addLoop.eq_def] at h
      dsimp only at h
      rw [dif_neg h0] at h
      cases h
  | succ n ih =>
    intro toAdd cells ann cells' ann' hnd hsep hg1 hg2 h
    by_cases h0 : toAdd = []
    · subst h0
      rw [addLoop_nil] at h
      cases h
      exact ⟨hg2, hsep, [], by simp [cellsEdges]⟩
    · have hsplit := List.dropLast_append_getLast h0
      set cell := toAdd.getLast h0 with hcell
      set pend := toAdd.dropLast with hpend
      have hE0 : (cellsEdges toAdd ++ cellsEdges cells).Perm
          (cellsEdges pend ++ (cell.edges ++ cellsEdges cells)) := by
        rw [← hsplit, cellsEdges_append, List.append_assoc]
        simp [cellsEdges]
      have hnd1 : (cell.edges ++ cellsEdges cells).Nodup :=
        (List.nodup_append.1 (hE0.nodup_iff.1 hnd)).2.1
      rcases mergeLoop_spec (ho.pick n) (o.order n cells) cell cells [] ann pend hnd1
        (by simpa using (ho.order n cells).symm) hsep (by simp) with hm |
        ⟨r, cells1, ann1, toAdd1, hm, ⟨D, new, h1, h2, h3, h4⟩, h5⟩
      · rw [addLoop_step_error h0 hm] at h; cases h
      · rw [addLoop_step h0 hm] at h
        obtain ⟨g1, g2, g3⟩ := mergeLoop_good hΦ (ho.pick n) _ cell cells ann pend r cells1 ann1 toAdd1 hnd1
          (ho.order n cells).subperm (hg1 _ (List.getLast_mem _)) hg2
          (fun c hc => hg1 c (List.mem_of_mem_dropLast hc)) hm
        have hall : (cellsEdges toAdd ++ cellsEdges cells).Perm
            ((D ++ D.map opp) ++ (cellsEdges toAdd1 ++ cellsEdges (cells1 ++ r.toList))) := by
          refine hE0.trans ((h4.append_left _).trans ?_)
          rw [h1, cellsEdges_append, cellsEdges_append]
          rw [List.perm_iff_count]
          intro e
          simp only [List.count_append]
          omega
        have hnd' := (List.nodup_append.1 (hall.nodup_iff.1 hnd)).2.1
        obtain ⟨k1, k2, D', k3⟩ := ih toAdd1 (cells1 ++ r.toList) ann1 cells' ann' hnd' h5 g3 (by
          intro c hc
          rcases List.mem_append.1 hc with hc | hc
          · exact g2 c hc
          · exact g1 c (Option.mem_toList.1 hc)) h
        refine ⟨k1, k2, D ++ D', hall.trans ((k3.append_left _).trans ?_)⟩
        rw [List.map_append]
        rw [List.perm_iff_count]
        intro e
        simp only [List.count_append]
        omega

theorem addCells_good (runs : List (Orders V × ℕ × List V)) : ∀ (s s' : Merger V),
    (∀ r ∈ runs, r.1.Valid) → Separate s.cells →
    (cellsEdges s.cells ++ runs.flatMap fun r => polyEdges r.2.2).Nodup →
    (∀ c ∈ s.cells, Good E Φ c) → (∀ r ∈ runs, ∀ o, Good E Φ ⟨r.2.2, o⟩) →
    addCells s runs = .ok s' → ∀ c ∈ s'.cells, Good E Φ c := by
  induction runs with
  | nil =>
    intro s s' _ _ _ hg _ h
    cases h
    exact hg
  | cons r runs ih =>
    obtain ⟨o, fuel, c⟩ := r
    intro s s' hruns hs hnd hg hgr h
    have ho : o.Valid := hruns (o, fuel, c) (by simp)
    rw [List.flatMap_cons] at hnd
    simp only at hnd
    rw [addCells] at h
    obtain ⟨s1, h1, h⟩ := (bind_ok _ _ _).1 h
    unfold addCell at h1
    split_ifs at h1
    obtain ⟨⟨cf, af⟩, h2, h1⟩ := (bind_ok _ _ _).1 h1
    cases h1
    have hone : cellsEdges [(⟨c, [c]⟩ : Cell V)] = polyEdges c := by simp [cellsEdges]
    rw [← List.append_assoc] at hnd
    have hnd1 : (cellsEdges [(⟨c, [c]⟩ : Cell V)] ++ cellsEdges s.cells).Nodup := by
      rw [hone]
      exact List.nodup_append_comm.1 (List.nodup_append.1 hnd).1
    obtain ⟨k1, k2, D, k3⟩ := addLoop_good hΦ ho fuel _ _ _ _ _ hnd1 hs (by
      intro d hd
      rw [List.mem_singleton] at hd
      rw [hd]
      exact hgr (o, fuel, c) (by simp) _) hg h2
    refine ih ⟨cf, s.original ++ [c], af⟩ s' (fun r hr => hruns r (List.mem_cons_of_mem _ hr)) k2 ?_ k1
      (fun r hr => hgr r (List.mem_cons_of_mem _ hr)) h
    rw [hone] at k3
    have hall : ((cellsEdges s.cells ++ polyEdges c) ++ runs.flatMap fun r => polyEdges r.2.2).Perm
        ((D ++ D.map opp) ++ (cellsEdges cf ++ runs.flatMap fun r => polyEdges r.2.2)) := by
      refine ((List.perm_append_comm.trans k3).append_right _).trans ?_
      rw [List.append_assoc]
    exact (List.nodup_append.1 (hall.nodup_iff.1 hnd)).2.1

end Ply.CellMerger
