import Verif.Proofs.CellMerger
import Verif.Spec.Cells
import Mathlib.Data.List.Count

/-!
# C28, C29, C30, C61: merging cells

The iteration orders of Python's sets are quantified over (`Orders.Valid`).
-/

namespace Ply

open CellMerger

variable {V : Type} [DecidableEq V]

/-- **C30.** Merging two cells whose directed edges are all different never fails.  If they are not
adjacent the result is `None`; otherwise it is a list of closed loops that together use each edge
whose reverse is not in the other cell, exactly once, and each loop carries the originals of both. -/
theorem c30_merged {pick : ℕ → List V → V} (hpick : ∀ n vs, vs ≠ [] → pick n vs ∈ vs) (a b : Cell V)
    (hnd : (allEdges [a.vertices, b.vertices]).Nodup) :
    (merged pick a b = .ok none ∧ ¬ Adjacent a.vertices b.vertices) ∨
    ∃ ms, merged pick a b = .ok (some ms) ∧ Adjacent a.vertices b.vertices ∧
      (allEdges (ms.map Cell.vertices)).Perm
        ((polyEdges a.vertices).filter (fun e => decide ((e.2, e.1) ∉ polyEdges b.vertices)) ++
         (polyEdges b.vertices).filter (fun e => decide ((e.2, e.1) ∉ polyEdges a.vertices))) ∧
      ∀ c ∈ ms, c.vertices ≠ [] ∧ c.origs = a.origs ++ b.origs := by
  have hnd' : (polyEdges a.vertices ++ polyEdges b.vertices).Nodup := by simpa [allEdges] using hnd
  rcases merged_spec hpick a b hnd' with ⟨h1, h2⟩ | ⟨ms, D, h1, h2, h3, h4, h5⟩
  · left
    refine ⟨h1, ?_⟩
    rintro ⟨u, v, hu, hv⟩
    exact h2 (u, v) hu hv
  · right
    refine ⟨ms, h1, ?_, ?_, fun c hc => ⟨(h4 c hc).2, (h4 c hc).1⟩⟩
    · obtain ⟨e, he⟩ := List.exists_mem_of_ne_nil D h2
      exact ⟨e.1, e.2, ((h5 e).1 he).1, ((h5 e).1 he).2⟩
    · have hE : allEdges (ms.map Cell.vertices) = cellsEdges ms := by
        rw [cellsEdges_eq_map]; rfl
      rw [hE]
      have hn3 := h3.nodup_iff.1 hnd'
      have hnE : (cellsEdges ms).Nodup := (List.nodup_append.1 hn3).2.1
      have hDE : ∀ e ∈ D ++ D.map opp, e ∉ cellsEdges ms := fun e he hc =>
        (List.nodup_append.1 hn3).2.2 e he e hc rfl
      obtain ⟨na, nb, nab⟩ := List.nodup_append.1 hnd'
      rw [List.perm_ext_iff_of_nodup hnE]
      · intro e
        rw [List.mem_append, List.mem_filter, List.mem_filter]
        simp only [decide_eq_true_eq]
        constructor
        · intro he
          have hmem := h3.mem_iff.2 (List.mem_append_right _ he)
          rcases List.mem_append.1 hmem with hm | hm
          · left
            refine ⟨hm, fun hc => ?_⟩
            exact hDE e (List.mem_append_left _ ((h5 e).2 ⟨hm, hc⟩)) he
          · right
            refine ⟨hm, fun hc => ?_⟩
            refine hDE e (List.mem_append_right _ (List.mem_map.2 ⟨opp e, (h5 _).2 ⟨hc, ?_⟩, rfl⟩)) he
            rw [opp_opp]; exact hm
        · rintro (⟨hm, hc⟩ | ⟨hm, hc⟩)
          · rcases List.mem_append.1 (h3.mem_iff.1 (List.mem_append_left _ hm)) with h | h
            · rcases List.mem_append.1 h with h | h
              · exact absurd ((h5 e).1 h).2 hc
              · obtain ⟨f, hf, rfl⟩ := List.mem_map.1 h
                exact absurd rfl (nab _ hm _ ((h5 f).1 hf).2)
            · exact h
          · rcases List.mem_append.1 (h3.mem_iff.1 (List.mem_append_right _ hm)) with h | h
            · rcases List.mem_append.1 h with h | h
              · exact absurd rfl (nab _ ((h5 e).1 h).1 _ hm)
              · obtain ⟨f, hf, rfl⟩ := List.mem_map.1 h
                exact absurd ((h5 f).1 hf).1 hc
            · exact h
      · rw [List.nodup_append]
        exact ⟨na.filter _, nb.filter _, fun e he f hf =>
          nab e (List.mem_filter.1 he).1 f (List.mem_filter.1 hf).1⟩



/-- The number of directed edges of all cells of a run. -/
def runEdges (runs : List (Orders V × ℕ × List V)) : List (V × V) := allEdges (runs.map fun r => r.2.2)

/-- The orders are iteration orders, and the loops have enough fuel to run to completion. -/
def CompleteRuns (runs : List (Orders V × ℕ × List V)) : Prop :=
  ∀ r ∈ runs, r.1.Valid ∧ ((runEdges runs).length + 1) * ((runEdges runs).length + 1) ≤ r.2.1

theorem c28_main (runs : List (Orders V × ℕ × List V)) (hr : CompleteRuns runs) (hnd : (runEdges runs).Nodup) :
    addCells Merger.empty runs = .error .assertion ∨
    ∃ s, addCells Merger.empty runs = .ok s ∧ Separate s.cells ∧
      s.original = runs.map (fun r => r.2.2) ∧
      ∃ D, (runEdges runs).Perm ((D ++ D.map opp) ++ allEdges (s.cells.map Cell.vertices)) := by
  have hE : (cellsEdges (Merger.empty : Merger V).cells ++ runs.flatMap fun r => polyEdges r.2.2) = runEdges runs := by
    simp [Merger.empty, cellsEdges, runEdges, allEdges, List.flatMap_map]
  rcases addCells_spec (runEdges runs).length runs Merger.empty hr (by simp [Separate, Merger.empty])
    (by rw [hE]; exact hnd) (by rw [hE]) with h | ⟨s, h1, h2, h3, D, h4⟩
  · exact Or.inl h
  · refine Or.inr ⟨s, h1, h2, by simpa [Merger.empty] using h3, D, ?_⟩
    rw [hE, cellsEdges_eq_map] at h4
    exact h4

/-- **C28.** Adding cells whose directed edges are all different: whatever the iteration orders, the
only possible failure is an assertion, and otherwise the oriented boundary of the current cells is
that of the cells added. -/
theorem c28_content (runs : List (Orders V × ℕ × List V)) (hr : CompleteRuns runs) (hnd : (runEdges runs).Nodup) :
    addCells Merger.empty runs = .error .assertion ∨
    ∃ s, addCells Merger.empty runs = .ok s ∧ s.original = runs.map (fun r => r.2.2) ∧
      ∀ u v, signedContent (s.cells.map Cell.vertices) u v = signedContent (runs.map fun r => r.2.2) u v := by
  rcases c28_main runs hr hnd with h | ⟨s, h1, _, h3, D, h4⟩
  · exact Or.inl h
  · refine Or.inr ⟨s, h1, h3, fun u v => ?_⟩
    unfold signedContent
    have e1 := h4.count_eq (u, v)
    have e2 := h4.count_eq (v, u)
    unfold runEdges at e1 e2
    rw [e1, e2]
    simp only [List.count_append]
    have hc : ∀ a b : V, (D.map opp).count (a, b) = D.count (b, a) := by
      intro a b
      have : (a, b) = opp (b, a) := rfl
      rw [this, List.count_map_of_injective _ _ fun x y h => opp_inj.1 h]
    rw [hc, hc]
    push_cast
    ring

/-- **C28.** The signed areas of the current cells sum to those of the cells added. -/
theorem c28_area (runs : List (Orders Pt × ℕ × List Pt)) (hr : CompleteRuns runs) (hnd : (runEdges runs).Nodup)
    {s : Merger Pt} (hs : addCells Merger.empty runs = .ok s) :
    ((s.cells.map Cell.vertices).map shoelace).sum = ((runs.map fun r => r.2.2).map shoelace).sum := by
  rcases c28_main runs hr hnd with h | ⟨s', h1, _, _, D, h4⟩
  · rw [h] at hs; cases hs
  · rw [hs] at h1
    cases h1
    have key : ∀ cs : List (List Pt), (cs.map shoelace).sum =
        ((allEdges cs).map fun e => cross e.1 e.2).sum / 2 := by
      intro cs
      induction cs with
      | nil => simp [allEdges]
      | cons c cs ih =>
        rw [List.map_cons, List.sum_cons, ih]
        simp only [allEdges, List.flatMap_cons, List.map_append, List.sum_append, shoelace]
        ring
    rw [key, key]
    have := sum_antisymm (fun e : Pt × Pt => cross e.1 e.2) (by intro e; simp [cross, opp]; ring) h4
    unfold runEdges at this
    rw [this]

/-- **C28.** At every point the winding numbers of the current cells sum to those of the cells
added. -/
theorem c28_winding (runs : List (Orders Pt × ℕ × List Pt)) (hr : CompleteRuns runs)
    (hnd : (runEdges runs).Nodup) {s : Merger Pt} (hs : addCells Merger.empty runs = .ok s) (p : Pt) :
    ((s.cells.map Cell.vertices).map fun c => windingNumber c p).sum =
      ((runs.map fun r => r.2.2).map fun c => windingNumber c p).sum := by
  rcases c28_main runs hr hnd with h | ⟨s', h1, _, _, D, h4⟩
  · rw [h] at hs; cases hs
  · rw [hs] at h1
    cases h1
    have key : ∀ cs : List (List Pt), (cs.map fun c => windingNumber c p).sum =
        ((allEdges cs).map fun e => crossing p e.1 e.2).sum := by
      intro cs
      induction cs with
      | nil => simp [allEdges]
      | cons c cs ih =>
        rw [List.map_cons, List.sum_cons, ih]
        simp only [allEdges, List.flatMap_cons, List.map_append, List.sum_append, windingNumber]
    rw [key, key]
    have := sum_antisymm (fun e : Pt × Pt => crossing p e.1 e.2) (by
      intro e
      have ho : orient e.2 e.1 p = - orient e.1 e.2 p := by simp only [orient]; ring
      simp only [crossing, opp, ho, Left.neg_pos_iff, Left.neg_neg_iff]
      split_ifs <;> first | rfl | (exfalso; rename_i h1 h2; linarith [h1.1, h1.2.1, h2.1, h2.2.1])) h4
    unfold runEdges at this
    rw [this]

/-- **C61.** Merging is exhaustive: no two of the current cells are adjacent. -/
theorem c61_separate (runs : List (Orders V × ℕ × List V)) (hr : CompleteRuns runs) (hnd : (runEdges runs).Nodup)
    {s : Merger V} (hs : addCells Merger.empty runs = .ok s) :
    (s.cells.map Cell.vertices).Pairwise fun a b => ¬ Adjacent a b := by
  rcases c28_main runs hr hnd with h | ⟨s', h1, h2, _, _⟩
  · rw [h] at hs; cases hs
  · rw [hs] at h1
    cases h1
    rw [separate_eq_map] at h2
    refine h2.imp ?_
    rintro a b h ⟨u, v, hu, hv⟩
    exact h (u, v) hu hv

/-- **C29**, first half.  Whatever is added, in whatever order: if no assertion fails, the originals
recorded by the current cells together with the annihilated ones are exactly the cells added. -/
theorem c29_none_lost (runs : List (Orders V × ℕ × List V)) (hr : ∀ r ∈ runs, r.1.Valid)
    {s : Merger V} (hs : addCells Merger.empty runs = .ok s) :
    s.original = runs.map (fun r => r.2.2) ∧
    ∀ x, x ∈ s.cells.flatMap Cell.origs ++ s.annihilated ↔ x ∈ s.original := by
  obtain ⟨h1, h2, _⟩ := addCells_tracked runs Merger.empty s hr hs (by simp [Tracked, Merger.empty])
  refine ⟨by simpa [Merger.empty] using h1, fun x => ?_⟩
  rw [← h2 x]
  simp [Tracked, List.mem_append, List.mem_flatMap]

/-- **C29**, partial.  `check` succeeds if no pair of cells was annihilated while other parts of the
same merge were still waiting to be added.  What is missing is the case that this happens, in which
`check` can really fail: `c29_check_fails`. -/
theorem c29_check_partial (runs : List (Orders V × ℕ × List V)) (hr : ∀ r ∈ runs, r.1.Valid)
    (hq : QuietRuns Merger.empty runs) {s : Merger V} (hs : addCells Merger.empty runs = .ok s) :
    check s = .ok () := by
  obtain ⟨h1, h2, h3⟩ := addCells_tracked runs Merger.empty s hr hs (by simp [Tracked, Merger.empty])
  have hap := h3 hq (by intro c hc; simp [Merger.empty] at hc)
  have hun := (c29_none_lost runs hr hs).2
  unfold check
  simp only
  rw [if_neg, if_pos]
  · exact ⟨fun c hc => (hun c).1 hc, fun c hc => (hun c).2 hc⟩
  · rw [meets_iff]
    rintro ⟨x, hx, hxa⟩
    obtain ⟨c, hc, hxc⟩ := List.mem_flatMap.1 hx
    exact hap c hc x hxc hxa

/-! ### The counterexample to C29

Three faces of an arrangement, clockwise as in the code: a square with a triangular notch
(`(0,0) (1,2) (0,4)`) and a triangular hole touching its corner `(0,0)`; the triangle filling the
notch; the triangle filling the hole. -/

/-- Iteration orders that prefer the given vertices, and keep cells in insertion order. -/
def preferring (a b : ℤ × ℤ) : Orders (ℤ × ℤ) where
  pick := fun _ _ _ vs => if a ∈ vs then a else if b ∈ vs then b else vs.headD (0, 0)
  order := fun _ l => l

theorem preferring_valid (a b : ℤ × ℤ) : (preferring a b).Valid where
  pick := by
    intro i j n vs h
    unfold preferring
    simp only
    split_ifs with h1 h2
    · exact h1
    · exact h2
    · cases vs with
      | nil => exact absurd rfl h
      | cons v vs => simp
  order := fun _ l => List.Perm.refl l

def faceX : List (ℤ × ℤ) := [(0,0), (1,2), (0,4), (6,4), (6,0), (0,0), (4,1), (3,2)]
def notch : List (ℤ × ℤ) := [(0,4), (1,2), (0,0)]
def hole : List (ℤ × ℤ) := [(4,1), (0,0), (3,2)]

def badRuns : List (Orders (ℤ × ℤ) × ℕ × List (ℤ × ℤ)) :=
  [(preferring (4,1) (4,1), 400, notch), (preferring (4,1) (4,1), 400, hole),
   (preferring (4,1) (4,1), 400, faceX)]

/-- **C29 is false in general**: with these three faces and an allowed iteration order, all cells are
added without error, and then `check` raises `AssertionError`. -/
theorem c29_check_fails : CompleteRuns badRuns ∧ (runEdges badRuns).Nodup ∧
    ∃ s, addCells Merger.empty badRuns = .ok s ∧ check s = .error .assertion := by
  refine ⟨?_, by decide, ?_⟩
  · intro r hr
    have hv : r.1 = preferring (4,1) (4,1) ∧ r.2.1 = 400 := by
      simp only [badRuns, List.mem_cons, List.not_mem_nil, or_false] at hr
      rcases hr with rfl | rfl | rfl <;> exact ⟨rfl, rfl⟩
    rw [hv.1, hv.2]
    exact ⟨preferring_valid _ _, by decide⟩
  · refine ⟨⟨[⟨[(0,0), (0,4), (6,4), (6,0)], [faceX, notch]⟩], [notch, hole, faceX],
      [faceX, notch, hole]⟩, ?_, ?_⟩
    · rfl
    · rfl


/-- Two triangular holes touching the same corner, and a cell made of both. -/
def faceX2 : List (ℤ × ℤ) := [(0,0), (1,2), (0,4), (9,4), (9,0), (0,0), (8,1), (7,2), (0,0), (6,3), (5,4)]
def bowTie : List (ℤ × ℤ) := [(0,0), (7,2), (8,1), (0,0), (5,4), (6,3)]

def badRuns2 : List (Orders (ℤ × ℤ) × ℕ × List (ℤ × ℤ)) :=
  [(preferring (6,3) (8,1), 1000, notch), (preferring (6,3) (8,1), 1000, bowTie),
   (preferring (6,3) (8,1), 1000, faceX2)]

/-- The assertion in `add_cell` can fail too, although all directed edges are different. -/
theorem c29_assertion_reachable : CompleteRuns badRuns2 ∧ (runEdges badRuns2).Nodup ∧
    addCells Merger.empty badRuns2 = .error .assertion := by
  refine ⟨?_, by decide, rfl⟩
  intro r hr
  have hv : r.1 = preferring (6,3) (8,1) ∧ r.2.1 = 1000 := by
    simp only [badRuns2, List.mem_cons, List.not_mem_nil, or_false] at hr
    rcases hr with rfl | rfl | rfl <;> exact ⟨rfl, rfl⟩
  rw [hv.1, hv.2]
  exact ⟨preferring_valid _ _, by decide⟩

/-! ### Examples meeting the hypotheses -/

/-- Three unit squares in a row and one not adjacent to them. -/
def okRuns : List (Orders (ℤ × ℤ) × ℕ × List (ℤ × ℤ)) :=
  [(preferring (9,9) (9,9), 400, [(0,0), (1,0), (1,1), (0,1)]),
   (preferring (9,9) (9,9), 400, [(2,0), (3,0), (3,1), (2,1)]),
   (preferring (9,9) (9,9), 400, [(7,0), (8,0), (8,1)]),
   (preferring (9,9) (9,9), 400, [(1,0), (2,0), (2,1), (1,1)])]

theorem okRuns_complete : CompleteRuns okRuns := by
  intro r hr
  have hv : r.1 = preferring (9,9) (9,9) ∧ r.2.1 = 400 := by
    simp only [okRuns, List.mem_cons, List.not_mem_nil, or_false] at hr
    rcases hr with rfl | rfl | rfl | rfl <;> exact ⟨rfl, rfl⟩
  rw [hv.1, hv.2]
  exact ⟨preferring_valid _ _, by decide⟩

/-- C28, C29, C61: the squares become one cell with all three as originals; `check` succeeds. -/
example : CompleteRuns okRuns ∧ (runEdges okRuns).Nodup ∧
    ∃ s, addCells Merger.empty okRuns = .ok s ∧ check s = .ok () ∧
      s.cells.map (fun c => (c.vertices.length, c.origs.length)) = [(3, 1), (8, 3)] :=
  ⟨okRuns_complete, by decide,
    ⟨⟨[⟨[(7,0), (8,0), (8,1)], [[(7,0), (8,0), (8,1)]]⟩,
      ⟨[(3,1), (2,1), (1,1), (0,1), (0,0), (1,0), (2,0), (3,0)],
        [[(1,0), (2,0), (2,1), (1,1)], [(0,0), (1,0), (1,1), (0,1)], [(2,0), (3,0), (3,1), (2,1)]]⟩],
      [[(0,0), (1,0), (1,1), (0,1)], [(2,0), (3,0), (3,1), (2,1)], [(7,0), (8,0), (8,1)],
        [(1,0), (2,0), (2,1), (1,1)]], []⟩, rfl, rfl, rfl⟩⟩

/-- The hypothesis of `c29_check_partial`: two squares sharing an edge are merged without
annihilation. -/
example : QuietRuns Merger.empty
    [(preferring (9,9) (9,9), 2, [(0,0), (1,0), (1,1), (0,1)]),
     (preferring (9,9) (9,9), 2, [(1,0), (2,0), (2,1), (1,1)])] := by
  refine ⟨?_, fun s1 h1 => ?_⟩
  · exact ⟨fun h => (by cases h), trivial⟩
  · have e : addCell (preferring (9,9) (9,9)) 2 Merger.empty [(0,0), (1,0), (1,1), (0,1)] =
      .ok ⟨[⟨[(0,0), (1,0), (1,1), (0,1)], [[(0,0), (1,0), (1,1), (0,1)]]⟩],
        [[(0,0), (1,0), (1,1), (0,1)]], []⟩ := rfl
    obtain rfl := Except.ok.inj (e.symm.trans h1)
    exact ⟨⟨fun h => (by cases h), trivial⟩, fun _ _ => trivial⟩

/-- C30: two squares sharing an edge. -/
example : (∀ (_ : ℕ) (vs : List (ℤ × ℤ)), vs ≠ [] → vs.headD (0,0) ∈ vs) ∧
    (allEdges [[((0:ℤ),(0:ℤ)), (1,0), (1,1), (0,1)], [(1,0), (2,0), (2,1), (1,1)]]).Nodup ∧
    merged (fun _ vs => vs.headD (0,0)) ⟨[((0:ℤ),(0:ℤ)), (1,0), (1,1), (0,1)], []⟩
      ⟨[(1,0), (2,0), (2,1), (1,1)], []⟩ =
      .ok (some [⟨[(2,1), (1,1), (0,1), (0,0), (1,0), (2,0)], []⟩]) := by
  refine ⟨?_, by decide, rfl⟩
  intro _ vs h
  cases vs with
  | nil => exact absurd rfl h
  | cons v vs => simp

end Ply
