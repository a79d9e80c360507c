import Verif.Proofs.SegmentTree
import Verif.Proofs.Geom1DBase

/-! # C23: segment tree -/

namespace Ply

variable {ι : Type}

/-- C23: construction fails, with an assertion error, exactly if some segment is reversed; in
particular no internal assertion fails and the building loop terminates. -/
theorem c23_constructor (segs : List (STSeg ι)) :
    ((∃ root, segmentTree segs = .ok root) ↔ ∀ s ∈ segs, s.1 ≤ s.2.1) ∧
    (segmentTree segs = .error .assertion ↔ ∃ s ∈ segs, s.2.1 < s.1) := by
  have h1 : (∀ s ∈ segs, s.1 ≤ s.2.1) → ∃ root, segmentTree segs = .ok root := fun h => by
    obtain ⟨r, e, _⟩ := segmentTree_spec segs h
    exact ⟨r, e⟩
  have h2 : (¬ ∀ s ∈ segs, s.1 ≤ s.2.1) → segmentTree segs = .error .assertion := fun h => by
    unfold segmentTree
    rw [stEndpoints_err segs h]
    rfl
  by_cases h : ∀ s ∈ segs, s.1 ≤ s.2.1
  · refine ⟨⟨fun _ => h, h1⟩, ?_⟩
    obtain ⟨r, e⟩ := h1 h
    rw [e]
    constructor
    · intro hc; cases hc
    · rintro ⟨s, hs, hlt⟩; exact absurd (h s hs) (not_le.2 hlt)
  · refine ⟨⟨fun ⟨r, e⟩ => ?_, h1⟩, ⟨fun _ => ?_, fun _ => h2 h⟩⟩
    · rw [h2 h] at e; cases e
    · push Not at h; exact h

/-- C23: a query yields exactly the segments containing the value, each as often as given, for any
value; its internal assertions never fail. -/
theorem c23_stab (segs : List (STSeg ι)) (root : STree ι) (h : segmentTree segs = .ok root) (v : ℚ) :
    ∃ res, segmentTreeStab root v = .ok res ∧
      List.Perm res (segs.filter fun s => decide (s.1 ≤ v ∧ v ≤ s.2.1)) := by
  have hs := (c23_constructor segs).1.1 ⟨root, h⟩
  obtain ⟨r, e, hp⟩ := segmentTree_spec segs hs
  rw [h, Except.ok.injEq] at e
  subst e
  have hp := hp v
  have hslow : slowStab segs v = segs.filter fun s => decide (s.1 ≤ v ∧ v ≤ s.2.1) := by
    unfold slowStab
    congr 1
    funext s
    simp [Bool.decide_and]
  rw [hslow] at hp
  refine ⟨root.stab v, ?_, hp⟩
  unfold segmentTreeStab
  have : ∀ l : List (STSeg ι), (∀ s ∈ l, s.1 ≤ v ∧ v ≤ s.2.1) →
      (l.mapM fun s => if s.1 ≤ v then if s.2.1 ≥ v then (.ok s : Except PyErr (STSeg ι))
        else .error .assertion else .error .assertion) = .ok l := by
    intro l
    induction l with
    | nil => intro _; rfl
    | cons s l ih =>
      intro hl
      rw [List.mapM_cons, ih fun s hs => hl s (List.mem_cons_of_mem _ hs),
        if_pos (hl s (by simp)).1, if_pos (hl s (by simp)).2]
      rfl
  refine this _ fun s hs => ?_
  have := hp.mem_iff.1 hs
  rw [List.mem_filter] at this
  simpa using this.2

/-- C23: the tree and the slow reference give the same multiset. -/
theorem c23_slow (segs : List (STSeg ι)) (root : STree ι) (h : segmentTree segs = .ok root) (v : ℚ)
    (res : List (STSeg ι)) (hr : segmentTreeStab root v = .ok res) :
    List.Perm res (slowStab segs v) := by
  obtain ⟨res', e, hp⟩ := c23_stab segs root h v
  rw [hr, Except.ok.injEq] at e
  subst e
  refine hp.trans (List.Perm.of_eq ?_)
  unfold slowStab
  congr 1
  funext s
  simp [Bool.decide_and]

/-- Non-vacuity: overlapping, touching, repeated and degenerate segments. -/
example : ∃ root, segmentTree [((0 : ℚ), (2 : ℚ), "a"), (1, 3, "b"), (2, 2, "c"), (1, 3, "b")] = .ok root :=
  (c23_constructor _).1.2 (by simp)

end Ply
