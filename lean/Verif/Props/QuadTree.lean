import Verif.Proofs.QuadTree

/-! # C22: quadtree queries -/

namespace Ply

/-- A segment quadtree after any history: construction with items, then further additions. -/
def quadTreeAfter (box : Option AABB) (items : List Seg) (threshold : Int) (more : List Seg) :
    PMRQuadTree Seg :=
  more.foldl PMRQuadTree.add (segmentQuadTree box items threshold)

theorem quadTreeAfter_eq (box : Option AABB) (items : List Seg) (threshold : Int) (more : List Seg) :
    ∃ b, (∀ b', box = some b' → b = b') ∧
      (box = none → b = boxOf (items.flatMap fun s => [s.1, s.2])) ∧
      quadTreeAfter box items threshold more = (items ++ more).foldl PMRQuadTree.add
        ⟨fun s b => b.intersectsSegment s, threshold, .leaf b ∅⟩ := by
  refine ⟨box.getD (items.foldl (fun b s => (b.includePoint s.1).includePoint s.2)
    (AABB.make none none)), ?_, ?_, ?_⟩
  · rintro b' rfl; rfl
  · rintro rfl
    have : ∀ (l : List Seg) (b : AABB), l.foldl (fun b s => (b.includePoint s.1).includePoint s.2) b =
        (l.flatMap fun s => [s.1, s.2]).foldl AABB.includePoint b := by
      intro l
      induction l with
      | nil => intro b; rfl
      | cons s l ih => intro b; simp only [List.foldl_cons, List.flatMap_cons, List.cons_append,
          List.nil_append]; exact ih _
    exact this items _
  · rw [List.foldl_append]; rfl

/-- C22: every added segment that meets the query segment in a point of the tree's box is found. -/
theorem c22_never_misses (b : AABB) (hb : (∃ l u, b = AABB.make l u) ∨ ∃ pts, b = boxOf pts)
    (items more : List Seg) (threshold : Int) (query s : Seg) (hs : s ∈ items ++ more)
    (p : Pt) (hp : b.contains p = true) (h1 : OnSeg s p) (h2 : OnSeg query p) :
    s ∈ (quadTreeAfter (some b) items threshold more).findAllSimilar query := by
  have hc : b.Coh := by
    rcases hb with ⟨l, u, rfl⟩ | ⟨pts, rfl⟩
    · exact AABB.coh_make _ _
    · exact AABB.coh_boxOf _
  obtain ⟨b', e, -, ht⟩ := quadTreeAfter_eq (some b) items threshold more
  obtain rfl := e b rfl
  rw [ht]
  unfold PMRQuadTree.findAllSimilar PMRQuadTree.findAll
  rw [PMRQuadTree.foldl_inter]
  refine QNode.findAll_of_found _ _ p s (PMRQuadTree.foldl_wf _ _ hc)
    (fun b hb hbp => AABB.intersectsSegment_of hb hbp h2) ?_
  exact PMRQuadTree.foldl_found _ _ _ _ hs hc (fun b hb hbp => AABB.intersectsSegment_of hb hbp h1) hp

/-- C22: only added segments are returned. -/
theorem c22_never_invents (box : Option AABB) (items more : List Seg) (threshold : Int)
    (query s : Seg) (h : s ∈ (quadTreeAfter box items threshold more).findAllSimilar query) :
    s ∈ items ++ more := by
  obtain ⟨b', -, -, ht⟩ := quadTreeAfter_eq box items threshold more
  rw [ht] at h
  rcases PMRQuadTree.foldl_stored _ _ _ (QNode.stored_of_findAll _ _ _ h) with h | h
  · simp [QNode.Stored] at h
  · exact h

/-- C22: with the default box, no segment given at construction is dropped: it is found by every
query that meets it anywhere, in particular by itself. -/
theorem c22_default_box (items more : List Seg) (threshold : Int) (query s : Seg) (hs : s ∈ items)
    (p : Pt) (h1 : OnSeg s p) (h2 : OnSeg query p) :
    s ∈ (quadTreeAfter none items threshold more).findAllSimilar query := by
  obtain ⟨b', -, e, ht⟩ := quadTreeAfter_eq none items threshold more
  have e := e rfl
  subst e
  have hc := AABB.coh_boxOf (items.flatMap fun s => [s.1, s.2])
  have hp : (boxOf (items.flatMap fun s => [s.1, s.2])).contains p = true := by
    rw [c20_contains]
    have m1 : s.1 ∈ items.flatMap fun s => [s.1, s.2] := by
      rw [List.mem_flatMap]; exact ⟨s, hs, by simp⟩
    have m2 : s.2 ∈ items.flatMap fun s => [s.1, s.2] := by
      rw [List.mem_flatMap]; exact ⟨s, hs, by simp⟩
    obtain ⟨t, t0, t1, rfl⟩ := h1
    have key : ∀ x y : ℚ, (x ≤ x + t * (y - x) ∨ y ≤ x + t * (y - x)) ∧
        (x + t * (y - x) ≤ x ∨ x + t * (y - x) ≤ y) := by
      intro x y
      rcases le_total x y with h | h
      · exact ⟨Or.inl (by nlinarith), Or.inr (by nlinarith)⟩
      · exact ⟨Or.inr (by nlinarith), Or.inl (by nlinarith)⟩
    unfold InHull along
    simp only
    refine ⟨?_, ?_, ?_, ?_⟩
    · rcases (key s.1.1 s.2.1).1 with h | h
      · exact ⟨_, m1, h⟩
      · exact ⟨_, m2, h⟩
    · rcases (key s.1.1 s.2.1).2 with h | h
      · exact ⟨_, m1, h⟩
      · exact ⟨_, m2, h⟩
    · rcases (key s.1.2 s.2.2).1 with h | h
      · exact ⟨_, m1, h⟩
      · exact ⟨_, m2, h⟩
    · rcases (key s.1.2 s.2.2).2 with h | h
      · exact ⟨_, m1, h⟩
      · exact ⟨_, m2, h⟩
  rw [ht]
  unfold PMRQuadTree.findAllSimilar PMRQuadTree.findAll
  rw [PMRQuadTree.foldl_inter]
  refine QNode.findAll_of_found _ _ p s (PMRQuadTree.foldl_wf _ _ hc)
    (fun b hb hbp => AABB.intersectsSegment_of hb hbp h2) ?_
  exact PMRQuadTree.foldl_found _ _ _ _ (List.mem_append_left _ hs) hc
    (fun b hb hbp => AABB.intersectsSegment_of hb hbp h1) hp

/-- Non-vacuity: four segments force a split at the default threshold; each is still found. -/
example : ((0, 0), (1, 1)) ∈ (quadTreeAfter none
    [((0, 0), (1, 1)), ((0, 1), (1, 0)), ((0, 0), (0, 1)), ((1, 0), (1, 1)), ((0, 1), (1, 1))] 4
    []).findAllSimilar ((0, 1), (1, 0)) :=
  c22_default_box _ _ _ _ _ (by simp) (1 / 2, 1 / 2)
    ⟨1 / 2, by norm_num, by norm_num, by unfold along; norm_num⟩
    ⟨1 / 2, by norm_num, by norm_num, by unfold along; norm_num⟩

end Ply
