import Verif.Proofs.Perturb
import Verif.Proofs.ArrOutline

/-!
# `buffer`
-/

namespace Ply

open Filter Topology

/-- No point of the geom is inside a hole of one of its polygons. -/
def Geom2D.NoIslands (g : Geom2D) : Prop :=
  ∀ s ∈ g, ∀ h ∈ s.holes, ∀ y, InPoly h y → ∀ s' ∈ g, ¬ InRegion s'.outer s'.holes y

theorem reach_symm {C : List Pt} (hsym : ∀ w, InConvex C (-w) ↔ InConvex C w) (L : List Pt) (p : Pt) :
    Reach C (-1) L p ↔ Reach C 1 L p := by
  unfold Reach
  refine exists_congr fun z => and_congr_right fun _ => ?_
  simp only [Int.cast_neg, Int.cast_one, neg_smul, one_smul]
  exact hsym _

section

variable {arr : Geom2D.ArrOp} (ha : ArrSound arr) {C : List Pt} (hC : Conv C)
  (hsym : ∀ w, InConvex C (-w) ↔ InConvex C w)
  (hsh : ∀ σ : ℤ, σ = 1 ∨ σ = -1 → minkowskiShift C σ = .ok ((0, 0), C)) {g : Geom2D} (hg : g.WellMade)
  (ho : g.Outlined) {r : Geom2D}
include ha hC hsym hsh hg ho

omit ha hC hsym hsh ho in
theorem outer_ne {s : SPWH} (hs : s ∈ g) : s.outer ≠ [] := ((SPWH.mk'_iff _ _ _).1 (hg s hs)).2.wf.1
omit ha hC hsym hsh ho in
theorem hole_ne {s : SPWH} (hs : s ∈ g) {h : List Pt} (hh : h ∈ s.holes) : h ≠ [] :=
  ((SPWH.mk'_iff _ _ _).1 (hg s hs)).2.wf.2 h hh

theorem grow_contains (hn : g.NoIslands) (hr : minkowskiConvexOp arr 2 g C 1 = .ok r) {p y : Pt} (hp : ¬ r.OnEdge p)
    (hy : Geom2D.locate g y = .ok 1) (hin : InConvex C (p - y)) : Geom2D.locate r p = .ok 1 := by
  obtain ⟨T, t1, t2⟩ := op_sound ha hC (Or.inl rfl) hsh hg ho hr
  by_contra hc
  obtain ⟨u, hu⟩ := generic_dir T p
  obtain ⟨ε, -, e1, e2, e3⟩ := small_exists (hu.and ((locate_small_not t1.made hc hp u).and (locate_small hg hy u)))
  have P := t2 _ e1
  have hin' : InConvex C (p + ε • u - (y + ε • u)) := by rwa [add_sub_add_right_eq_sub]
  obtain ⟨s, hs, hi, hi'⟩ := (locate_one hg _).1 e3
  refine e2 ((P.grow rfl).2 ⟨⟨s, hs, ?_⟩, fun s' hs' h hh hH => ?_⟩)
  · by_cases hR : Reach C 1 s.outer (p + ε • u)
    · exact Or.inr hR
    · obtain ⟨a, -, c⟩ := path_winding hC hR hin'
      exact Or.inl ⟨a, c ▸ hi.2⟩
  · rw [if_pos rfl, reach_symm hsym] at hH
    obtain ⟨-, b, c⟩ := path_winding hC hH.2 hin'
    exact hn s' hs' h hh _ ⟨b, c ▸ hH.1.2⟩ s hs ⟨hi, hi'⟩

theorem grow_within (hr : minkowskiConvexOp arr 2 g C 1 = .ok r) {p : Pt} (h : Geom2D.locate r p = .ok 1) :
    ∃ y, (Geom2D.locate g y = .ok 1 ∨ g.OnEdge y) ∧ InConvex C (p - y) := by
  obtain ⟨T, t1, t2⟩ := op_sound ha hC (Or.inl rfl) hsh hg ho hr
  by_contra hc
  push Not at hc
  have hz : InConvex C (p - p) := by rw [sub_self]; exact hC.in_zero
  have h1 : ¬ Geom2D.locate g p = .ok 1 := fun h => hc p (Or.inl h) hz
  have h2 : ¬ g.OnEdge p := fun h => hc p (Or.inr h) hz
  have h3 : ∀ s ∈ g, ¬ Reach C 1 s.outer p := by
    rintro s hs ⟨z, hz, hin⟩
    exact hc z (Or.inr ⟨s, hs, Or.inl hz⟩) (by simpa using hin)
  have h4 : ∀ s ∈ g, ∀ h ∈ s.holes, ¬ Reach C 1 h p := by
    rintro s hs h hh ⟨z, hz, hin⟩
    exact hc z (Or.inr ⟨s, hs, Or.inr ⟨h, hh, hz⟩⟩) (by simpa using hin)
  obtain ⟨u, hu⟩ := generic_dir T p
  obtain ⟨ε, -, e1, e2, e3, e4, e5⟩ := small_exists (hu.and ((locate_small t1.made h u).and
    ((locate_small_not hg h1 h2 u).and
    ((small_list g (fun s ε => ¬ Reach C 1 s.outer (p + ε • u)) fun s hs => reach_small hC (outer_ne hg hs) (h3 s hs) u).and
    (small_list g (fun s ε => ∀ h ∈ s.holes, ¬ Reach C 1 h (p + ε • u)) fun s hs =>
      small_list s.holes (fun h ε => ¬ Reach C 1 h (p + ε • u)) fun h hh => reach_small hC (hole_ne hg hs hh) (h4 s hs h hh) u)))))
  obtain ⟨⟨s, hs, hs1⟩, hH⟩ := ((t2 _ e1).grow rfl).1 e2
  have hin : InPoly s.outer (p + ε • u) := hs1.resolve_right (e4 s hs)
  refine e3 ((locate_one hg _).2 ⟨s, hs, hin, fun h hh => ?_⟩)
  have hR := e5 s hs h hh
  have hb := (path_winding hC hR (y := p + ε • u) (by rw [sub_self]; exact hC.in_zero)).1
  refine ⟨hb, ?_⟩
  by_contra hw
  refine hH s hs h hh ?_
  rw [if_pos rfl, reach_symm hsym]
  exact ⟨⟨hb, hw⟩, hR⟩

/-- A point farther inside a hole than the shape reaches is never in the result. -/
theorem grow_hole (hr : minkowskiConvexOp arr 2 g C 1 = .ok r) {s : SPWH} (hs : s ∈ g) {h : List Pt} (hh : h ∈ s.holes)
    {p : Pt} (hp : InPoly h p) (hfar : ∀ z, OnBoundary h z → ¬ InConvex C (p - z)) : ¬ Geom2D.locate r p = .ok 1 := by
  obtain ⟨T, t1, t2⟩ := op_sound ha hC (Or.inl rfl) hsh hg ho hr
  intro hl
  obtain ⟨u, hu⟩ := generic_dir T p
  have hR : ¬ Reach C 1 h p := by
    rintro ⟨z, hz, hin⟩
    exact hfar z hz (by simpa using hin)
  obtain ⟨ε, -, e1, e2, e3, e4⟩ := small_exists (hu.and ((locate_small t1.made hl u).and
    ((inPoly_small hp u).and (reach_small hC (hole_ne hg hs hh) hR u))))
  refine (((t2 _ e1).grow rfl).1 e2).2 s hs h hh ?_
  rw [if_pos rfl, reach_symm hsym]
  exact ⟨e3, e4⟩

theorem shrink_within (hr : minkowskiConvexOp arr 2 g C (-1) = .ok r) {p : Pt} (h : Geom2D.locate r p = .ok 1) {y : Pt}
    (hy : InConvex C (y - p)) : Geom2D.locate g y = .ok 1 ∨ g.OnEdge y := by
  obtain ⟨T, t1, t2⟩ := op_sound ha hC (Or.inr rfl) hsh hg ho hr
  by_contra hc
  push Not at hc
  obtain ⟨u, hu⟩ := generic_dir T p
  obtain ⟨ε, -, e1, e2, e3⟩ := small_exists (hu.and ((locate_small t1.made h u).and (locate_small_not hg hc.1 hc.2 u)))
  have hin' : InConvex C (p + ε • u - (y + ε • u)) := by
    rw [add_sub_add_right_eq_sub, ← neg_sub, hsym]; exact hy
  obtain ⟨⟨s, hs, k1⟩, k2, k3⟩ := (t2 _ e1).inside rfl e2
  refine e3 ((locate_one hg _).2 ⟨s, hs, ?_, fun h hh => ?_⟩)
  · have := k2 s hs k1
    rw [reach_symm hsym] at this
    obtain ⟨-, b, c⟩ := path_winding hC this hin'
    exact ⟨b, c ▸ k1.2⟩
  · have := k3 s hs h hh
    rw [if_neg (by decide)] at this
    push Not at this
    obtain ⟨a, b, c⟩ := path_winding hC this.2 hin'
    refine ⟨b, ?_⟩
    rw [← c]
    by_contra hw
    exact this.1 ⟨a, hw⟩

theorem shrink_contains (hn : g.NoIslands) (hr : minkowskiConvexOp arr 2 g C (-1) = .ok r) {p : Pt} (hp : ¬ r.OnEdge p)
    (hall : ∀ y, InConvex C (y - p) → Geom2D.locate g y = .ok 1 ∧ ¬ g.OnEdge y) : Geom2D.locate r p = .ok 1 := by
  obtain ⟨T, t1, t2⟩ := op_sound ha hC (Or.inr rfl) hsh hg ho hr
  by_contra hc
  obtain ⟨u, hu⟩ := generic_dir T p
  have edge : ∀ z, InConvex C ((1 : ℤ) • (p - z)) → ¬ g.OnEdge z := fun z hz => (hall z (by
    rw [← neg_sub, hsym]; simpa using hz)).2
  have h1 : Geom2D.locate g p = .ok 1 := (hall p (by rw [sub_self]; exact hC.in_zero)).1
  have h3 : ∀ s ∈ g, ¬ Reach C 1 s.outer p := by
    rintro s hs ⟨z, hz, hin⟩
    exact edge z (by simpa using hin) ⟨s, hs, Or.inl hz⟩
  have h4 : ∀ s ∈ g, ∀ h ∈ s.holes, ¬ Reach C 1 h p := by
    rintro s hs h hh ⟨z, hz, hin⟩
    exact edge z (by simpa using hin) ⟨s, hs, Or.inr ⟨h, hh, hz⟩⟩
  obtain ⟨ε, -, e1, e2, e3, e4, e5⟩ := small_exists (hu.and ((locate_small_not t1.made hc hp u).and
    ((locate_small hg h1 u).and
    ((small_list g (fun s ε => ¬ Reach C 1 s.outer (p + ε • u)) fun s hs => reach_small hC (outer_ne hg hs) (h3 s hs) u).and
    (small_list g (fun s ε => ∀ h ∈ s.holes, ¬ Reach C 1 h (p + ε • u)) fun s hs =>
      small_list s.holes (fun h ε => ¬ Reach C 1 h (p + ε • u)) fun h hh => reach_small hC (hole_ne hg hs hh) (h4 s hs h hh) u)))))
  obtain ⟨s, hs, hi, hi'⟩ := (locate_one hg _).1 e3
  refine e2 ((t2 _ e1).shrink rfl ⟨s, hs, hi⟩ (fun s' hs' => by rw [reach_symm hsym]; exact e4 s' hs') fun s' hs' h hh hH => ?_)
  rw [if_neg (by decide)] at hH
  rcases hH with hH | hH
  · exact hn s' hs' h hh _ hH s hs ⟨hi, hi'⟩
  · exact e5 s' hs' h hh hH

end

end Ply
