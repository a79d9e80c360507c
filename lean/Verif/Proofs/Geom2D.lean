import Verif.Model.Geom2D
import Verif.Spec.Region
import Verif.Proofs.WindingAffine
import Verif.Proofs.Geom1D

/-! Helper lemmas for the polygon-with-holes model. -/

namespace Ply

theorem edgesIter_eq (l : List Pt) : edgesIter l = polyEdges l := by
  unfold edgesIter
  have key : ∀ (n : ℕ) , n ≤ l.length → (List.range n).filterMap (fun i =>
      match l[i]?, l[(i + 1) % l.length]? with
      | some a, some b => some (a, b)
      | _, _ => none) = (polyEdges l).take n := by
    intro n
    induction n with
    | zero => intro _; simp
    | succ n ih =>
      intro hn
      rw [List.range_succ, List.filterMap_append, ih (by omega)]
      have hlen : (polyEdges l).length = l.length := by
        cases l with
        | nil => rfl
        | cons a r => simp [polyEdges]
      rw [List.take_add_one]
      congr 1
      have h1 : l[n]? = some (l[n]'(by omega)) := List.getElem?_eq_getElem _
      have hm : (n + 1) % l.length < l.length := Nat.mod_lt _ (by omega)
      have h2 : l[(n + 1) % l.length]? = some (l[(n + 1) % l.length]'hm) :=
        List.getElem?_eq_getElem _
      have h3 : (polyEdges l)[n]? = some (l[n]'(by omega), l[(n + 1) % l.length]'hm) := by
        cases l with
        | nil => simp at hn
        | cons a r =>
          unfold polyEdges
          rw [List.getElem?_eq_getElem (by simp at hn ⊢; omega)]
          rw [List.getElem_zip]
          congr 2
          by_cases hc : n + 1 < (a :: r).length
          · simp only [Nat.mod_eq_of_lt hc]
            simp only [List.length_cons] at hc
            rw [List.getElem_append_left (by omega)]
            simp
          · simp only [List.length_cons] at hc hn
            have : n = r.length := by omega
            subst this
            simp
      simp only [List.filterMap_cons, h1, h2, h3, List.filterMap_nil]
      rfl
  refine (key l.length le_rfl).trans (List.take_of_length_le ?_)
  cases l with
  | nil => simp [polyEdges]
  | cons a r => simp [polyEdges]

theorem checkNoDups_iff (l : List Pt) : checkNoDups l = .ok () ↔ NoRepeat l := by
  unfold checkNoDups NoRepeat
  rw [edgesIter_eq]
  by_cases h : (polyEdges l).all (fun e => decide (e.1 ≠ e.2)) = true
  · rw [if_pos h]
    simpa using h
  · rw [if_neg h]
    constructor
    · intro hc; cases hc
    · intro hc; exact absurd (by simpa using hc) h

theorem assertAreaPos_iff (l : List Pt) : assertAreaPos l = .ok () ↔ shoelace l < 0 := by
  unfold assertAreaPos
  by_cases h : l = []
  · subst h
    constructor
    · intro hc; cases hc
    · intro hc; simp [shoelace, polyEdges] at hc
  · rw [area_eq_shoelace l h]
    show (if -shoelace l > 0 then Except.ok () else Except.error PyErr.assertion) = _ ↔ _
    by_cases hs : -shoelace l > 0
    · rw [if_pos hs]; simp; linarith
    · rw [if_neg hs]
      constructor
      · intro hc; cases hc
      · intro hc; exact absurd (by linarith) hs

theorem bind_ok_unit {α : Type} {r : Except PyErr Unit} {f : Except PyErr α} {x : α} :
    (do r; f) = .ok x ↔ r = .ok () ∧ f = .ok x := by
  cases r with
  | error e => simp [bind, Except.bind]
  | ok u => cases u; simp [bind, Except.bind]

theorem checkHoles_iff (hs : List (List Pt)) :
    checkHoles hs = .ok () ↔ ∀ h ∈ hs, shoelace h < 0 ∧ NoRepeat h := by
  induction hs with
  | nil => simp [checkHoles]
  | cons h rest ih =>
    rw [checkHoles, bind_ok_unit, bind_ok_unit, ih, assertAreaPos_iff, checkNoDups_iff]
    simp only [List.mem_cons, forall_eq_or_imp]
    tauto

/-- The invariant enforced by the constructor. -/
def SPWH.Valid (s : SPWH) : Prop :=
  NoRepeat s.outer ∧ shoelace s.outer < 0 ∧ ∀ h ∈ s.holes, shoelace h < 0 ∧ NoRepeat h

theorem SPWH.mk'_iff (o : List Pt) (hs : List (List Pt)) (s : SPWH) :
    SPWH.mk' o hs = .ok s ↔ s = ⟨o, hs⟩ ∧ s.Valid := by
  unfold SPWH.mk'
  rw [bind_ok_unit, bind_ok_unit, bind_ok_unit, checkHoles_iff, assertAreaPos_iff, checkNoDups_iff]
  unfold SPWH.Valid
  constructor
  · rintro ⟨h1, h2, h3, h4⟩
    cases h4
    exact ⟨rfl, h1, h2, h3⟩
  · rintro ⟨rfl, h1, h2, h3⟩
    exact ⟨h1, h2, h3, rfl⟩

theorem ne_nil_of_shoelace {l : List Pt} (h : shoelace l < 0) : l ≠ [] := by
  rintro rfl; simp [shoelace, polyEdges] at h

theorem holesArea_eq (a : ℚ) (hs : List (List Pt)) (h : ∀ x ∈ hs, x ≠ []) :
    holesArea a hs = .ok (a - (hs.map fun h => -shoelace h).sum) := by
  induction hs generalizing a with
  | nil => simp [holesArea]
  | cons x rest ih =>
    rw [holesArea, area_eq_shoelace x (h x (by simp))]
    show holesArea (a - -shoelace x) rest = _
    rw [ih _ (fun y hy => h y (by simp [hy]))]
    simp only [List.map_cons, List.sum_cons]
    congr 1; ring

theorem SPWH.area_eq (s : SPWH) (ho : s.outer ≠ []) (h : ∀ x ∈ s.holes, x ≠ []) :
    s.area = .ok (regionArea s.outer s.holes) := by
  unfold SPWH.area
  rw [area_eq_shoelace _ ho]
  exact holesArea_eq _ _ h

theorem Geom2D.areaLoop_eq (acc : ℚ) (g : Geom2D)
    (h : ∀ s ∈ g, s.outer ≠ [] ∧ ∀ x ∈ s.holes, x ≠ []) :
    Geom2D.areaLoop acc g = .ok (acc + (g.map fun s => regionArea s.outer s.holes).sum) := by
  induction g generalizing acc with
  | nil => simp [Geom2D.areaLoop]
  | cons s rest ih =>
    rw [Geom2D.areaLoop, SPWH.area_eq s (h s (by simp)).1 (h s (by simp)).2]
    show Geom2D.areaLoop (acc + _) rest = _
    rw [ih _ (fun y hy => h y (by simp [hy]))]
    simp only [List.map_cons, List.sum_cons]
    congr 1; ring

theorem locate_three (poly : List Pt) (h : poly ≠ []) (p : Pt) :
    (locateWinding poly p = .ok 0 ∧ OnBoundary poly p) ∨
    (locateWinding poly p = .ok 1 ∧ InPoly poly p) ∨
    (locateWinding poly p = .ok (-1) ∧ OutPoly poly p) := by
  obtain ⟨h1, h2⟩ := locateWinding_spec poly h p
  by_cases hb : OnBoundary poly p
  · exact Or.inl ⟨h1 hb, hb⟩
  · by_cases hw : windingNumber poly p = 0
    · refine Or.inr (Or.inr ⟨?_, hb, hw⟩)
      rw [h2 hb]; simp [hw]
    · refine Or.inr (Or.inl ⟨?_, hb, hw⟩)
      rw [h2 hb]; simp [hw]

theorem InPoly.not_out {poly : List Pt} {p : Pt} (h : InPoly poly p) : ¬ OutPoly poly p :=
  fun k => h.2 k.2

theorem locateHoles_three (p : Pt) (hs : List (List Pt)) (h : ∀ x ∈ hs, x ≠ []) :
    (locateHoles p hs = .ok 1 ∧ ∀ x ∈ hs, OutPoly x p) ∨
    (locateHoles p hs = .ok 0 ∧ ∃ pre h post, hs = pre ++ h :: post ∧ (∀ x ∈ pre, OutPoly x p) ∧
      OnBoundary h p) ∨
    (locateHoles p hs = .ok (-1) ∧ ∃ pre h post, hs = pre ++ h :: post ∧ (∀ x ∈ pre, OutPoly x p) ∧
      InPoly h p) := by
  induction hs with
  | nil => exact Or.inl ⟨rfl, by simp⟩
  | cons x rest ih =>
    rw [locateHoles]
    rcases locate_three x (h x (by simp)) p with ⟨e, hb⟩ | ⟨e, hb⟩ | ⟨e, hb⟩
    · rw [e]
      exact Or.inr (Or.inl ⟨rfl, [], x, rest, rfl, by simp, hb⟩)
    · rw [e]
      exact Or.inr (Or.inr ⟨rfl, [], x, rest, rfl, by simp, hb⟩)
    · rw [e]
      show (locateHoles p rest = _ ∧ _) ∨ (locateHoles p rest = _ ∧ _) ∨ (locateHoles p rest = _ ∧ _)
      rcases ih (fun y hy => h y (by simp [hy])) with ⟨e', k⟩ | ⟨e', pre, y, post, rfl, k1, k2⟩ |
        ⟨e', pre, y, post, rfl, k1, k2⟩
      · exact Or.inl ⟨e', by simpa using ⟨hb, k⟩⟩
      · exact Or.inr (Or.inl ⟨e', x :: pre, y, post, rfl, by simpa using ⟨hb, k1⟩, k2⟩)
      · exact Or.inr (Or.inr ⟨e', x :: pre, y, post, rfl, by simpa using ⟨hb, k1⟩, k2⟩)

/-- Every point is in exactly one of the three classes, and `locate` tells which. -/
theorem SPWH.locate_three (s : SPWH) (ho : s.outer ≠ []) (h : ∀ x ∈ s.holes, x ≠ []) (p : Pt) :
    (s.locate p = .ok 1 ∧ InRegion s.outer s.holes p) ∨
    (s.locate p = .ok 0 ∧ OnRegionBoundary s.outer s.holes p) ∨
    (s.locate p = .ok (-1) ∧ OutRegion s.outer s.holes p) := by
  unfold SPWH.locate
  rcases Ply.locate_three s.outer ho p with ⟨e, hb⟩ | ⟨e, hb⟩ | ⟨e, hb⟩
  · rw [e]
    exact Or.inr (Or.inl ⟨rfl, Or.inl hb⟩)
  · rw [e]
    show (locateHoles p s.holes = _ ∧ _) ∨ (locateHoles p s.holes = _ ∧ _) ∨
      (locateHoles p s.holes = _ ∧ _)
    rcases locateHoles_three p s.holes h with ⟨e', k⟩ | ⟨e', k⟩ | ⟨e', k⟩
    · exact Or.inl ⟨e', hb, k⟩
    · exact Or.inr (Or.inl ⟨e', Or.inr ⟨hb, k⟩⟩)
    · exact Or.inr (Or.inr ⟨e', Or.inr ⟨hb, k⟩⟩)
  · rw [e]
    exact Or.inr (Or.inr ⟨rfl, Or.inl hb⟩)

/-- Splitting a list at the first element failing a property is unique up to the class of that
element. -/
theorem first_unique {α : Type*} {P : α → Prop} {l pre post pre' post' : List α} {x y : α}
    (h : l = pre ++ x :: post) (h' : l = pre' ++ y :: post') (hp : ∀ z ∈ pre, P z) (hx : ¬ P x)
    (hp' : ∀ z ∈ pre', P z) (hy : ¬ P y) : x = y := by
  subst h
  induction pre generalizing pre' with
  | nil =>
    cases pre' with
    | nil => simp at h'; exact h'.1
    | cons a r =>
      simp at h'
      exact absurd (hp' a (by simp)) (h'.1 ▸ hx)
  | cons a r ih =>
    cases pre' with
    | nil =>
      simp at h'
      exact absurd (hp a (by simp)) (h'.1 ▸ hy)
    | cons b r' =>
      simp at h'
      exact ih (pre' := r') (fun z hz => hp z (by simp [hz])) (fun z hz => hp' z (by simp [hz])) h'.2

theorem regions_exclusive (o : List Pt) (hs : List (List Pt)) (p : Pt) :
    ¬ (InRegion o hs p ∧ OnRegionBoundary o hs p) ∧ ¬ (InRegion o hs p ∧ OutRegion o hs p) ∧
    ¬ (OnRegionBoundary o hs p ∧ OutRegion o hs p) := by
  refine ⟨?_, ?_, ?_⟩
  · rintro ⟨⟨h1, h2⟩, h | ⟨_, pre, x, post, rfl, _, k⟩⟩
    · exact h1.1 h
    · exact (h2 x (by simp)).1 k
  · rintro ⟨⟨h1, h2⟩, h | ⟨_, pre, x, post, rfl, _, k⟩⟩
    · exact h1.not_out h
    · exact k.not_out (h2 x (by simp))
  · rintro ⟨h | ⟨h, pre, x, post, e, h1, h2⟩, k | ⟨k, pre', x', post', e', k1, k2⟩⟩
    · exact k.1 h
    · exact k.1 h
    · exact h.not_out k
    · have := first_unique (P := fun z => OutPoly z p) e e' h1 (fun hc => hc.1 h2) k1 k2.not_out
      subst this
      exact k2.1 h2

theorem maxLoop_spec (m : Int) (l : List Int) :
    (Geom2D.maxLoop m l ∈ m :: l) ∧ ∀ x ∈ m :: l, x ≤ Geom2D.maxLoop m l := by
  induction l generalizing m with
  | nil => simp [Geom2D.maxLoop]
  | cons a l ih =>
    rw [Geom2D.maxLoop]
    by_cases h : a > m
    · rw [if_pos h]
      obtain ⟨i1, i2⟩ := ih a
      refine ⟨List.mem_cons_of_mem _ i1, fun x hx => ?_⟩
      rcases List.mem_cons.1 hx with rfl | hx
      · have := i2 a (by simp); omega
      · exact i2 x hx
    · rw [if_neg h]
      obtain ⟨i1, i2⟩ := ih m
      refine ⟨?_, fun x hx => ?_⟩
      · rcases List.mem_cons.1 i1 with e | e
        · rw [e]; simp
        · simp [e]
      · rcases List.mem_cons.1 hx with rfl | hx
        · exact i2 x (by simp)
        · rcases List.mem_cons.1 hx with rfl | hx
          · have := i2 m (by simp); omega
          · exact i2 x (by simp [hx])

end Ply

namespace Ply

/-- The value of `locate` when it does not raise. -/
def SPWH.loc (p : Pt) (s : SPWH) : Int :=
  match s.locate p with
  | .ok v => v
  | .error _ => -1

/-- Well-formed: no empty vertex list. -/
def SPWH.Wf (s : SPWH) : Prop := s.outer ≠ [] ∧ ∀ x ∈ s.holes, x ≠ []

theorem SPWH.Valid.wf {s : SPWH} (h : s.Valid) : s.Wf :=
  ⟨ne_nil_of_shoelace h.2.1, fun x hx => ne_nil_of_shoelace (h.2.2 x hx).1⟩

theorem SPWH.Wf.locate_eq {s : SPWH} (h : s.Wf) (p : Pt) : s.locate p = .ok (s.loc p) := by
  unfold SPWH.loc
  rcases s.locate_three h.1 h.2 p with ⟨e, _⟩ | ⟨e, _⟩ | ⟨e, _⟩ <;> rw [e]

theorem SPWH.Wf.loc_iff {s : SPWH} (h : s.Wf) (p : Pt) :
    (s.loc p = 1 ↔ InRegion s.outer s.holes p) ∧ (s.loc p = 0 ↔ OnRegionBoundary s.outer s.holes p) ∧
    (s.loc p = -1 ↔ OutRegion s.outer s.holes p) := by
  obtain ⟨x1, x2, x3⟩ := regions_exclusive s.outer s.holes p
  unfold SPWH.loc
  rcases s.locate_three h.1 h.2 p with ⟨e, k⟩ | ⟨e, k⟩ | ⟨e, k⟩ <;> rw [e] <;> simp only <;>
    refine ⟨⟨fun _ => ?_, fun _ => ?_⟩, ⟨fun _ => ?_, fun _ => ?_⟩, ⟨fun _ => ?_, fun _ => ?_⟩⟩ <;>
    first | assumption | (exfalso; omega) | (exfalso; tauto) | trivial

theorem Geom2D.locate_eq (g : Geom2D) (h : ∀ s ∈ g, s.Wf) (p : Pt) :
    Geom2D.locate g p = .ok (match g.map (SPWH.loc p) with
      | [] => -1
      | l :: rest => Geom2D.maxLoop l rest) := by
  unfold Geom2D.locate
  cases g with
  | nil => rfl
  | cons s rest =>
    rw [if_neg (by simp), Geom1D.mapM_except_ok _ (SPWH.loc p) _ (fun s hs => (h s hs).locate_eq p)]
    rfl

theorem SPWH.Wf.loc_cases {s : SPWH} (h : s.Wf) (p : Pt) :
    s.loc p = 1 ∨ s.loc p = 0 ∨ s.loc p = -1 := by
  unfold SPWH.loc
  rcases s.locate_three h.1 h.2 p with ⟨e, k⟩ | ⟨e, k⟩ | ⟨e, k⟩ <;> rw [e] <;> simp

theorem Geom2D.locate_spec (g : Geom2D) (h : ∀ s ∈ g, s.Wf) (p : Pt) :
    ∃ v, Geom2D.locate g p = .ok v ∧
      (v = 1 ↔ ∃ s ∈ g, InRegion s.outer s.holes p) ∧
      (v = 0 ↔ (¬ ∃ s ∈ g, InRegion s.outer s.holes p) ∧
        ∃ s ∈ g, OnRegionBoundary s.outer s.holes p) ∧
      (v = -1 ↔ ∀ s ∈ g, OutRegion s.outer s.holes p) := by
  refine ⟨_, g.locate_eq h p, ?_⟩
  cases g with
  | nil => simp
  | cons s rest =>
    simp only [List.map_cons]
    obtain ⟨m1, m2⟩ := maxLoop_spec (s.loc p) (rest.map (SPWH.loc p))
    rw [← List.map_cons] at m1 m2
    obtain ⟨w, hw, ew⟩ := List.mem_map.1 m1
    set v := Geom2D.maxLoop (s.loc p) (rest.map (SPWH.loc p)) with hv
    have m2' : ∀ x ∈ s :: rest, x.loc p ≤ v := fun x hx => m2 _ (List.mem_map_of_mem hx)
    have c1 : v = 1 ↔ ∃ s' ∈ s :: rest, InRegion s'.outer s'.holes p := by
      constructor
      · intro e
        exact ⟨w, hw, ((h w hw).loc_iff p).1.1 (ew.trans e)⟩
      · rintro ⟨x, hx, hi⟩
        have a := m2' x hx
        rw [((h x hx).loc_iff p).1.2 hi] at a
        rcases (h w hw).loc_cases p with b | b | b <;> omega
    have c3 : v = -1 ↔ ∀ s' ∈ s :: rest, OutRegion s'.outer s'.holes p := by
      constructor
      · intro e x hx
        have a := m2' x hx
        rcases (h x hx).loc_cases p with b | b | b
        · omega
        · omega
        · exact ((h x hx).loc_iff p).2.2.1 b
      · intro hx
        rw [← ew]
        exact ((h w hw).loc_iff p).2.2.2 (hx w hw)
    refine ⟨c1, ?_, c3⟩
    constructor
    · intro e
      refine ⟨fun hc => by have := c1.2 hc; omega, w, hw, ((h w hw).loc_iff p).2.1.1 (ew.trans e)⟩
    · rintro ⟨k1, x, hx, k2⟩
      rcases (h w hw).loc_cases p with b | b | b
      · exact absurd (c1.1 (by omega)) k1
      · omega
      · exfalso
        exact (regions_exclusive x.outer x.holes p).2.2 ⟨k2, c3.1 (by omega) x hx⟩

end Ply
