import Verif.Proofs.Shapes
import Verif.Model.Shapes
import Verif.Proofs.Area
import Verif.Props.Exact2D

/-!
# `from_shapely` gives exactly the points of the shape
-/

namespace Ply

open Arr

/-! ### The same ring, clockwise -/

/-- The same ring, perhaps from another corner or in the other direction. -/
def SameRing (L M : List Pt) : Prop := ∃ k, M = L.rotate k ∨ M = L.reverse.rotate k

/-- The same ring in clockwise direction. -/
def Clockwise (L M : List Pt) : Prop := SameRing L M ∧ shoelace M < 0

theorem SimpleRing.rotate {L : List Pt} (h : SimpleRing L) (k : ℕ) : SimpleRing (L.rotate k) where
  long := by rw [List.length_rotate]; exact h.long
  nodup := List.nodup_rotate.2 h.nodup
  apart e he m hm := h.apart e ((polyEdges_rotate L k).mem_iff.1 he) m ((polyEdges_rotate L k).mem_iff.1 hm)

namespace SameRing

variable {L M : List Pt} (h : SameRing L M)
include h

theorem edges {e : Seg} (he : e ∈ polyEdges M) : e ∈ polyEdges L ∨ (e.2, e.1) ∈ polyEdges L := by
  obtain ⟨k, rfl | rfl⟩ := h
  · exact Or.inl ((polyEdges_rotate L k).mem_iff.1 he)
  · exact Or.inr (mem_reverse_edges.1 ((polyEdges_rotate _ k).mem_iff.1 he))

theorem simple (hL : SimpleRing L) : SimpleRing M := by
  obtain ⟨k, rfl | rfl⟩ := h
  · exact hL.rotate k
  · exact hL.reverse.rotate k

theorem bound (p : Pt) : OnBoundary M p ↔ OnBoundary L p := by
  obtain ⟨k, rfl | rfl⟩ := h
  · exact onBoundary_rotate L k p
  · rw [onBoundary_rotate, onBoundary_reverse]

theorem wind (p : Pt) : windingNumber M p = 0 ↔ windingNumber L p = 0 := by
  obtain ⟨k, rfl | rfl⟩ := h
  · rw [windingNumber_perm (polyEdges_rotate L k)]
  · rw [windingNumber_perm (polyEdges_rotate _ k), windingNumber_reverse, neg_eq_zero]

theorem inPoly (p : Pt) : InPoly M p ↔ InPoly L p := by
  unfold InPoly; rw [h.bound, Ne, h.wind]

theorem outPoly (p : Pt) : OutPoly M p ↔ OutPoly L p := by
  unfold OutPoly; rw [h.bound, h.wind]

theorem abs_shoelace : |shoelace M| = |shoelace L| := by
  obtain ⟨k, rfl | rfl⟩ := h
  · rw [shoelace_rotate]
  · rw [shoelace_rotate, shoelace_reverse, abs_neg]

end SameRing

theorem SimpleRing.cw_or {L : List Pt} (h : SimpleRing L) : shoelace L < 0 ∨ 0 < shoelace L := lt_or_gt_of_ne h.area

/-! ### Rings of coordinates -/

theorem shPoints_close {L : List Pt} (hL : L ≠ []) : shPoints (closeRing L) = .ok L := by
  cases L with
  | nil => exact absurd rfl hL
  | cons a rest =>
    unfold closeRing shPoints
    dsimp only
    have h1 : (a :: (rest ++ [a])).getLast (by simp) = a := by simp
    have h2 : (a :: (rest ++ [a])).dropLast = a :: rest := by rw [← List.cons_append, List.dropLast_concat]
    rw [if_pos h1.symm, h2]

theorem closeRing_reverse (L : List Pt) : (closeRing L).reverse = closeRing (L.reverse.rotate (L.length - 1)) := by
  cases L with
  | nil => rfl
  | cons a rest =>
    have : (a :: rest).reverse.rotate ((a :: rest).length - 1) = a :: rest.reverse := by
      rw [List.reverse_cons, List.length_cons, Nat.add_sub_cancel, ← List.length_reverse, List.rotate_append_length_eq]
      rfl
    rw [this]
    simp [closeRing]

theorem ringArea_close (L : List Pt) : ringArea (closeRing L) = shoelace L := by
  have key : ∀ (l : List Pt) (a : Pt), ringArea (a :: l) = ((chain a l).map fun e => cross e.1 e.2).sum / 2 := by
    intro l
    induction l with
    | nil => intro a; simp [ringArea, chain]
    | cons b l ih =>
      intro a
      rw [ringArea, ih, chain_cons, List.map_cons, List.sum_cons]
      unfold cross
      ring
  cases L with
  | nil => simp [closeRing, ringArea, shoelace, polyEdges]
  | cons a rest =>
    unfold closeRing shoelace
    rw [key, polyEdges_cons]

/-- The exterior is taken clockwise. -/
theorem shPoints_outer {L : List Pt} (h : SimpleRing L) : ∃ M, Clockwise L M ∧
    shPoints (if ringArea (closeRing L) / (-1) ≥ 0 then closeRing L else (closeRing L).reverse) = .ok M := by
  rw [ringArea_close]
  rcases h.cw_or with hs | hs
  · refine ⟨L, ⟨⟨0, Or.inl (by simp)⟩, hs⟩, ?_⟩
    rw [if_pos (by rw [div_neg, div_one]; linarith), shPoints_close h.ne_nil]
  · refine ⟨L.reverse.rotate (L.length - 1), ⟨⟨_, Or.inr rfl⟩, by rw [shoelace_rotate, shoelace_reverse]; linarith⟩, ?_⟩
    rw [if_neg (by rw [div_neg, div_one]; linarith), closeRing_reverse, shPoints_close]
    simpa using h.ne_nil

/-- An interior is taken counterclockwise, and then reversed. -/
theorem shPoints_hole {L : List Pt} (h : SimpleRing L) : ∃ M, Clockwise L M ∧ ∃ p,
    shPoints (if ringArea (closeRing L) / (-1) ≤ 0 then closeRing L else (closeRing L).reverse) = .ok p ∧ p.reverse = M := by
  rw [ringArea_close]
  rcases h.cw_or with hs | hs
  · refine ⟨_, ?_, L.reverse.rotate (L.length - 1), ?_, rfl⟩
    · refine ⟨⟨L.length - (L.length - 1) % L.length, Or.inl ?_⟩, ?_⟩
      · rw [List.reverse_rotate, List.reverse_reverse, List.length_reverse]
      · rw [shoelace_reverse, shoelace_rotate, shoelace_reverse]; linarith
    · rw [if_neg (by rw [div_neg, div_one]; linarith), closeRing_reverse, shPoints_close]
      simpa using h.ne_nil
  · refine ⟨L.reverse, ⟨⟨0, Or.inr (by simp)⟩, by rw [shoelace_reverse]; linarith⟩, L, ?_, rfl⟩
    rw [if_pos (by rw [div_neg, div_one]; linarith), shPoints_close h.ne_nil]

/-! ### Polygons -/

/-- The `shapely` polygon with these rings. -/
def Rings.toSh (s : Rings) : ShPoly := ⟨closeRing s.1, s.2.map closeRing⟩

/-- The polygon has the same rings, all clockwise. -/
structure Matches (s : Rings) (t : SPWH) : Prop where
  outer : Clockwise s.1 t.outer
  holes : List.Forall₂ Clockwise s.2 t.holes

theorem forall₂_right {α β : Type*} {R : α → β → Prop} {l : List α} {m : List β} (h : List.Forall₂ R l m) {b : β} (hb : b ∈ m) :
    ∃ a ∈ l, R a b := by
  induction h with
  | nil => simp at hb
  | cons h1 h2 ih =>
    rcases List.mem_cons.1 hb with rfl | hb
    · exact ⟨_, List.mem_cons_self, h1⟩
    · obtain ⟨a, ha, hr⟩ := ih hb
      exact ⟨a, List.mem_cons_of_mem _ ha, hr⟩

theorem forall₂_left {α β : Type*} {R : α → β → Prop} {l : List α} {m : List β} (h : List.Forall₂ R l m) {a : α} (ha : a ∈ l) :
    ∃ b ∈ m, R a b := by
  obtain ⟨b, hb, hr⟩ := forall₂_right h.flip ha
  exact ⟨b, hb, hr⟩

theorem forall₂_pairwise {α β : Type*} {R : α → β → Prop} {l : List α} {m : List β} (h : List.Forall₂ R l m)
    {P : α → α → Prop} {Q : β → β → Prop} (hPQ : ∀ a b a' b', R a b → R a' b' → P a a' → Q b b') (hl : l.Pairwise P) :
    m.Pairwise Q := by
  induction h with
  | nil => exact List.Pairwise.nil
  | cons h1 h2 ih =>
    rw [List.pairwise_cons] at hl ⊢
    refine ⟨fun b hb => ?_, ih hl.2⟩
    obtain ⟨a, ha, hr⟩ := forall₂_right h2 hb
    exact hPQ _ _ _ _ h1 hr (hl.1 a ha)

theorem Matches.region {s : Rings} {t : SPWH} (h : Matches s t) (p : Pt) :
    InRegion t.outer t.holes p ↔ InRegion s.1 s.2 p := by
  unfold InRegion
  rw [h.outer.1.inPoly]
  refine and_congr_right fun _ => ⟨fun h1 k hk => ?_, fun h1 k hk => ?_⟩
  · obtain ⟨m, hm, hr⟩ := forall₂_left h.holes hk
    exact (hr.1.outPoly p).1 (h1 m hm)
  · obtain ⟨m, hm, hr⟩ := forall₂_right h.holes hk
    exact (hr.1.outPoly p).2 (h1 m hm)

theorem matches_ringed {S : List Rings} {g : Geom2D} (hS : ValidShape S) (h : List.Forall₂ Matches S g) : g.Ringed where
  outer t ht := by
    obtain ⟨s, hs, hm⟩ := forall₂_right h ht
    exact ⟨hm.outer.1.simple (hS.each s hs).outer, hm.outer.2⟩
  holes t ht k hk := by
    obtain ⟨s, hs, hm⟩ := forall₂_right h ht
    obtain ⟨L, hL, hr⟩ := forall₂_right hm.holes hk
    exact ⟨hr.1.simple ((hS.each s hs).holes L hL), hr.2⟩
  within t ht k hk p hp := by
    obtain ⟨s, hs, hm⟩ := forall₂_right h ht
    obtain ⟨L, hL, hr⟩ := forall₂_right hm.holes hk
    exact (hm.outer.1.inPoly p).2 ((hS.each s hs).within L hL p ((hr.1.inPoly p).1 hp))
  apart t ht := by
    obtain ⟨s, hs, hm⟩ := forall₂_right h ht
    refine forall₂_pairwise hm.holes (fun a b a' b' h1 h2 hP p hc => hP p ?_) (hS.each s hs).apart
    exact ⟨(h1.1.inPoly p).1 hc.1, (h2.1.inPoly p).1 hc.2⟩
  disj := by
    refine forall₂_pairwise h (fun a b a' b' h1 h2 hP p hc => hP p ?_) hS.apart
    exact ⟨(h1.region p).1 hc.1, (h2.region p).1 hc.2⟩

theorem matches_noded {S : List Rings} {g : Geom2D} (hS : Noded S) (h : List.Forall₂ Matches S g) : g.Noded := by
  have h2 : List.Forall₂ Clockwise (allRings S) (g.flatMap fun s => s.outer :: s.holes) := by
    unfold allRings
    clear hS
    induction h with
    | nil => exact List.Forall₂.nil
    | cons h1 _ ih =>
      rw [List.flatMap_cons, List.flatMap_cons]
      exact List.rel_append (List.Forall₂.cons h1.outer h1.holes) ih
  refine forall₂_pairwise h2 (fun L M L' M' c c' hP e he k hk x h1 h2 => ?_) hS
  rcases c.1.edges he with he | he <;> rcases c'.1.edges hk with hk | hk
  · exact hP e he k hk x h1 h2
  · exact (hP e he _ hk x h1 ((onSeg_rev k x).2 h2)).imp_right Or.symm
  · exact (hP _ he k hk x ((onSeg_rev e x).2 h1) h2).imp_left Or.symm
  · exact (hP _ he _ hk x ((onSeg_rev e x).2 h1) ((onSeg_rev k x).2 h2)).imp Or.symm Or.symm

theorem matches_area {s : Rings} {t : SPWH} (h : Matches s t) : regionArea t.outer t.holes = ringsArea s := by
  have cw : ∀ {L M : List Pt}, Clockwise L M → -shoelace M = |shoelace L| := fun hc => by
    rw [← hc.1.abs_shoelace, abs_of_neg hc.2]
  unfold regionArea ringsArea
  rw [cw h.outer]
  congr 2
  have := h.holes
  generalize s.2 = l at this
  generalize t.holes = m at this
  induction this with
  | nil => rfl
  | cons h1 _ ih => rw [List.map_cons, List.map_cons, cw h1, ih]

theorem fromShapelyPolygon_ok {s : Rings} (hs : s.Valid) :
    ∃ t, Geom2D.fromShapelyPolygon s.toSh = .ok [t] ∧ Matches s t := by
  obtain ⟨o, ho, e1⟩ := shPoints_outer hs.outer
  obtain ⟨hl, h2, e2⟩ : ∃ hl, List.Forall₂ Clockwise s.2 hl ∧
      ((s.2.map closeRing).map fun h => if ringArea h / (-1) ≤ 0 then h else h.reverse).mapM (fun h => (do
        let p ← shPoints h
        return p.reverse : Except PyErr (List Pt))) = .ok hl := by
    have := hs.holes
    clear hs e1 ho
    generalize s.2 = l at this
    induction l with
    | nil => exact ⟨[], List.Forall₂.nil, rfl⟩
    | cons L l ih =>
      obtain ⟨hl, i1, i2⟩ := ih fun h hh => this h (List.mem_cons_of_mem _ hh)
      obtain ⟨M, c1, p, c2, rfl⟩ := shPoints_hole (this L List.mem_cons_self)
      refine ⟨p.reverse :: hl, List.Forall₂.cons c1 i1, ?_⟩
      rw [List.map_cons, List.map_cons, List.mapM_cons, c2, i2]
      rfl
  have hm : Matches s ⟨o, hl⟩ := ⟨ho, h2⟩
  have hR := matches_ringed (S := [s]) (g := [⟨o, hl⟩]) ⟨fun t ht => by rw [List.mem_singleton.1 ht]; exact hs, by simp⟩
    (List.Forall₂.cons hm List.Forall₂.nil)
  refine ⟨⟨o, hl⟩, ?_, hm⟩
  have hmk : SPWH.mk' o hl = .ok ⟨o, hl⟩ := hR.made _ (List.mem_singleton.2 rfl)
  have ha := c31_area [⟨o, hl⟩] hR.made
  have h0 := (proper_area _ hR.proper _ ha).2
  unfold Geom2D.fromShapelyPolygon Rings.toSh ShPoly.orientNeg
  dsimp only
  rw [e1, e2]
  show (SPWH.mk' o hl >>= _) = _
  rw [hmk]
  show (Geom2D.area [⟨o, hl⟩] >>= _) = _
  rw [ha]
  exact if_pos h0

/-! ### Shapes -/

/-- The `shapely` geometry consists of the polygons. -/
inductive Shape.Of : Shape → List Rings → Prop
  | polygon (s : Rings) : Shape.Of (.polygon s.toSh) [s]
  | multiPolygon (S : List Rings) : Shape.Of (.multiPolygon (S.map Rings.toSh)) S
  | collection (S : List Rings) : Shape.Of (.collection (S.map Rings.toSh)) S

theorem fromShapelyPolygon_all {S : List Rings} (hS : ∀ s ∈ S, s.Valid) :
    ∃ g, List.Forall₂ Matches S g ∧
      ((S.map Rings.toSh).mapM Geom2D.fromShapelyPolygon >>= Geom2D.joinSingles) = .ok g := by
  obtain ⟨g, h1, h2⟩ : ∃ g : Geom2D, List.Forall₂ Matches S g ∧
      (S.map Rings.toSh).mapM Geom2D.fromShapelyPolygon = .ok (g.map fun t => [t]) := by
    induction S with
    | nil => exact ⟨[], List.Forall₂.nil, rfl⟩
    | cons s S ih =>
      obtain ⟨g, i1, i2⟩ := ih fun s hs => hS s (List.mem_cons_of_mem _ hs)
      obtain ⟨t, t1, t2⟩ := fromShapelyPolygon_ok (hS s List.mem_cons_self)
      refine ⟨t :: g, List.Forall₂.cons t2 i1, ?_⟩
      rw [List.map_cons, List.mapM_cons, t1, i2]
      rfl
  refine ⟨g, h1, ?_⟩
  rw [h2]
  show Geom2D.joinSingles _ = _
  clear h1 h2
  induction g with
  | nil => rfl
  | cons t g ih =>
    rw [List.map_cons, Geom2D.joinSingles, if_pos List.length_singleton, ih]
    rfl

theorem fromShapely_matches {S : List Rings} (hS : ∀ s ∈ S, s.Valid) {sh : Shape} (h : sh.Of S) :
    ∃ g, List.Forall₂ Matches S g ∧ Geom2D.fromShapely sh = .ok g := by
  cases h with
  | polygon s =>
    obtain ⟨t, t1, t2⟩ := fromShapelyPolygon_ok (hS s List.mem_cons_self)
    exact ⟨[t], List.Forall₂.cons t2 List.Forall₂.nil, t1⟩
  | multiPolygon S => exact fromShapelyPolygon_all hS
  | collection S => exact fromShapelyPolygon_all hS

theorem matches_locate {S : List Rings} {g : Geom2D} (hg : g.WellMade) (h : List.Forall₂ Matches S g) (p : Pt) :
    Geom2D.locate g p = .ok 1 ↔ ∃ s ∈ S, InRegion s.1 s.2 p := by
  rw [locate_one hg]
  constructor
  · rintro ⟨t, ht, hp⟩
    obtain ⟨s, hs, hm⟩ := forall₂_right h ht
    exact ⟨s, hs, (hm.region p).1 hp⟩
  · rintro ⟨s, hs, hp⟩
    obtain ⟨t, ht, hm⟩ := forall₂_left h hs
    exact ⟨t, ht, (hm.region p).2 hp⟩

theorem matches_sum {S : List Rings} {g : Geom2D} (h : List.Forall₂ Matches S g) :
    (g.map fun s => regionArea s.outer s.holes).sum = (S.map ringsArea).sum := by
  induction h with
  | nil => rfl
  | cons h1 _ ih => rw [List.map_cons, List.map_cons, List.sum_cons, List.sum_cons, matches_area h1, ih]

theorem matches_edge {S : List Rings} {g : Geom2D} (h : List.Forall₂ Matches S g) (p : Pt) :
    g.OnEdge p ↔ ∃ L ∈ allRings S, OnBoundary L p := by
  constructor
  · rintro ⟨t, ht, hp | ⟨k, hk, hp⟩⟩
    · obtain ⟨s, hs, hm⟩ := forall₂_right h ht
      exact ⟨s.1, List.mem_flatMap.2 ⟨s, hs, List.mem_cons_self⟩, (hm.outer.1.bound p).1 hp⟩
    · obtain ⟨s, hs, hm⟩ := forall₂_right h ht
      obtain ⟨L, hL, hr⟩ := forall₂_right hm.holes hk
      exact ⟨L, List.mem_flatMap.2 ⟨s, hs, List.mem_cons_of_mem _ hL⟩, (hr.1.bound p).1 hp⟩
  · rintro ⟨L, hL, hp⟩
    obtain ⟨s, hs, hL⟩ := List.mem_flatMap.1 hL
    obtain ⟨t, ht, hm⟩ := forall₂_left h hs
    rcases List.mem_cons.1 hL with rfl | hL
    · exact ⟨t, ht, Or.inl ((hm.outer.1.bound p).2 hp)⟩
    · obtain ⟨k, hk, hr⟩ := forall₂_left hm.holes hL
      exact ⟨t, ht, Or.inr ⟨k, hk, (hr.1.bound p).2 hp⟩⟩

theorem Geom2D.Ringed.usable {g : Geom2D} (h : g.Ringed) : g.Usable := ⟨h.made, h.outlined.cutting⟩

/-- C79: `from_shapely` accepts every valid shape, whatever the directions of its rings.  The geom has exactly
the inner points of the shape and the same area, its polygons do not overlap, and it can be an operand of the
operators. -/
theorem c79_from_shapely {S : List Rings} (hS : ValidShape S) {sh : Shape} (h : sh.Of S) :
    ∃ g, Geom2D.fromShapely sh = .ok g ∧ (∀ p, Geom2D.locate g p = .ok 1 ↔ ∃ s ∈ S, InRegion s.1 s.2 p) ∧
      Geom2D.area g = .ok (S.map ringsArea).sum ∧ g.Proper ∧ g.Usable := by
  obtain ⟨g, h1, h2⟩ := fromShapely_matches hS.each h
  have hR := matches_ringed hS h1
  exact ⟨g, h2, matches_locate hR.made h1, by rw [c31_area g hR.made, matches_sum h1], hR.proper, hR.usable⟩

/-- C79: if different rings only meet where both have a corner, then the edges are exactly the rings, and
the area is on one side of every edge. -/
theorem c79_noded {S : List Rings} (hS : ValidShape S) (hN : Noded S) {sh : Shape} (h : sh.Of S) {g : Geom2D}
    (hg : Geom2D.fromShapely sh = .ok g) :
    g.Fine ∧ (∀ p, g.Has p ↔ (∃ s ∈ S, InRegion s.1 s.2 p) ∨ ∃ L ∈ allRings S, OnBoundary L p) := by
  obtain ⟨g', h1, h2⟩ := fromShapely_matches hS.each h
  rw [h2, Except.ok.injEq] at hg
  subst hg
  have hR := matches_ringed hS h1
  have hF := hR.fine (matches_noded hN h1)
  refine ⟨hF, fun p => ?_⟩
  rw [hF.crisp.has hF.proper.made, matches_locate hR.made h1, matches_edge h1]

/-- C79: a ring whose last coordinate is not the first is refused. -/
theorem c79_open {a b : Pt} (hab : a ≠ b) (rest : List Pt) (hs : List (List Pt)) :
    Geom2D.fromShapely (.polygon ⟨a :: (rest ++ [b]), hs⟩) = .error .assertion := by
  have key : ∀ {x y : Pt} (l : List Pt), x ≠ y → shPoints (x :: (l ++ [y])) = .error .assertion := by
    intro x y l hxy
    unfold shPoints
    dsimp only
    rw [if_neg]
    simpa using hxy
  show Geom2D.fromShapelyPolygon _ = _
  unfold Geom2D.fromShapelyPolygon ShPoly.orientNeg
  dsimp only
  have : shPoints (if ringArea (a :: (rest ++ [b])) / (-1) ≥ 0 then a :: (rest ++ [b]) else (a :: (rest ++ [b])).reverse) =
      .error .assertion := by
    split_ifs
    · exact key rest hab
    · have : (a :: (rest ++ [b])).reverse = b :: (rest.reverse ++ [a]) := by simp
      rw [this]
      exact key _ hab.symm
  rw [this]
  rfl

theorem mapM_ok_each {α β : Type} {f : α → Except PyErr β} : ∀ {l : List α} {r : List β}, l.mapM f = .ok r →
    ∀ x ∈ l, ∃ y, f x = .ok y := by
  intro l
  induction l with
  | nil => intro r _ x hx; cases hx
  | cons a l ih =>
    intro r h x hx
    rw [List.mapM_cons] at h
    obtain ⟨y, hy, h⟩ := (bind_ok _ _ _).1 h
    obtain ⟨ys, hys, -⟩ := (bind_ok _ _ _).1 h
    rcases List.mem_cons.1 hx with rfl | hx
    · exact ⟨y, hy⟩
    · exact ih hys x hx

theorem presentSlices_all : ∀ {l : List (Option Shape)} {r : List Shape}, presentSlices l = .ok r → l = r.map some := by
  intro l
  induction l with
  | nil => intro r h; cases h; rfl
  | cons a l ih =>
    intro r h
    cases a with
    | none => cases h
    | some s =>
      obtain ⟨r', h1, h2⟩ := (bind_ok _ _ _).1 h
      cases h2
      rw [ih h1]; rfl

/-- C79: if the geoms of a sheet are made, then the mesh had a slice at all heights within the sheet, and all slices within and
next to the sheet consist of polygons: nothing of another kind is left out silently. -/
theorem c79_refused {arr : Geom2D.ArrOp} {d : SheetSource} {r : SheetParts} (h : sheetParts arr d = .ok r) :
    none ∉ d.slices ∧ some .other ∉ d.slices ∧ some .other ∉ d.outside := by
  obtain ⟨out, h1, h⟩ := (bind_ok _ _ _).1 h
  obtain ⟨pres, h2, h⟩ := (bind_ok _ _ _).1 h
  obtain ⟨sl, h3, -⟩ := (bind_ok _ _ _).1 h
  have e := presentSlices_all h2
  refine ⟨by simp [e], fun hc => ?_, fun hc => ?_⟩
  · rw [e] at hc
    obtain ⟨s, hs, hc⟩ := List.mem_map.1 hc
    obtain ⟨y, hy⟩ := mapM_ok_each h3 s hs
    rw [Option.some.inj hc] at hy
    cases hy
  · obtain ⟨y, hy⟩ := mapM_ok_each h1 _ hc
    cases hy

end Ply
