import Verif.Props.ConvexUnion

/-!
# C113: the intersection of two convex polygons
-/

namespace Ply

open Arr

/-- The point is right of the lines of all edges: inside of a convex ring. -/
def RightOf (L : List Pt) (p : Pt) : Prop := ∀ e ∈ polyEdges L, orient e.1 e.2 p < 0

/-- A segment covered by finitely many others lies on the line of one of them. -/
theorem on_one_line {S : List Seg} {e : Seg} (h : ∀ p, OnSeg e p → ∃ k ∈ S, OnSeg k p) :
    ∃ k ∈ S, orient k.1 k.2 e.1 = 0 ∧ orient k.1 k.2 e.2 = 0 := by
  have hs : ∀ n : ℕ, ∃ k : {k // k ∈ S}, OnSeg k.1 (along e (1 / ((n : ℚ) + 1))) := fun n => by
    have n0 : (0 : ℚ) < (n : ℚ) + 1 := by positivity
    obtain ⟨k, hk, ho⟩ := h (along e (1 / ((n : ℚ) + 1))) ⟨_, by positivity, by
      rw [div_le_one n0]; linarith [(Nat.cast_nonneg n : (0 : ℚ) ≤ n)], rfl⟩
    exact ⟨⟨k, hk⟩, ho⟩
  choose f hf using hs
  have : Finite {k // k ∈ S} := List.finite_toSet S
  obtain ⟨m, n, hmn, hfe⟩ := Finite.exists_ne_map_eq_of_infinite f
  have a := onSeg_orient (a := (f m).1.1) (b := (f m).1.2) (hf m)
  have b := onSeg_orient (a := (f m).1.1) (b := (f m).1.2) (hfe ▸ hf n)
  rw [orient_on_edge] at a b
  obtain ⟨s, es⟩ : ∃ s : ℚ, s = 1 / ((m : ℚ) + 1) := ⟨_, rfl⟩
  obtain ⟨t, et⟩ : ∃ s : ℚ, s = 1 / ((n : ℚ) + 1) := ⟨_, rfl⟩
  have hst : s - t ≠ 0 := fun h0 => hmn (by
    have hh := sub_eq_zero.1 h0
    rw [es, et] at hh
    rw [one_div, one_div, inv_inj] at hh
    exact_mod_cast add_right_cancel hh)
  rw [← es] at a
  rw [← et] at b
  refine ⟨(f m).1, (f m).2, ?_, ?_⟩
  · refine (mul_eq_zero.1 (?_ : (s - t) * _ = 0)).resolve_left hst
    linear_combination s * b - t * a
  · refine (mul_eq_zero.1 (?_ : (s - t) * _ = 0)).resolve_left hst
    linear_combination (1 - t) * a - (1 - s) * b

/-- A segment on the line of another one that has a point on the same side has the same sides. -/
theorem same_sides {k e : Seg} (hk : k.1 ≠ k.2) (h1 : orient k.1 k.2 e.1 = 0) (h2 : orient k.1 k.2 e.2 = 0) {c : Pt}
    (hc : orient k.1 k.2 c < 0) (he : orient e.1 e.2 c < 0) {v : Pt} (hv : orient k.1 k.2 v ≤ 0) : orient e.1 e.2 v ≤ 0 := by
  have m1 : ∀ z, (k.2.1 - k.1.1) * orient e.1 e.2 z = (e.2.1 - e.1.1) * orient k.1 k.2 z := fun z => by
    unfold orient at *
    linear_combination -(e.2.1 - e.1.1) * h1 - (z.1 - e.1.1) * (h2 - h1)
  have m2 : ∀ z, (k.2.2 - k.1.2) * orient e.1 e.2 z = (e.2.2 - e.1.2) * orient k.1 k.2 z := fun z => by
    unfold orient at *
    linear_combination -(e.2.2 - e.1.2) * h1 - (z.2 - e.1.2) * (h2 - h1)
  have id : orient k.1 k.2 v * orient e.1 e.2 c = orient k.1 k.2 c * orient e.1 e.2 v := by
    by_cases h : k.2.1 - k.1.1 = 0
    · have h' : k.2.2 - k.1.2 ≠ 0 := fun h' => hk (Prod.ext (by linarith) (by linarith))
      apply mul_left_cancel₀ h'
      linear_combination orient k.1 k.2 v * m2 c - orient k.1 k.2 c * m2 v
    · apply mul_left_cancel₀ h
      linear_combination orient k.1 k.2 v * m1 c - orient k.1 k.2 c * m1 v
  by_contra hn
  push Not at hn
  have := mul_neg_of_neg_of_pos hc hn
  have := mul_nonneg_of_nonpos_of_nonpos hv he.le
  linarith

/-- C113: the intersection of two convex polygons never raises, and its inner points are exactly the common inner points.
If there are some it is one convex ring without holes.  Its corners are
corners of the polygons or crossings of their edges.  If there are none, it is empty. -/
theorem c113_and (ch : Choices) (hch : ch.Valid) {P Q : List Pt} (hP : ConvexRing P) (hQ : ConvexRing Q) (re : Bool) :
    ∃ a b r, Geom2D.polygon P re = .ok a ∧ Geom2D.polygon Q re = .ok b ∧ Geom2D.and (arrangementOp ch) a b = .ok r ∧
      (∀ p, Geom2D.locate r p = .ok 1 ↔ RightOf P p ∧ RightOf Q p) ∧
      ((∃ p, RightOf P p ∧ RightOf Q p) → ∃ R, r = [⟨R, []⟩] ∧ ConvexRing R ∧
        ∀ v ∈ R, EventPoint (polyEdges P ++ polyEdges Q) v) ∧
      ((¬ ∃ p, RightOf P p ∧ RightOf Q p) → r = []) := by
  obtain ⟨o, ho⟩ := hP.inner
  obtain ⟨o', ho'⟩ := hQ.inner
  have sP : StarRing o P := ⟨hP.simple, (hP.inPoly_iff o).1 ho⟩
  have sQ : StarRing o' Q := ⟨hQ.simple, (hQ.inPoly_iff o').1 ho'⟩
  have ins : ∀ {L : List Pt}, ConvexRing L → L ≠ [] → ∀ p, Geom2D.locate (ringGeom L) p = .ok 1 ↔ RightOf L p := by
    intro L hL h0 p
    obtain ⟨v, h1, h2, -⟩ := locate_single L h0 p
    unfold ringGeom
    rw [h1, Except.ok.injEq, h2, hL.inPoly_iff, RightOf]
  obtain ⟨r, hr, hf, hp⟩ := c85_and ch hch _ _ sP.fine sQ.fine
  simp only [ins hP sP.ne, ins hQ sQ.ne] at hp
  refine ⟨_, _, r, sP.polygon re, sQ.polygon re, hr, hp, ?_, fun h => ?_⟩
  · rintro ⟨c, h1, h2⟩
    obtain ⟨-, R, hR, hS, hb, -⟩ := c104_step ch hch (o := c) ⟨hP.simple, h1⟩ ⟨hQ.simple, h2⟩
    rw [hr] at hR
    cases hR
    have hfine := hS.fine
    have near : ∀ {L : List Pt} {o : Pt}, ConvexRing L → StarRing o L → (∀ p, Geom2D.locate (ringGeom R) p = .ok 1 → RightOf L p) → ∀ v ∈ R,
        ∀ k ∈ polyEdges L, orient k.1 k.2 v ≤ 0 := by
      intro L o hL sL hin v hv
      refine (hL.closed_iff v).1 ?_
      by_contra hc
      push Not at hc
      have out : Geom2D.locate (ringGeom L) v = .ok (-1) := by
        obtain ⟨w, k1, -, -, k4⟩ := locate_single L sL.ne v
        unfold ringGeom
        rw [k1, Except.ok.injEq, k4]
        refine ⟨hc.2, ?_⟩
        by_contra h0
        exact hc.1 ⟨hc.2, h0⟩
      have hon : Geom2D.OnEdge (ringGeom R) v := by
        rw [← polyEdges_map_fst R] at hv
        obtain ⟨e, he, rfl⟩ := List.mem_map.1 hv
        exact ⟨⟨R, []⟩, by simp [ringGeom], Or.inl ⟨e, he, onSeg_start e⟩⟩
      obtain ⟨⟨w, w1, w2⟩, -⟩ := hfine.crisp.near hfine.proper.made hon (stable_outside sL.fine.proper.made v)
        (by rw [add_zero]; exact out)
      rw [(ins hL sL.ne _).2 (hin _ w2)] at w1
      cases w1
    refine ⟨R, rfl, ⟨hS.simple, hS.cw, fun e he v hv => ?_⟩, fun v hv => ?_⟩
    · obtain ⟨k, hk, k1, k2⟩ := on_one_line (S := polyEdges P ++ polyEdges Q) (e := e) fun p hp => by
        rcases hb p ⟨e, he, hp⟩ with ⟨k, hk, ho⟩ | ⟨k, hk, ho⟩
        · exact ⟨k, List.mem_append_left _ hk, ho⟩
        · exact ⟨k, List.mem_append_right _ hk, ho⟩
      rcases List.mem_append.1 hk with hk | hk
      · exact same_sides (hP.pos hk) k1 k2 (h1 k hk) (hS.right e he) (near hP sP (fun p hin => ((hp p).1 hin).1) v hv k hk)
      · exact same_sides (hQ.pos hk) k1 k2 (h2 k hk) (hS.right e he) (near hQ sQ (fun p hin => ((hp p).1 hin).2) v hv k hk)
    · have := c108_operators ch hch sP.fine.proper.made sQ.fine.proper.made (Or.inr (Or.inl hr)) (s := ⟨R, []⟩) (by simp [ringGeom])
        (Or.inl hv)
      simpa [ringGeom, Geom2D.allSegments, SPWH.segments, edgesIter_eq] using this
  · exact fine_nothing hf fun p hin => h ⟨p, (hp p).1 hin⟩

theorem ConvexRing.geom {L : List Pt} (h : ConvexRing L) : (ringGeom L).Fine ∧ ∀ p, Geom2D.locate (ringGeom L) p = .ok 1 ↔ RightOf L p := by
  obtain ⟨o, ho⟩ := h.inner
  have sL : StarRing o L := ⟨h.simple, (h.inPoly_iff o).1 ho⟩
  refine ⟨sL.fine, fun p => ?_⟩
  obtain ⟨v, h1, h2, -⟩ := locate_single L h.simple.ne_nil p
  unfold ringGeom
  rw [h1, Except.ok.injEq, h2, h.inPoly_iff, RightOf]

/-- C113: the same for any number of convex polygons, one after the other. -/
theorem c113_many (ch : Choices) (hch : ch.Valid) (P : List Pt) (Ls : List (List Pt)) (hP : ConvexRing P) (hL : ∀ L ∈ Ls, ConvexRing L) :
    ∃ r, Ls.foldlM (fun g L => Geom2D.and (arrangementOp ch) g (ringGeom L)) (ringGeom P) = .ok r ∧
      (r = [] ∨ ∃ R, r = [⟨R, []⟩] ∧ ConvexRing R) ∧
      ∀ p, Geom2D.locate r p = .ok 1 ↔ RightOf P p ∧ ∀ L ∈ Ls, RightOf L p := by
  have key : ∀ (Ls : List (List Pt)) (g : Geom2D), (∀ L ∈ Ls, ConvexRing L) → g = [] ∨ (∃ R, g = [⟨R, []⟩] ∧ ConvexRing R) →
      ∃ r, Ls.foldlM (fun g L => Geom2D.and (arrangementOp ch) g (ringGeom L)) g = .ok r ∧
        (r = [] ∨ ∃ R, r = [⟨R, []⟩] ∧ ConvexRing R) ∧
        ∀ p, Geom2D.locate r p = .ok 1 ↔ Geom2D.locate g p = .ok 1 ∧ ∀ L ∈ Ls, RightOf L p := by
    intro Ls
    induction Ls with
    | nil => exact fun g _ hg => ⟨g, rfl, hg, fun p => by simp⟩
    | cons L Ls ih =>
      intro g hL hg
      have cL := hL L List.mem_cons_self
      have fg : g.Fine := by
        rcases hg with rfl | ⟨R, rfl, hR⟩
        · exact fine_empty
        · exact hR.geom.1
      obtain ⟨r1, a1, a2, a3⟩ := c85_and ch hch g (ringGeom L) fg cL.geom.1
      obtain ⟨r, b1, b2, b3⟩ := ih r1 (fun L h => hL L (List.mem_cons_of_mem _ h)) (by
        rcases hg with rfl | ⟨R, rfl, hR⟩
        · exact Or.inl (fine_nothing a2 fun p hp => by
            have := ((a3 p).1 hp).1
            cases this)
        · obtain ⟨a, b, r, c1, c2, c3, -, c5, c6⟩ := c113_and ch hch hR cL true
          obtain ⟨o, ho⟩ := hR.inner
          obtain ⟨o', ho'⟩ := cL.inner
          rw [StarRing.polygon (o := o) ⟨hR.simple, (hR.inPoly_iff o).1 ho⟩] at c1
          rw [StarRing.polygon (o := o') ⟨cL.simple, (cL.inPoly_iff o').1 ho'⟩] at c2
          cases c1; cases c2
          have c3 : Geom2D.and (arrangementOp ch) [⟨R, []⟩] (ringGeom L) = .ok r := c3
          rw [a1] at c3
          cases c3
          by_cases hc : ∃ p, RightOf R p ∧ RightOf L p
          · obtain ⟨R', e1, e2, -⟩ := c5 hc
            exact Or.inr ⟨R', e1, e2⟩
          · exact Or.inl (c6 hc))
      refine ⟨r, ?_, b2, fun p => ?_⟩
      · rw [List.foldlM_cons, a1]
        exact b1
      · rw [b3, a3, cL.geom.2, List.forall_mem_cons, and_assoc]
  obtain ⟨r, h1, h2, h3⟩ := key Ls (ringGeom P) hL (Or.inr ⟨P, rfl, hP⟩)
  exact ⟨r, h1, h2, fun p => by rw [h3, hP.geom.2]⟩

/-- Rectangles are convex. -/
theorem boxLoop_convex {x0 y0 x1 y1 : ℚ} (hx : x0 < x1) (hy : y0 < y1) (k : ℕ) : ConvexRing ((boxLoop x0 y0 x1 y1).rotate k) where
  simple := (boxLoop_simple hx hy).rotate k
  cw := by rw [shoelace_rotate, boxLoop_shoelace]; nlinarith
  convex e he v hv := by
    rw [(polyEdges_rotate _ k).mem_iff, boxLoop_edges] at he
    rw [List.mem_rotate] at hv
    have hm := mul_pos (sub_pos.2 hx) (sub_pos.2 hy)
    simp only [boxLoop, List.mem_cons, List.not_mem_nil, or_false] at he hv
    rcases he with rfl | rfl | rfl | rfl <;> rcases hv with rfl | rfl | rfl | rfl <;> simp only [orient] <;> nlinarith

/-! ### Example -/

def triS : List Pt := [(2, 1), (4, 6), (6, 1)]

theorem triS_bulge : Bulge triS where
  long := by simp [triS]
  nodup := by simp [triS]
  strict e he v hv := by
    simp only [triS, polyEdges, List.cons_append, List.nil_append, List.zip_cons_cons, List.zip_nil_right, List.mem_cons,
      List.not_mem_nil, or_false] at he hv
    rcases he with rfl | rfl | rfl <;> rcases hv with rfl | rfl | rfl <;> norm_num [orient]

theorem triS_convex : ConvexRing triS :=
  ⟨triS_bulge.simple, by norm_num [shoelace, triS, polyEdges, cross], fun _ he _ hv => triS_bulge.le he hv⟩

/-- C113: two triangles that overlap, and two that touch along a slanting edge. -/
theorem c113_example (ch : Choices) (hch : ch.Valid) :
    (∃ a b R, Geom2D.polygon triP true = .ok a ∧ Geom2D.polygon triS true = .ok b ∧
      Geom2D.and (arrangementOp ch) a b = .ok [⟨R, []⟩] ∧ InPoly R (3, 2) ∧ ¬ InPoly R (4, 4)) ∧
    ∃ a b, Geom2D.polygon triP true = .ok a ∧ Geom2D.polygon triQ true = .ok b ∧ Geom2D.and (arrangementOp ch) a b = .ok [] := by
  constructor
  · obtain ⟨a, b, r, h1, h2, h3, h4, h5, -⟩ := c113_and ch hch triP_convex triS_convex true
    have hin : RightOf triP (3, 2) ∧ RightOf triS (3, 2) := by
      unfold RightOf
      simp only [triP, triS, polyEdges, List.cons_append, List.nil_append, List.zip_cons_cons, List.zip_nil_right, List.forall_mem_cons]
      norm_num [orient]
    obtain ⟨R, rfl, hs, -⟩ := h5 ⟨_, hin⟩
    have hR : ∀ p, InPoly R p ↔ RightOf triP p ∧ RightOf triS p := fun p => by
      rw [← h4]
      obtain ⟨v, k1, k2, -⟩ := locate_single R (by rintro rfl; have := hs.simple.long; simp at this) p
      rw [k1, Except.ok.injEq, k2]
    refine ⟨a, b, R, h1, h2, h3, (hR _).2 hin, fun h => ?_⟩
    have := ((hR _).1 h).1 ((0, 6), (6, 0)) (by simp [triP, polyEdges])
    norm_num [orient] at this
  · obtain ⟨a, b, r, h1, h2, h3, -, -, h6⟩ := c113_and ch hch triP_convex triQ_convex true
    refine ⟨a, b, h1, h2, ?_⟩
    rw [h3, h6]
    rintro ⟨p, k1, k2⟩
    have e1 := k1 ((0, 6), (6, 0)) (by simp [triP, polyEdges])
    have e2 := k2 ((4, 2), (1, 5)) (by simp [triQ, polyEdges])
    unfold orient at e1 e2
    linarith

def triT : List Pt := [(3, 0), (3, 5), (7, 0)]

theorem triT_bulge : Bulge triT where
  long := by simp [triT]
  nodup := by simp [triT]
  strict e he v hv := by
    simp only [triT, polyEdges, List.cons_append, List.nil_append, List.zip_cons_cons, List.zip_nil_right, List.mem_cons,
      List.not_mem_nil, or_false] at he hv
    rcases he with rfl | rfl | rfl <;> rcases hv with rfl | rfl | rfl <;> norm_num [orient]

theorem triT_convex : ConvexRing triT :=
  ⟨triT_bulge.simple, by norm_num [shoelace, triT, polyEdges, cross], fun _ he _ hv => triT_bulge.le he hv⟩

/-- C113: three triangles with common inner points. -/
theorem c113_three (ch : Choices) (hch : ch.Valid) :
    ∃ R, [triS, triT].foldlM (fun g L => Geom2D.and (arrangementOp ch) g (ringGeom L)) (ringGeom triP) = .ok [⟨R, []⟩] ∧
      ConvexRing R ∧ InPoly R (7 / 2, 2) := by
  obtain ⟨r, h1, h2, h3⟩ := c113_many ch hch triP [triS, triT] triP_convex (by
    intro L hL
    simp only [List.mem_cons, List.not_mem_nil, or_false] at hL
    rcases hL with rfl | rfl
    exacts [triS_convex, triT_convex])
  have hin : Geom2D.locate r (7 / 2, 2) = .ok 1 := by
    rw [h3]
    unfold RightOf
    simp only [triP, triS, triT, polyEdges, List.cons_append, List.nil_append, List.zip_cons_cons, List.zip_nil_right, List.forall_mem_cons]
    norm_num [orient]
  rcases h2 with rfl | ⟨R, rfl, hR⟩
  · cases hin
  · exact ⟨R, h1, hR, (hR.inPoly_iff _).2 ((hR.geom.2 _).1 hin)⟩

end Ply
