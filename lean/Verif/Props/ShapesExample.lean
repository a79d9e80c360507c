import Verif.Props.BufferExample
import Verif.Props.SheetsBuild

/-! # Shapes, slices and facets for examples -/

namespace Ply

open Arr

/-! ### Checking rings -/

/-- One of some lines strictly separates the segments. -/
def sepCheck (a b : Seg) : Bool :=
  [dir a, dir b, (-(dir a).2, (dir a).1), (-(dir b).2, (dir b).1)].any fun w =>
    decide (dotp w a.1 < dotp w b.1 ∧ dotp w a.1 < dotp w b.2 ∧ dotp w a.2 < dotp w b.1 ∧ dotp w a.2 < dotp w b.2) ||
    decide (dotp w b.1 < dotp w a.1 ∧ dotp w b.1 < dotp w a.2 ∧ dotp w b.2 < dotp w a.1 ∧ dotp w b.2 < dotp w a.2)

theorem sep_apart {a b : Seg} (h : sepCheck a b = true) {x : Pt} (ha : OnSeg a x) (hb : OnSeg b x) : False := by
  have hS : Separated a b := by
    unfold sepCheck at h
    rw [List.any_eq_true] at h
    obtain ⟨w, -, h⟩ := h
    rw [Bool.or_eq_true, decide_eq_true_eq, decide_eq_true_eq] at h
    rcases h with ⟨h1, h2, h3, h4⟩ | ⟨h1, h2, h3, h4⟩
    · exact separated_of a b w h1 h2 h3 h4
    · exact (separated_of b a w h1 h2 h3 h4).symm
  obtain ⟨w, k, h1, h2, h3, h4⟩ := hS
  obtain ⟨s, s0, s1, rfl⟩ := ha
  obtain ⟨t, t0, t1, e⟩ := hb
  have e1 := dotp_along w a s
  have e2 := dotp_along w b t
  rw [← e] at e2
  rw [e1] at e2
  nlinarith [mul_nonneg s0 (sub_nonneg.2 h2.le), mul_nonneg (sub_nonneg.2 s1) (sub_nonneg.2 h1.le),
    mul_nonneg t0 (sub_nonneg.2 h4.le), mul_nonneg (sub_nonneg.2 t1) (sub_nonneg.2 h3.le)]

/-- All pairs of edges are the same, adjacent and not in line, or separated. -/
def simpleCheck (L : List Pt) : Bool :=
  decide (3 ≤ L.length) && decide L.Nodup && (polyEdges L).all fun e => (polyEdges L).all fun k =>
    decide (k = e) || decide (e.2 = k.1 ∧ cross (e.1 - e.2) (k.2 - e.2) ≠ 0) ||
    decide (k.2 = e.1 ∧ cross (k.1 - k.2) (e.2 - k.2) ≠ 0) || sepCheck e k

theorem simple_of {L : List Pt} (h : simpleCheck L = true) : SimpleRing L := by
  unfold simpleCheck at h
  rw [Bool.and_eq_true, Bool.and_eq_true, decide_eq_true_eq, decide_eq_true_eq] at h
  refine ⟨h.1.1, h.1.2, fun e he k hk x hx hx' => ?_⟩
  have := List.all_eq_true.1 (List.all_eq_true.1 h.2 e he) k hk
  simp only [Bool.or_eq_true, decide_eq_true_eq] at this
  rcases this with ((h1 | ⟨h1, h2⟩) | ⟨h1, h2⟩) | h1
  · exact Or.inl h1
  · right; right
    obtain ⟨e1, e2⟩ := e
    obtain ⟨k1, k2⟩ := k
    dsimp only at h1 h2 ⊢
    subst h1
    have := tri_meet h2 hx hx'
    exact ⟨this, this⟩
  · right; left
    obtain ⟨e1, e2⟩ := e
    obtain ⟨k1, k2⟩ := k
    dsimp only at h1 h2 ⊢
    subst h1
    have := tri_meet h2 hx' hx
    exact ⟨this, this⟩
  · exact (sep_apart h1 hx hx').elim

/-- The edges of the rings are separated. -/
def nodedCheck : List (List Pt) → Bool
  | [] => true
  | L :: rest => (rest.all fun M => (polyEdges L).all fun e => (polyEdges M).all fun k => sepCheck e k) && nodedCheck rest

theorem noded_of {S : List Rings} (h : nodedCheck (allRings S) = true) : Noded S := by
  unfold Noded
  generalize allRings S = R at h
  induction R with
  | nil => exact List.Pairwise.nil
  | cons L R ih =>
    rw [nodedCheck, Bool.and_eq_true] at h
    refine List.Pairwise.cons (fun M hM e he k hk x hx hx' => ?_) (ih h.2)
    exact (sep_apart (List.all_eq_true.1 (List.all_eq_true.1 (List.all_eq_true.1 h.1 M hM) e he) k hk) hx hx').elim

/-- A single ring without holes. -/
theorem valid_single {L : List Pt} (h : simpleCheck L = true) : ValidShape [(L, [])] ∧ Noded [(L, [])] :=
  ⟨⟨fun s hs => by
      cases List.mem_singleton.1 hs
      exact ⟨simple_of h, by simp, by simp, List.Pairwise.nil⟩, List.pairwise_singleton _ _⟩,
    by unfold Noded allRings; simp⟩

/-! ### A frame with an island -/

theorem tri_ccw {a b c : Pt} (h : 0 < shoelace [a, b, c]) (p : Pt) :
    InPoly [a, b, c] p ↔ orient c b p < 0 ∧ orient b a p < 0 ∧ orient a c p < 0 := by
  have e : SameRing [a, b, c] [c, b, a] := ⟨0, Or.inr rfl⟩
  rw [← e.inPoly]
  refine triangle_in_iff ?_ p
  have := shoelace_reverse [a, b, c]
  have e' : [a, b, c].reverse = [c, b, a] := rfl
  rw [e'] at this
  rw [this]; linarith

/-- A triangle with a hole, and a triangle in the hole; some rings go one way, some the other. -/
def frame : List Rings :=
  [([(0, 0), (12, 0), (0, 12)], [[(1, 1), (1, 5), (5, 1)]]), ([(2, 2), (3, 2), (2, 3)], [])]

theorem frame_valid : ValidShape frame ∧ Noded frame := by
  have h1 : ∀ p : Pt, InPoly [(0, 0), (12, 0), (0, 12)] p ↔ _ := tri_ccw (by decide +kernel)
  have h2 : ∀ p : Pt, InPoly [(1, 1), (1, 5), (5, 1)] p ↔ _ := triangle_in_iff (by decide +kernel)
  have h3 : ∀ p : Pt, InPoly [(2, 2), (3, 2), (2, 3)] p ↔ _ := tri_ccw (by decide +kernel)
  refine ⟨⟨fun s hs => ?_, ?_⟩, noded_of (by decide +kernel)⟩
  · unfold frame at hs
    simp only [List.mem_cons, List.not_mem_nil, or_false] at hs
    rcases hs with rfl | rfl
    · refine ⟨simple_of (by decide +kernel), fun h hh => ?_, fun h hh p => ?_, List.pairwise_singleton _ _⟩ <;>
        cases List.mem_singleton.1 hh
      · exact simple_of (by decide +kernel)
      · rw [h1, h2]
        unfold orient
        simp only
        rintro ⟨a, b, c⟩
        refine ⟨?_, ?_, ?_⟩ <;> linarith
    · exact ⟨simple_of (by decide +kernel), by simp, by simp, List.Pairwise.nil⟩
  · refine List.Pairwise.cons (fun t ht p hp => ?_) (List.pairwise_singleton _ _)
    cases List.mem_singleton.1 ht
    have k3 := (h3 p).1 hp.2.1
    refine ((h2 p).2 ?_).2 (hp.1.2 _ List.mem_cons_self).2
    revert k3
    unfold orient
    simp only
    rintro ⟨a, b, c⟩
    refine ⟨?_, ?_, ?_⟩ <;> linarith

/-- C79: the geom of the frame. -/
theorem c79_run : Geom2D.fromShapely (.multiPolygon (frame.map Rings.toSh)) =
    .ok [⟨[(0, 0), (0, 12), (12, 0)], [[(1, 5), (5, 1), (1, 1)]]⟩, ⟨[(2, 2), (2, 3), (3, 2)], []⟩] :=
  ok_value (by decide +kernel)

example : ∃ g, Geom2D.fromShapely (.multiPolygon (frame.map Rings.toSh)) = .ok g ∧ Geom2D.area g = .ok (129 / 2) ∧ g.Fine := by
  obtain ⟨g, h1, -, h3, -⟩ := c79_from_shapely frame_valid.1 (.multiPolygon frame)
  refine ⟨g, h1, ?_, (c79_noded frame_valid.1 frame_valid.2 (.multiPolygon frame) h1).1⟩
  rw [h3]
  congr 1
  decide +kernel

/-- C79: a ring that is not closed. -/
example : Geom2D.fromShapely (.polygon ⟨[(0, 0), (0, 1), (1, 0)], []⟩) = .error .assertion :=
  c79_open (a := (0, 0)) (b := (1, 0)) (by decide) [(0, 1)] []

/-! ### A sheet from slices and facets -/

/-- The first slice is a plate, the second a strip that leaves the plate; on both sides a plate of two triangles. -/
def srcT : SheetSource where
  outside := [none, some (.polygon (Rings.toSh ([(20, 0), (21, 0), (20, 1)], [])))]
  slices := [some (.polygon (Rings.toSh ([(0, 0), (10, 0), (10, 8), (0, 8)], []))),
    some (.polygon (Rings.toSh ([(0, 0), (0, 1 / 2), (14, 1 / 2), (14, 0)], [])))]
  same := [((0, 0), (0, 8), (10, 8)), ((0, 0), (10, 8), (10, 0))]
  opposed := [((0, 0), (10, 8), (0, 8)), ((0, 0), (10, 8), (10, 0))]

/-- The geoms made from them. -/
def partsT : SheetParts where
  face0 := [⟨[(0, 8), (10, 8), (10, 0), (0, 0)], []⟩]
  face1 := plate
  outside := [[], [⟨[(20, 0), (20, 1), (21, 0)], []⟩]]
  bothFaces := [⟨[(0, 8), (10, 8), (10, 0), (0, 0)], []⟩]
  slicesMax := [⟨[(10, 8), (10, 1 / 2), (14, 1 / 2), (14, 0), (10, 0), (0, 0), (0, 1 / 2), (0, 8)], []⟩]
  slicesMin := [⟨[(0, 0), (0, 1 / 2), (10, 1 / 2), (10, 0)], []⟩]

/-- C82: a run. -/
theorem c82_run : sheetParts (arrangementOp chDemo) srcT = .ok partsT := ok_value (by decide +kernel)

/-- C80: a run. -/
theorem c80_run : Geom2D.faceLoop (arrangementOp chDemo) Geom2D.empty srcT.opposed = .ok plate := ok_value (by decide +kernel)

/-- The polygons of the slices. -/
def outT : List (List Rings) := [[], [([(20, 0), (21, 0), (20, 1)], [])]]
def insT : List (List Rings) := [[([(0, 0), (10, 0), (10, 8), (0, 8)], [])], [([(0, 0), (0, 1 / 2), (14, 1 / 2), (14, 0)], [])]]

theorem srcT_sourced : Sourced srcT outT insT where
  outside := .cons (Or.inr ⟨rfl, rfl⟩) (.cons (Or.inl ⟨_, rfl, .polygon _⟩) .nil)
  slices := .cons ⟨_, rfl, .polygon _⟩ (.cons ⟨_, rfl, .polygon _⟩ .nil)
  valid S hS := by
    unfold outT insT at hS
    simp only [List.cons_append, List.nil_append, List.mem_cons, List.not_mem_nil, or_false] at hS
    rcases hS with rfl | rfl | rfl | rfl
    · exact ⟨⟨by simp, List.Pairwise.nil⟩, List.Pairwise.nil⟩
    all_goals exact valid_single (by decide +kernel)

/-- C82: the point is in a slice, so it is in `slices_max`. -/
example : partsT.slicesMax.Has (13, 0) := by
  obtain ⟨-, -, -, h, -⟩ := c82_parts chDemo chDemo_valid srcT_sourced c82_run
  refine (h.2 _).2 ⟨_, List.mem_cons_of_mem _ List.mem_cons_self, Or.inr ⟨_, List.mem_singleton_self _, ?_⟩⟩
  exact ⟨((14, 0), (0, 0)), by decide +kernel, 1 / 14, by norm_num, by norm_num, by unfold along; norm_num⟩

/-- C81: the slices, one by one. -/
example : ∃ r, Geom2D.reduce (Geom2D.or (arrangementOp chDemo)) [plate, thin] = .ok r ∧ r.Has (12, 0) := by
  have key : okAnd (Geom2D.reduce (Geom2D.or (arrangementOp chDemo)) [plate, thin]) (fun _ => true) = true := by
    decide +kernel
  obtain ⟨r, h, -⟩ := ok_of_match key
  refine ⟨r, h, ((c81_max chDemo chDemo_valid _ ?_ h).2 _).2 ⟨thin, by simp, ?_⟩⟩
  · intro g hg
    simp only [List.mem_cons, List.not_mem_nil, or_false] at hg
    rcases hg with rfl | rfl
    exacts [plate_fine, thin_fine]
  · exact Or.inr (ok_value (by decide +kernel))

/-- C80: a flat triangle. -/
example (r : Geom2D) : Geom2D.faceLoop (arrangementOp chDemo) Geom2D.empty
    [((0, 0), (0, 8), (10, 8)), ((0, 0), (5, 4), (10, 8))] ≠ .ok r :=
  c80_flat chDemo _ _ (t := ((0, 0), (5, 4), (10, 8))) (by simp) (by decide +kernel) r

/-! ### A fresh build of sheets made from slices and facets -/

/-- The plate and the part of the strip within 1 of it. -/
def stripS : Geom2D := [⟨[(11, 1 / 2), (11, 0), (10, 0), (0, 0), (0, 1 / 2), (0, 8), (10, 8), (10, 1 / 2)], []⟩]

theorem stripS_chosen : freshChosen (codeOps chDemo sqDemo) partsT.geoms = .ok stripS := ok_value (by decide +kernel)

theorem stripS_ok : freshOk (codeOps chDemo sqDemo) 1 partsT.geoms = .ok stripS := ok_value (by decide +kernel)

/-- The fresh build. -/
def buildS : SheetBuild Geom2D where
  sheetplex := plex2
  sheetChosen := [("s0".toList, plateBack), ("s2".toList, plateBack)]
  sheetOk := [("s0".toList, stripS), ("s2".toList, stripS)]
  interChosen := [(id0, ⟨[]⟩), (id2, ⟨[]⟩)]
  interOk := [(id0, ivl 0 11), (id2, ivl 0 11)]

/-- C83: the build of two such sheets. -/
theorem c83_run : createSheetbuild (codeOps chDemo sqDemo) plex2 (fun _ => partsT.geoms) 1 = .ok buildS := by
  have ok_bind : ∀ {α β : Type} (a : α) (f : α → Except PyErr β), (Except.ok a >>= f) = f a := fun _ _ => rfl
  have hs : plex2.sheets = [("s0".toList, ⟨"s0".toList⟩), ("s2".toList, ⟨"s2".toList⟩)] := by decide
  have f1 : dictOf (fun e : Name × Sheet => e.2.id) (fun _ => freshChosen (codeOps chDemo sqDemo) partsT.geoms) plex2.sheets =
      .ok [("s0".toList, stripS), ("s2".toList, stripS)] := by
    rw [hs]
    simp only [dictOf, stripS_chosen, ok_bind]
  have f2 : dictOf (fun e : Name × Sheet => e.2.id) (fun _ => freshOk (codeOps chDemo sqDemo) 1 partsT.geoms) plex2.sheets =
      .ok [("s0".toList, stripS), ("s2".toList, stripS)] := by
    rw [hs]
    simp only [dictOf, stripS_ok, ok_bind]
  have f3 : intersides (plex2.intersections.map Prod.snd) none = [side2 0, side2 1] := by rfl
  have f4 : dictOf InterSide.id (fun _ => Geom1D.empty) [side2 0, side2 1] = .ok [(id0, ⟨[]⟩), (id2, ⟨[]⟩)] :=
    ok_value (by decide +kernel)
  have f5 : dictOf InterSide.id (freshInterOk (codeOps chDemo sqDemo) (fun _ => partsT.geoms)
      [("s0".toList, stripS), ("s2".toList, stripS)]) [side2 0, side2 1] = .ok [(id0, ivl 0 11), (id2, ivl 0 11)] :=
    ok_value (by decide +kernel)
  have f6 : restrictInter plex2 [(id0, ivl 0 11), (id2, ivl 0 11)] [side2 0, side2 1] =
      .ok [(id0, ivl 0 11), (id2, ivl 0 11)] := by
    have g0 : PMap.get [(id0, ivl 0 11), (id2, ivl 0 11)] (side2 0).id = .ok (ivl 0 11) := by rfl
    have g1 : PMap.get [(id0, ivl 0 11), (id2, ivl 0 11)] (side2 1).id = .ok (ivl 0 11) := by rfl
    have o0 : (side2 0).opposite plex2 = .ok (side2 1) := by rfl
    have o1 : (side2 1).opposite plex2 = .ok (side2 0) := by rfl
    have s0 : PMap.set [(id0, ivl 0 11), (id2, ivl 0 11)] (side2 0).id (ivl 0 11) = [(id0, ivl 0 11), (id2, ivl 0 11)] := by rfl
    have s1 : PMap.set [(id0, ivl 0 11), (id2, ivl 0 11)] (side2 1).id (ivl 0 11) = [(id0, ivl 0 11), (id2, ivl 0 11)] := by rfl
    rw [restrictInter, g0, ok_bind, o0, ok_bind, g1, ok_bind, ivl_and 0 11 (by norm_num), ok_bind, s0,
      restrictInter, g1, ok_bind, o1, ok_bind, g0, ok_bind, ivl_and 0 11 (by norm_num), ok_bind, s1, restrictInter]
  have f7 : removeFingers (codeOps chDemo sqDemo) plex2 [("s0".toList, stripS), ("s2".toList, stripS)]
      [(id0, ivl 0 11), (id2, ivl 0 11)] = .ok [("s0".toList, plateBack), ("s2".toList, plateBack)] :=
    ok_value (by decide +kernel)
  unfold createSheetbuild
  rw [f1, ok_bind, f2, ok_bind, f3]
  dsimp only
  rw [f4, ok_bind, f5, ok_bind, f6, ok_bind, f7]
  rfl

/-- C83: a point of the plate that stays is near points of both faces. -/
example : ∃ y, (∃ t ∈ srcT.same, InTriangle t.1 t.2.1 t.2.2 y) ∧ (∃ t ∈ srcT.opposed, InTriangle t.1 t.2.1 t.2.2 y) ∧
    dist2 (5, 5) y ≤ 1682 / 1681 := by
  obtain ⟨c, h1, -, h3⟩ := c83_kept (src := fun _ => srcT) (parts := fun _ => partsT) (ins := fun _ => insT)
    (out := fun _ => outT) chDemo_valid sqDemo_root plex2_paired plex2_sheeted (fun _ => srcT_sourced) (fun _ => c82_run)
    c83_run (by decide +kernel) (e := ("s0".toList, ⟨"s0".toList⟩)) (by decide)
  have hc : buildS.sheetChosen.get? "s0".toList = some c := h1
  cases hc
  obtain ⟨-, ⟨y, y1, y2, y3⟩, -⟩ := h3 (5, 5) (ok_value (by decide +kernel))
  exact ⟨y, y1, y2, y3.trans (by decide +kernel)⟩

/-- C83: a point off the fingers stays. -/
example : ∃ c, buildS.sheetChosen.get? "s0".toList = some c ∧ Geom2D.locate c (5, 5) = .ok 1 := by
  obtain ⟨c, h1, h2⟩ := c83_all (src := fun _ => srcT) (parts := fun _ => partsT) (ins := fun _ => insT)
    (out := fun _ => outT) chDemo_valid sqDemo_root plex2_paired plex2_sheeted (fun _ => srcT_sourced) (fun _ => c82_run)
    c83_run (e := ("s0".toList, ⟨"s0".toList⟩)) (by decide) (noIslands_of _ (by decide))
  refine ⟨c, h1, h2 (5, 5) (ok_value (by decide +kernel)) (ok_value (by decide +kernel)) (ok_value (by decide +kernel)) ?_⟩
  intro s t v f hj hs hv hf hc
  rcases joint2 s t hj with ⟨rfl, rfl⟩ | ⟨rfl, rfl⟩
  · have hv' : buildS.interOk.get? id0 = some v := hv
    cases hv'
    have key : okAnd ((side2 0).makeFingers (arrangementOp chDemo) (ivl 0 11) 0 1) (fun f =>
        okAnd (Geom2D.locate f (5, 5)) fun x => decide (x = -1)) = true := by decide +kernel
    obtain ⟨f', k1, k2⟩ := ok_of_match key
    rw [hf] at k1
    cases k1
    unfold Geom2D.Has at hc
    rw [ok_value k2] at hc
    revert hc; decide
  · exact absurd hs (by decide)

/-! ### The operators -/

/-- C78: a corner where the plate and the strip meet is inside their union, and outside their difference. -/
example : ∃ r d, Geom2D.or (arrangementOp chDemo) plate thin = .ok r ∧ Geom2D.sub (arrangementOp chDemo) thin plate = .ok d ∧
    r.Has (10, 1 / 2) ∧ Geom2D.locate d (11, 1 / 4) = .ok 1 ∧ Geom2D.locate d (5, 5) ≠ .ok 1 := by
  have k1 : okAnd (Geom2D.or (arrangementOp chDemo) plate thin) (fun _ => true) = true := by decide +kernel
  have k2 : okAnd (Geom2D.sub (arrangementOp chDemo) thin plate) (fun _ => true) = true := by decide +kernel
  obtain ⟨r, hr, -⟩ := ok_of_match k1
  obtain ⟨d, hd, -⟩ := ok_of_match k2
  have e : Geom2D.locate plate (5, 5) = .ok 1 := ok_value (by decide +kernel)
  refine ⟨r, d, hr, hd, (c78_or chDemo chDemo_valid plate_fine thin_fine hr _).2 (Or.inl (Or.inr (ok_value (by decide +kernel)))),
    (c78_sub chDemo chDemo_valid thin_fine plate_fine hd _).2 ⟨ok_value (by decide +kernel), ok_value (by decide +kernel)⟩,
    fun hc => ?_⟩
  have := ((c78_sub chDemo chDemo_valid thin_fine plate_fine hd _).1 hc).2
  rw [e] at this
  cases this

end Ply
