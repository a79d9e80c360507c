import Verif.Proofs.GrownNet
import Verif.Proofs.GrownRibbon
import Verif.Props.BufferDist
import Verif.Props.BufferExample
import Verif.Props.StarUnion
import Verif.Props.Sheets
import Verif.Props.Shapes

/-!
# Growing a rectangle with `buffer` never raises (C106)
-/

namespace Ply

open Arr Geom2D

theorem ring_fine_of {L : List Pt} (h : SimpleRing L) (hc : shoelace L < 0) : (ringGeom L).Fine := by
  have one : ∀ {s : SPWH}, s ∈ ringGeom L → s = ⟨L, []⟩ := fun hs => List.mem_singleton.1 hs
  refine Geom2D.Ringed.fine ⟨fun s hs => ?_, fun s hs k hk => ?_, fun s hs => ?_, fun s hs => ?_, List.pairwise_singleton _ _⟩ ?_
  · rw [one hs]; exact ⟨h, hc⟩
  · rw [one hs] at hk; cases hk
  · rw [one hs]; intro k hk; cases hk
  · rw [one hs]; exact List.Pairwise.nil
  · unfold Geom2D.Noded ringGeom
    rw [List.flatMap_singleton]
    exact List.pairwise_singleton _ _

theorem SimpleRing.mk_ok {L : List Pt} (h : SimpleRing L) (hc : shoelace L < 0) : SPWH.mk' L [] = .ok ⟨L, []⟩ :=
  (SPWH.mk'_iff _ _ _).2 ⟨rfl, fun _ he => h.pos he, hc, by simp⟩

theorem SimpleRing.extGeom_ok {L : List Pt} (h : SimpleRing L) (hc : shoelace L < 0) : extGeom (0, 0) L = .ok (ringGeom L) := by
  have hne : L ≠ [] := by rintro rfl; exact absurd h.long (by simp)
  unfold extGeom
  rw [area_eq_shoelace L hne]
  simp only [bind, Except.bind]
  rw [if_neg (by linarith), map_add_zero, h.mk_ok hc]
  rfl

theorem SimpleRing.transformed_ok {L : List Pt} (h : SimpleRing L) (hc : shoelace L < 0) :
    SPWH.transformedWith ⟨L, []⟩ (fun l => l.map (· + ((0, 0) : Pt))) = .ok ⟨L, []⟩ := by
  have hne : L ≠ [] := by rintro rfl; exact absurd h.long (by simp)
  unfold SPWH.transformedWith fpoly
  simp only [map_add_zero, area_eq_shoelace L hne, bind, Except.bind]
  rw [if_neg (by linarith)]
  exact h.mk_ok hc

theorem mapM_extGeom {Ls : List (List Pt)} (h : ∀ L ∈ Ls, SimpleRing L ∧ shoelace L < 0) :
    Ls.mapM (extGeom (0, 0)) = .ok (Ls.map ringGeom) := by
  induction Ls with
  | nil => rfl
  | cons L Ls ih =>
    rw [List.mapM_cons, (h L (List.mem_cons_self ..)).1.extGeom_ok (h L (List.mem_cons_self ..)).2,
      ih fun M hM => h M (List.mem_cons_of_mem _ hM)]
    rfl

theorem inPoly_turn (L : List Pt) (n : ℕ) (p : Pt) : InPoly (L.rotate n) p ↔ InPoly L p := by
  unfold InPoly
  rw [onBoundary_rotate, windingNumber_perm (polyEdges_rotate L n)]

/-- The rings may be written down in another order and from other corners. -/
theorem Tiles.turn {Ls Ms : List (List Pt)} (h : Tiles Ls) {n : List Pt → ℕ} (hp : (Ls.map fun L => L.rotate (n L)).Perm Ms) : Tiles Ms := by
  have back : ∀ M ∈ Ms, ∃ L ∈ Ls, L.rotate (n L) = M := fun M hM => by
    obtain ⟨L, hL, e⟩ := List.mem_map.1 (hp.symm.subset hM)
    exact ⟨L, hL, e⟩
  have fro : ∀ L ∈ Ls, L.rotate (n L) ∈ Ms := fun L hL => hp.subset (List.mem_map_of_mem hL)
  refine ⟨⟨fun M hM => ?_, fun M hM => ?_, fun M hM N hN p h1 h2 => ?_⟩, fun v x hx => ?_, fun p h1 h2 M => ?_⟩
  · obtain ⟨L, hL, rfl⟩ := back M hM
    exact (h.clear.simple L hL).rotate _
  · obtain ⟨L, hL, rfl⟩ := back M hM
    rw [shoelace_rotate]
    exact h.clear.cw L hL
  · obtain ⟨L, hL, rfl⟩ := back M hM
    obtain ⟨K, hK, rfl⟩ := back N hN
    rw [inPoly_turn] at h1 h2
    rw [h.clear.apart L hL K hK p h1 h2]
  · refine h.three v x fun i => ⟨(hx i).1, ?_⟩
    obtain ⟨M, hM, e, he, ho⟩ := (hx i).2
    obtain ⟨L, hL, rfl⟩ := back M hM
    exact ⟨L, hL, e, (polyEdges_rotate L _).mem_iff.1 he, ho⟩
  · obtain ⟨q, hq, hr⟩ := h.open_ p (fun L hL hb => h1 _ (fro L hL) ((onBoundary_rotate _ _ _).2 hb))
      (fun L hL hb => h2 _ (fro L hL) ((inPoly_turn _ _ _).2 hb)) M
    refine ⟨q, hq, Relation.ReflTransGen.mono (fun a b hab z hz N hN hb => ?_) _ _ hr⟩
    obtain ⟨L, hL, rfl⟩ := back N hN
    exact hab z hz L hL ((onBoundary_rotate _ _ _).1 hb)

/-- `union_tree` of two to sixty-four geoms is one `union`. -/
theorem unionTreeAll_of_union {arr : Geom2D.ArrOp} {g g' : Geom2D} {gs : List Geom2D} (hn : (g :: g' :: gs).length ≤ 64) {r : Geom2D}
    (h : arr (g :: g' :: gs) (fun args => args.any id) = .ok r) : unionTreeAll arr (g :: g' :: gs) = .ok r := by
  unfold unionTreeAll
  rw [show (g :: g' :: gs).length + 4 = (gs.length + 3) + 1 + 1 + 1 by simp]
  have ht : List.take unionN (g :: g' :: gs) = g :: g' :: gs := List.take_of_length_le hn
  have hd : List.drop unionN (g :: g' :: gs) = [] := List.drop_of_length_le hn
  rw [Geom2D.unionTree, if_pos (by simp), Geom2D.unionPass, ht, hd, if_pos (by simp), Geom2D.union, if_neg (by unfold unionN; omega), h]
  simp [bind, Except.bind, pure, Except.pure, Geom2D.unionPass, Geom2D.unionTree]

section

variable {x y w h p q : ℚ} (hw : 0 < w) (hh : 0 < h) (hp : 0 < p) (hq : 0 < q)
include hw hh hp hq

/-- The pieces along the outline of a box. -/
theorem box_ribbon (k : Fin 4) : minkowskiRibbon (([0, 1, 2, 3].map (boxPt x y w h p q)).rotate k) (octagon (2 * p + q) (p + q)) 1 =
    .ok (([[13, 14, 15, 4, 1], [4, 5, 6, 7, 2], [7, 8, 9, 10, 3], [10, 11, 12, 13, 0]].map fun l => l.map (boxPt x y w h p q)).rotate k) := by
  have hC : Conv (octagon (2 * p + q) (p + q)) := octagon_conv (by linarith) (by linarith) (by linarith)
  obtain ⟨m, h1, h2, h3⟩ := hC.starts
  obtain ⟨c0, c1, c2, c3⟩ := box_corners (x := x) (y := y) hw hh hp hq hC h2 h3
  unfold minkowskiRibbon
  rw [if_pos (by unfold octagon; simp), if_pos (Or.inr rfl), h1]
  have ht : tripleVerticesIter (([0, 1, 2, 3].map (boxPt x y w h p q)).rotate k) =
      [(boxPt x y w h p q 3, boxPt x y w h p q 0, boxPt x y w h p q 1), (boxPt x y w h p q 0, boxPt x y w h p q 1, boxPt x y w h p q 2),
        (boxPt x y w h p q 1, boxPt x y w h p q 2, boxPt x y w h p q 3),
        (boxPt x y w h p q 2, boxPt x y w h p q 3, boxPt x y w h p q 0)].rotate k := by
    fin_cases k <;> simp [tripleVerticesIter, List.range_succ]
  show ribbonLoop m _ 1 (tripleVerticesIter _) = _
  rw [ht]
  fin_cases k <;> simp [bind, Except.bind, ribbonLoop, c0, c1, c2, c3, pure, Except.pure]

theorem box_grows (ch : Choices) (hch : ch.Valid) (k : Fin 4)
    (hs : minkowskiShift (octagon (2 * p + q) (p + q)) 1 = .ok ((0, 0), octagon (2 * p + q) (p + q))) :
    ∃ r, minkowskiConvexOp (arrangementOp ch) 2 (ringGeom (([0, 1, 2, 3].map (boxPt x y w h p q)).rotate k))
      (octagon (2 * p + q) (p + q)) 1 = .ok r ∧ r.Fine ∧ ∀ s ∈ r, s.holes = [] := by
  have hT : Tiles (([0, 1, 2, 3].map (boxPt x y w h p q)).rotate k ::
      ([[13, 14, 15, 4, 1], [4, 5, 6, 7, 2], [7, 8, 9, 10, 3], [10, 11, 12, 13, 0]].map fun l => l.map (boxPt x y w h p q)).rotate k) := by
    refine (boxRings_tiles (x := x) (y := y) hw hh hp hq).turn (n := fun L => if L = [0, 1, 2, 3].map (boxPt x y w h p q) then k else 0) ?_
    have hne : ∀ l ∈ [[13, 14, 15, 4, 1], [4, 5, 6, 7, 2], [7, 8, 9, 10, 3], [10, 11, 12, 13, 0]],
        l.map (boxPt x y w h p q) ≠ [0, 1, 2, 3].map (boxPt x y w h p q) := by
      intro l hl hc
      have := congrArg List.length hc
      simp only [List.length_map] at this
      exact (by decide : ∀ l ∈ ([[13, 14, 15, 4, 1], [4, 5, 6, 7, 2], [7, 8, 9, 10, 3], [10, 11, 12, 13, 0]] : List (List (Fin 16))),
        l.length ≠ 4) l hl this
    have e : (boxRings x y w h p q).map (fun L => L.rotate (if L = [0, 1, 2, 3].map (boxPt x y w h p q) then (k : ℕ) else 0)) =
        ([0, 1, 2, 3].map (boxPt x y w h p q)).rotate k ::
          [[13, 14, 15, 4, 1], [4, 5, 6, 7, 2], [7, 8, 9, 10, 3], [10, 11, 12, 13, 0]].map fun l => l.map (boxPt x y w h p q) := by
      rw [show boxRings x y w h p q = [0, 1, 2, 3].map (boxPt x y w h p q) ::
        [[13, 14, 15, 4, 1], [4, 5, 6, 7, 2], [7, 8, 9, 10, 3], [10, 11, 12, 13, 0]].map fun l => l.map (boxPt x y w h p q) from rfl,
        List.map_cons, if_pos rfl, List.map_map]
      congr 1
      refine List.map_congr_left fun l hl => ?_
      show (l.map _).rotate _ = _
      rw [if_neg (hne l hl), List.rotate_zero]
    rw [e]
    exact (List.Perm.cons _ (List.rotate_perm _ _)).symm
  obtain ⟨Ms, hMs⟩ : ∃ Ms, Ms = ([[13, 14, 15, 4, 1], [4, 5, 6, 7, 2], [7, 8, 9, 10, 3], [10, 11, 12, 13, 0]].map
    fun l => l.map (boxPt x y w h p q)).rotate k := ⟨_, rfl⟩
  have hR := box_ribbon (x := x) (y := y) hw hh hp hq k
  rw [← hMs] at hT hR
  have hlen : Ms.length = 4 := by rw [hMs]; simp
  clear hMs
  obtain ⟨L, hL⟩ : ∃ L, L = ([0, 1, 2, 3].map (boxPt x y w h p q)).rotate k := ⟨_, rfl⟩
  rw [← hL] at hT hR ⊢
  clear hL
  have ok : ∀ M ∈ L :: Ms, SimpleRing M ∧ shoelace M < 0 := fun M hM => ⟨hT.clear.simple M hM, hT.clear.cw M hM⟩
  have hpos : minkowskiPolys (0, 0) (octagon (2 * p + q) (p + q)) 1 (ringGeom L) = .ok ((L :: Ms).map ringGeom, []) := by
    have hm := ok L (List.mem_cons_self ..)
    unfold ringGeom minkowskiPolys minkowskiPoly
    rw [hm.1.transformed_ok hm.2]
    simp only [bind, Except.bind]
    rw [hm.1.mk_ok hm.2, hR]
    simp only
    rw [mapM_extGeom fun M hM => ok M (List.mem_cons_of_mem _ hM)]
    simp [minkowskiPolys, pure, Except.pure, ringGeom]
  obtain ⟨r, h1, h2, h3⟩ := c105_any ch hch ((L :: Ms).map ringGeom)
    (by
      have : outlines ((L :: Ms).map ringGeom) = L :: Ms := by
        unfold outlines ringGeom
        rw [List.flatMap_map]
        simp
      rwa [this])
    (fun g hg => by
      obtain ⟨M, hM, rfl⟩ := List.mem_map.1 hg
      exact (ring_fine_of (ok M hM).1 (ok M hM).2).usable)
    (fun g hg s hs => by
      obtain ⟨M, hM, rfl⟩ := List.mem_map.1 hg
      rw [List.mem_singleton.1 hs])
    (fun args => args.any id) (fun _ => Or.inl rfl)
  refine ⟨r, ?_, h2, h3⟩
  have hu : unionTreeAll (arrangementOp ch) ((L :: Ms).map ringGeom) = .ok r := by
    match Ms, hlen with
    | M :: Ms, hlen => exact unionTreeAll_of_union (by simp at hlen ⊢; omega) h1
  unfold minkowskiConvexOp
  rw [hs]
  simp only [bind, Except.bind, hpos]
  rw [hu]
  rfl

end

/-- C106: growing a rectangle by a positive amount never raises, whatever order sets and dictionaries are
gone through in and from whichever corner its outline starts; the result has no holes and is exactly the points
that are near a point of the rectangle, as an octagon measures it. -/
theorem c106_grow (ch : Choices) (hch : ch.Valid) {sq : ℚ → ℚ} (hsq : RootLike sq) (hone : sq 1 = 1) {x0 y0 x1 y1 amount : ℚ}
    (hx : x0 < x1) (hy : y0 < y1) (h0 : 0 < amount) (k : ℕ) :
    ∃ r, Geom2D.bufferBy (arrangementOp ch) sq [⟨(boxLoop x0 y0 x1 y1).rotate k, []⟩] amount = .ok r ∧ r.Fine ∧
      (∀ s ∈ r, s.holes = []) ∧
      ∀ p : Pt, r.Has p ↔ ∃ y : Pt, (x0 ≤ y.1 ∧ y.1 ≤ x1 ∧ y0 ≤ y.2 ∧ y.2 ≤ y1) ∧
        |p.1 - y.1| + (sq 2 - 1) * |p.2 - y.2| ≤ amount ∧ (sq 2 - 1) * |p.1 - y.1| + |p.2 - y.2| ≤ amount := by
  obtain ⟨a1, a2, a3⟩ := hsq.oct h0.ne'
  have ho : bufOct sq amount = octagon (2 * (|amount| / sq 1 - |amount| / sq 2) + (2 * (|amount| / sq 2) - |amount| / sq 1))
      ((|amount| / sq 1 - |amount| / sq 2) + (2 * (|amount| / sq 2) - |amount| / sq 1)) := by
    unfold bufOct
    congr 1 <;> ring
  have hbox : ([⟨(boxLoop x0 y0 x1 y1).rotate k, []⟩] : Geom2D) = ringGeom (([0, 1, 2, 3].map (boxPt x0 y0 (x1 - x0) (y1 - y0)
      (|amount| / sq 1 - |amount| / sq 2) (2 * (|amount| / sq 2) - |amount| / sq 1))).rotate (k % 4)) := by
    rw [← List.rotate_mod]
    simp [ringGeom, boxLoop, boxPt]
  obtain ⟨r, h1, h2, h3⟩ := box_grows (x := x0) (y := y0) (w := x1 - x0) (h := y1 - y0) (sub_pos.2 hx) (sub_pos.2 hy)
    (sub_pos.2 a2) (sub_pos.2 a3) ch hch ⟨k % 4, Nat.mod_lt _ (by norm_num)⟩
    (by rw [← ho]; exact bufOct_shift hsq h0.ne' 1 (Or.inl rfl))
  have hr : Geom2D.bufferBy (arrangementOp ch) sq [⟨(boxLoop x0 y0 x1 y1).rotate k, []⟩] amount = .ok r := by
    rw [bufferBy_eq _ hsq _ h0.ne', if_pos h0, ho, hbox]
    exact h1
  have hs := (boxLoop_simple hx hy).rotate k
  refine ⟨r, hr, h2, h3, fun p => ?_⟩
  rw [c71_grow ch hch hsq (ring_fine_of hs (by rw [shoelace_rotate, boxLoop_shoelace]; nlinarith)) hr hone h0 (noIslands_of _ rfl)]
  refine exists_congr fun y => and_congr_left fun _ => ?_
  rw [ringGeom, single_has (by unfold boxLoop; simp), inPoly_turn, onBoundary_rotate, boxLoop_in _ _ _ _ hx.ne hy.ne,
    boxLoop_boundary _ _ _ _ hy.ne, min_eq_left hx.le, max_eq_right hx.le, min_eq_left hy.le, max_eq_right hy.le]
  constructor
  · rintro (⟨b1, b2, b3, b4⟩ | ⟨b, -⟩)
    · exact ⟨b1.le, b2.le, b3.le, b4.le⟩
    · exact b
  · intro b
    by_cases hi : x0 < y.1 ∧ y.1 < x1 ∧ y0 < y.2 ∧ y.2 < y1
    · exact Or.inl hi
    · exact Or.inr ⟨b, hi⟩

/-- C106: the same for a rectangle made with `rectangle`. -/
theorem c106_rectangle (ch : Choices) (hch : ch.Valid) {sq : ℚ → ℚ} (hsq : RootLike sq) (hone : sq 1 = 1) {x0 y0 x1 y1 amount : ℚ}
    (hx : x0 < x1) (hy : y0 < y1) (h0 : 0 < amount) :
    ∃ r, (do let g ← Geom2D.rectangle x0 y0 x1 y1; Geom2D.bufferBy (arrangementOp ch) sq g amount) = .ok r ∧ r.Fine ∧
      (∀ s ∈ r, s.holes = []) ∧
      ∀ p : Pt, r.Has p ↔ ∃ y : Pt, (x0 ≤ y.1 ∧ y.1 ≤ x1 ∧ y0 ≤ y.2 ∧ y.2 ≤ y1) ∧
        |p.1 - y.1| + (sq 2 - 1) * |p.2 - y.2| ≤ amount ∧ (sq 2 - 1) * |p.1 - y.1| + |p.2 - y.2| ≤ amount := by
  obtain ⟨r, h1, h2⟩ := c106_grow ch hch hsq hone hx hy h0 0
  refine ⟨r, (bind_ok _ _ _).2 ⟨_, ?_, h1⟩, h2⟩
  have hs := boxLoop_simple hx hy
  have hc : shoelace (boxLoop x0 y0 x1 y1) < 0 := by rw [boxLoop_shoelace]; nlinarith
  rw [List.rotate_zero]
  show Geom2D.polygon (boxLoop x0 y0 x1 y1) true = _
  exact (polygon_true_iff _ _).2 ⟨fun _ he => hs.pos he, hc.ne, by rw [if_neg (not_lt.2 hc.le)]⟩

/-! ### Example -/

/-- A plate of 10 by 8 grown by 1 reaches `(-1, 4)` and not `(-1, -1)`. -/
theorem c106_example (ch : Choices) (hch : ch.Valid) :
    ∃ r, Geom2D.bufferBy (arrangementOp ch) sqDemo [⟨[(10, 8), (10, 0), (0, 0), (0, 8)], []⟩] 1 = .ok r ∧ r.Has (-1, 4) ∧ ¬ r.Has (-1, -1) := by
  obtain ⟨r, h1, -, -, h4⟩ := c106_grow ch hch sqDemo_root (by unfold sqDemo; norm_num) (x0 := 0) (y0 := 0) (x1 := 10) (y1 := 8)
    (amount := 1) (by norm_num) (by norm_num) (by norm_num) 2
  have e2 : sqDemo 2 = 41 / 29 := by unfold sqDemo; norm_num
  refine ⟨r, h1, (h4 _).2 ⟨(0, 4), by norm_num, by norm_num [e2], by norm_num [e2]⟩, fun hc => ?_⟩
  obtain ⟨y, ⟨b1, -, b3, -⟩, b5, b6⟩ := (h4 _).1 hc
  rw [e2] at b5 b6
  have c1 := neg_abs_le (-1 - y.1)
  have c2 := neg_abs_le (-1 - y.2)
  dsimp only at b5 b6
  linarith

end Ply
