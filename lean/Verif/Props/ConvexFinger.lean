import Verif.Props.ConvexCommon
import Verif.Props.TouchChain

/-!
# C114: a finger of a joint and a convex sheet
-/

namespace Ply

open Arr

/-- An affine map scales the signed area by its determinant. -/
theorem shoelace_affine (A : Affine) (L : List Pt) : shoelace (L.map A.app) = A.det * shoelace L := by
  have h := polyEdges_telescope (fun p : Pt => A.e * (A.c * p.1 + A.d * p.2) - A.f * (A.a * p.1 + A.b * p.2)) L
  unfold shoelace
  rw [polyEdges_map, List.map_map, ← mul_div_assoc, ← List.sum_map_mul_left]
  congr 1
  rw [← sub_eq_zero, ← h, sub_eq_iff_eq_add, ← List.sum_map_add]
  congr 1
  refine List.map_congr_left fun e _ => ?_
  simp only [Function.comp, Prod.map, cross, Affine.app, Affine.det]
  ring

/-- The side of the edges on which a point lies, in a mirrored ring that is written the other way round. -/
theorem mirrored_sides (A : Affine) (L : List Pt) (C : ℚ → Prop) (p : Pt) :
    (∀ e ∈ polyEdges (L.map A.app).reverse, C (orient e.1 e.2 (A.app p))) ↔ ∀ e ∈ polyEdges L, C (-A.det * orient e.1 e.2 p) := by
  have key : ∀ e : Seg, orient (A.app e.2) (A.app e.1) (A.app p) = -A.det * orient e.1 e.2 p := fun e => by
    rw [orient_swap, orient_affine]; ring
  constructor
  · intro h e he
    rw [← key]
    refine h (A.app e.2, A.app e.1) ((polyEdges_reverse _).mem_iff.2 (List.mem_map.2 ⟨(A.app e.1, A.app e.2), ?_, rfl⟩))
    rw [polyEdges_map]
    exact List.mem_map.2 ⟨e, he, rfl⟩
  · intro h e he
    obtain ⟨e', h1, rfl⟩ := List.mem_map.1 ((polyEdges_reverse _).mem_iff.1 he)
    rw [polyEdges_map] at h1
    obtain ⟨k, hk, rfl⟩ := List.mem_map.1 h1
    have := h k hk
    rw [← key] at this
    exact this

/-- The mirror image of a convex ring, written the other way round, is a convex ring. -/
theorem ConvexRing.mirror {L : List Pt} (h : ConvexRing L) (A : Affine) (hA : A.det < 0) : ConvexRing (L.map A.app).reverse where
  simple := (h.simple.affine A hA.ne).reverse
  cw := by rw [shoelace_reverse, shoelace_affine]; nlinarith [h.cw]
  convex e he v hv := by
    obtain ⟨p, hp, rfl⟩ := List.mem_map.1 (List.mem_reverse.1 hv)
    exact (mirrored_sides A L (· ≤ 0) p).2 (fun k hk => by nlinarith [h.convex k hk p hp]) e he

theorem acrossAt_lt (s : InterSide) (h : s.Proper) {f0 f1 : ℚ} (hf : f0 < f1) : s.acrossAt f0 < s.acrossAt f1 := by
  unfold InterSide.acrossAt
  nlinarith [h.width, mul_pos (sub_pos.2 h.width) (sub_pos.2 hf)]

theorem fingerRing_eq (s : InterSide) (h : s.Proper) {f0 f1 : ℚ} (hf : f0 < f1) {e : ℚ × ℚ} (he : e.1 < e.2) :
    fingerRing s f0 f1 e = ((boxLoop e.1 (s.acrossAt f0) e.2 (s.acrossAt f1)).map s.frame.app).reverse := by
  have hpts : [s.coords f0 f1 e.1 0, s.coords f0 f1 e.1 1, s.coords f0 f1 e.2 1, s.coords f0 f1 e.2 0] =
      (boxLoop e.1 (s.acrossAt f0) e.2 (s.acrossAt f1)).map s.frame.app := by
    unfold boxLoop
    simp only [List.map_cons, List.map_nil, (coords_eq s f0 f1 _).1, (coords_eq s f0 f1 _).2]
  unfold fingerRing
  dsimp only
  rw [hpts, if_pos]
  rw [shoelace_affine, boxLoop_shoelace]
  have := mul_pos (sub_pos.2 he) (sub_pos.2 (acrossAt_lt s h hf))
  nlinarith [frame_det s h]

/-- Every finger is a convex ring; its points in the coordinates of the joint. -/
theorem fingerRing_convex (s : InterSide) (h : s.Proper) {f0 f1 : ℚ} (hf : f0 < f1) {e : ℚ × ℚ} (he : e.1 < e.2) :
    ConvexRing (fingerRing s f0 f1 e) ∧
    (∀ al nc, RightOf (fingerRing s f0 f1 e) (s.point al nc) ↔ e.1 < al ∧ al < e.2 ∧ s.acrossAt f0 < nc ∧ nc < s.acrossAt f1) ∧
    ∀ al nc, (∀ k ∈ polyEdges (fingerRing s f0 f1 e), orient k.1 k.2 (s.point al nc) ≤ 0) ↔
      e.1 ≤ al ∧ al ≤ e.2 ∧ s.acrossAt f0 ≤ nc ∧ nc ≤ s.acrossAt f1 := by
  have hn := acrossAt_lt s h hf
  have hd : 0 < -s.frame.det := neg_pos.2 (frame_det s h)
  have lt0 : ∀ x, -s.frame.det * x < 0 ↔ x < 0 := fun x => by rw [mul_neg_iff]; simp [hd, not_lt.2 hd.le]
  have le0 : ∀ x, -s.frame.det * x ≤ 0 ↔ x ≤ 0 := fun x => by rw [mul_nonpos_iff]; simp [hd.le, not_le.2 hd]
  have h1 : 0 < e.2 - e.1 := sub_pos.2 he
  have h2 : 0 < s.acrossAt f1 - s.acrossAt f0 := sub_pos.2 hn
  rw [fingerRing_eq s h hf he]
  refine ⟨?_, fun al nc => ?_, fun al nc => ?_⟩
  · have := boxLoop_convex he hn 0
    rw [List.rotate_zero] at this
    exact this.mirror _ (frame_det s h)
  · unfold RightOf
    rw [← frame_app, mirrored_sides _ _ (· < 0), boxLoop_edges]
    simp only [List.forall_mem_cons, List.not_mem_nil, false_imp_iff, implies_true, and_true, lt0, orient]
    constructor
    · rintro ⟨a, b, c, d⟩
      refine ⟨?_, ?_, ?_, ?_⟩ <;> by_contra hc <;> nlinarith
    · rintro ⟨a, b, c, d⟩
      refine ⟨?_, ?_, ?_, ?_⟩ <;> nlinarith
  · rw [← frame_app, mirrored_sides _ _ (· ≤ 0), boxLoop_edges]
    simp only [List.forall_mem_cons, List.not_mem_nil, false_imp_iff, implies_true, and_true, le0, orient]
    constructor
    · rintro ⟨a, b, c, d⟩
      refine ⟨?_, ?_, ?_, ?_⟩ <;> by_contra hc <;> nlinarith
    · rintro ⟨a, b, c, d⟩
      refine ⟨?_, ?_, ?_, ?_⟩ <;> nlinarith

/-- C114: each finger of a joint can be cut with and added to a convex sheet without an exception.  The common part is one
convex ring or empty.  Points are given in the coordinates of the joint. -/
theorem c114_fingers (ch : Choices) (hch : ch.Valid) (s : InterSide) (h : s.Proper) {f0 f1 : ℚ} (hf : f0 < f1)
    (ivs : List (ℚ × ℚ)) (hlt : ∀ e ∈ ivs, e.1 < e.2) {P : List Pt} (hP : ConvexRing P) :
    ∃ sheet res, Geom2D.polygon P true = .ok sheet ∧
      s.fingerLoop f0 f1 (ivs.map fun e => (Ext.fin e.1, Ext.fin e.2)) = .ok res ∧
      List.Forall₂ (fun e g =>
        (∃ r, Geom2D.and (arrangementOp ch) sheet g = .ok r ∧ (r = [] ∨ ∃ R, r = [⟨R, []⟩] ∧ ConvexRing R) ∧
          ∀ al nc, Geom2D.locate r (s.point al nc) = .ok 1 ↔
            RightOf P (s.point al nc) ∧ e.1 < al ∧ al < e.2 ∧ s.acrossAt f0 < nc ∧ nc < s.acrossAt f1) ∧
        ∃ r, Geom2D.or (arrangementOp ch) sheet g = .ok r ∧ r.Fine ∧
          ∀ al nc, r.Has (s.point al nc) ↔ (∀ k ∈ polyEdges P, orient k.1 k.2 (s.point al nc) ≤ 0) ∨
            (e.1 ≤ al ∧ al ≤ e.2 ∧ s.acrossAt f0 ≤ nc ∧ nc ≤ s.acrossAt f1)) ivs res := by
  obtain ⟨res, h1, -⟩ := fingerLoop_spec s h f0 f1 hf ivs hlt
  obtain ⟨h2, -⟩ := fingerLoop_eq s f0 f1 ivs res h1
  have poly : ∀ {L : List Pt}, ConvexRing L → Geom2D.polygon L true = .ok (ringGeom L) := by
    intro L hL
    obtain ⟨o, ho⟩ := hL.inner
    exact StarRing.polygon ⟨hL.simple, (hL.inPoly_iff o).1 ho⟩ true
  refine ⟨_, res, poly hP, h1, ?_⟩
  rw [h2, List.map_map, List.forall₂_map_right_iff, List.forall₂_same]
  intro e he
  obtain ⟨c1, c2, c3⟩ := fingerRing_convex s h hf (hlt e he)
  refine ⟨?_, ?_⟩
  · obtain ⟨r, r1, r2, r3⟩ := c113_many ch hch P [fingerRing s f0 f1 e] hP (by simpa using c1)
    refine ⟨r, by simpa [ringGeom] using r1, r2, fun al nc => ?_⟩
    rw [r3, List.forall_mem_singleton, c2]
  · obtain ⟨a, b, r, k1, k2, k3, k4, k5⟩ := c112_or ch hch hP c1 true
    rw [poly hP] at k1
    rw [poly c1] at k2
    cases k1
    cases k2
    exact ⟨r, k3, k4, fun al nc => by rw [k5, c3]⟩

/-- C114: the fingers of a joint can be cut out of any sheet made by earlier operations, one after the other. -/
theorem c114_cut (ch : Choices) (hch : ch.Valid) (s : InterSide) (h : s.Proper) {f0 f1 : ℚ} (hf : f0 < f1)
    (ivs : List (ℚ × ℚ)) (hlt : ∀ e ∈ ivs, e.1 < e.2) (sheet : Geom2D) (hs : sheet.Fine) :
    ∃ res r, s.fingerLoop f0 f1 (ivs.map fun e => (Ext.fin e.1, Ext.fin e.2)) = .ok res ∧
      res.foldlM (fun g x => Geom2D.sub (arrangementOp ch) g x) sheet = .ok r ∧ r.Fine ∧
      ∀ al nc, Geom2D.locate r (s.point al nc) = .ok 1 ↔ Geom2D.locate sheet (s.point al nc) = .ok 1 ∧
        ∀ e ∈ ivs, ¬ (e.1 ≤ al ∧ al ≤ e.2 ∧ s.acrossAt f0 ≤ nc ∧ nc ≤ s.acrossAt f1) := by
  obtain ⟨res, h1, -⟩ := fingerLoop_spec s h f0 f1 hf ivs hlt
  obtain ⟨h2, -⟩ := fingerLoop_eq s f0 f1 ivs res h1
  refine ⟨res, ?_⟩
  simp only [h1, true_and]
  rw [h2]
  clear h1 h2
  induction ivs generalizing sheet with
  | nil => exact ⟨sheet, rfl, hs, fun al nc => by simp⟩
  | cons e ivs ih =>
    obtain ⟨c1, -, c3⟩ := fingerRing_convex s h hf (hlt e List.mem_cons_self)
    obtain ⟨g, g1, g2, g3⟩ := c85_sub ch hch sheet _ hs c1.geom.1
    obtain ⟨r, r1, r2, r3⟩ := ih (fun e he => hlt e (List.mem_cons_of_mem _ he)) g g2
    refine ⟨r, ?_, r2, fun al nc => ?_⟩
    · rw [List.map_cons, List.map_cons, List.foldlM_cons]
      exact (bind_ok _ _ _).2 ⟨g, g1, r1⟩
    · rw [r3, g3, List.forall_mem_cons, ← c3, and_assoc]
      obtain ⟨v, k1, -, -, k4⟩ := locate_single _ c1.simple.ne_nil (s.point al nc)
      rw [show Geom2D.locate (ringGeom (fingerRing s f0 f1 e)) (s.point al nc) = .ok v from k1, Except.ok.injEq, k4,
        ← c1.closed_iff]
      unfold OutPoly InPoly
      tauto

/-! ### Example -/

/-- C114: two fingers of a slanting joint and a triangle. -/
theorem c114_example (ch : Choices) (hch : ch.Valid) :
    ∃ sheet g g' r r', Geom2D.polygon triP true = .ok sheet ∧
      side345.fingerLoop 0 1 [(Ext.fin 0, Ext.fin 3), (Ext.fin 5, Ext.fin 7)] = .ok [g, g'] ∧
      Geom2D.and (arrangementOp ch) sheet g = .ok r ∧ Geom2D.locate r (3, 3 / 2) = .ok 1 ∧ Geom2D.or (arrangementOp ch) sheet g' = .ok r' := by
  obtain ⟨sheet, res, h1, h2, h3⟩ := c114_fingers ch hch side345 side345_proper (f0 := 0) (f1 := 1) (by norm_num)
    [(0, 3), (5, 7)] (by norm_num) triP_convex
  cases h3 with
  | cons a t =>
    cases t with
    | cons b t =>
      cases t
      obtain ⟨⟨r, r1, -, r3⟩, -⟩ := a
      obtain ⟨-, r', r2, -⟩ := b
      refine ⟨sheet, _, _, r, r', h1, h2, r1, ?_, r2⟩
      have hp : side345.point 1 (3 / 2) = (3, 3 / 2) := by norm_num [InterSide.point, side345]
      rw [← hp]
      refine (r3 1 (3 / 2)).2 ⟨?_, by norm_num, by norm_num, ?_⟩
      · rw [hp]
        unfold RightOf
        simp only [triP, polyEdges, List.cons_append, List.nil_append, List.zip_cons_cons, List.zip_nil_right, List.forall_mem_cons]
        norm_num [orient]
      · norm_num [InterSide.acrossAt, side345]

/-- C114: two slots cut out of a triangle. -/
theorem c114_slots (ch : Choices) (hch : ch.Valid) :
    ∃ res r, side345.fingerLoop 0 1 [(Ext.fin 0, Ext.fin 1), (Ext.fin 2, Ext.fin 3)] = .ok res ∧
      res.foldlM (fun g x => Geom2D.sub (arrangementOp ch) g x) (ringGeom triP) = .ok r ∧
      Geom2D.locate r (side345.point (3 / 2) (3 / 2)) = .ok 1 ∧ Geom2D.locate r (side345.point 1 (3 / 2)) ≠ .ok 1 := by
  obtain ⟨res, r, h1, h2, -, h3⟩ := c114_cut ch hch side345 side345_proper (f0 := 0) (f1 := 1) (by norm_num)
    [(0, 1), (2, 3)] (by norm_num) (ringGeom triP) triP_convex.geom.1
  refine ⟨res, r, h1, h2, (h3 _ _).2 ⟨(triP_convex.geom.2 _).2 ?_, ?_⟩, fun h => ?_⟩
  · unfold RightOf
    simp only [triP, polyEdges, List.cons_append, List.nil_append, List.zip_cons_cons, List.zip_nil_right, List.forall_mem_cons]
    norm_num [orient, InterSide.point, side345]
  · norm_num
  · refine ((h3 _ _).1 h).2 (0, 1) (by simp) ?_
    norm_num [InterSide.acrossAt, side345]

end Ply
