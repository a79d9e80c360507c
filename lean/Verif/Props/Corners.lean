import Verif.Props.BufferBox
import Verif.Props.StarClosed

/-!
# The corners of a result come from the operands (C108)
-/

namespace Ply

open Arr Geom2D

/-- Every half edge of the net begins at an event point. -/
theorem build_events (ch : Choices) (hch : ch.Valid) (segments : List Seg) (hd : ∀ s ∈ segments, s.1 ≠ s.2)
    (A : Arrangement) (h : build ch segments = .ok A) :
    ∀ k ∈ A.net.halfEdges, EventPoint segments k.1 ∧ EventPoint segments k.2 := by
  obtain ⟨net, aabb, verts, hb, _, _, hn, hon, _⟩ := buildNet_spec ch hch segments hd
  unfold build at h
  obtain ⟨na, h1, h⟩ := (bind_ok _ _ _).1 h
  rw [hb] at h1
  cases h1
  dsimp only at h
  obtain ⟨_, _, h⟩ := (bind_ok _ _ _).1 h
  obtain ⟨R, hR, h⟩ := (bind_ok _ _ _).1 h
  obtain ⟨st, hst, h⟩ := (bind_ok _ _ _).1 h
  obtain ⟨cells, hcells, h⟩ := (bind_ok _ _ _).1 h
  obtain ⟨info, _, h⟩ := (bind_ok _ _ _).1 h
  obtain ⟨conts, _, h⟩ := (bind_ok _ _ _).1 h
  cases h
  have hev : ∀ p, EventPoint (ch.segs (normSegs segments)) p ↔ EventPoint segments p := fun p => by
    rw [eventPoint_perm (hch.segs _), eventPoint_norm]
  exact fun k hk => ⟨(hev _).1 (hn.elem k hk).ev1, (hev _).1 (hn.elem k hk).ev2⟩

/-- C108: for all geoms and every operation, each corner of the result, of an outline or of a hole, is a corner of one
of the geoms or a common point of two of their edges that are not parallel. -/
theorem c108_corners (ch : Choices) (hch : ch.Valid) (gs : List Geom2D) (hg : ∀ g ∈ gs, g.WellMade) (op : List Bool → Bool)
    {r : Geom2D} (h : arrangementOp ch gs op = .ok r) {s : SPWH} (hs : s ∈ r) {p : Pt}
    (hp : p ∈ s.outer ∨ ∃ k ∈ s.holes, p ∈ k) : EventPoint (gs.flatMap Geom2D.allSegments) p := by
  unfold arrangementOp at h
  obtain ⟨A, hA, h⟩ := (bind_ok _ _ _).1 h
  obtain ⟨cells, hcells, h⟩ := (bind_ok _ _ _).1 h
  obtain ⟨polys, hpolys, h⟩ := (bind_ok _ _ _).1 h
  obtain ⟨_, hcheck, h⟩ := (bind_ok _ _ _).1 h
  cases h
  obtain ⟨hB, -⟩ := build_spec ch hch _ (segments_ne gs hg) A hA
  have hev := build_events ch hch _ (segments_ne gs hg) A hA
  have hsub := selectCells_spec gs op A.cells cells hcells
  obtain ⟨-, c2⟩ := polyCells_spec ch hch A cells ((allEdges_sublist hsub).nodup hB.nodup) r hpolys
  have hE : ∀ e ∈ allEdges cells, e ∈ A.net.halfEdges := fun e he => hB.sub e ((allEdges_sublist hsub).subset he)
  have first : ∀ {L : List Pt}, p ∈ L → ∃ e ∈ polyEdges L, e.1 = p := fun {L} hp => by
    rw [← polyEdges_map_fst L] at hp
    obtain ⟨e, he, e1⟩ := List.mem_map.1 hp
    exact ⟨e, he, e1⟩
  rcases hp with hp | ⟨k, hk, hp⟩
  · obtain ⟨e, he, rfl⟩ := first hp
    exact (hev _ (hE e ((c2 s hs).1 e he))).1
  · obtain ⟨e, he, rfl⟩ := first hp
    exact (hev _ (hE _ ((c2 s hs).2 k hk e he))).2

/-- C108: so for `|`, `&` and `-`. -/
theorem c108_operators (ch : Choices) (hch : ch.Valid) {a b r : Geom2D} (ha : a.WellMade) (hb : b.WellMade)
    (h : Geom2D.or (arrangementOp ch) a b = .ok r ∨ Geom2D.and (arrangementOp ch) a b = .ok r ∨
      Geom2D.sub (arrangementOp ch) a b = .ok r) {s : SPWH} (hs : s ∈ r) {p : Pt}
    (hp : p ∈ s.outer ∨ ∃ k ∈ s.holes, p ∈ k) : EventPoint (a.allSegments ++ b.allSegments) p := by
  have hg : ∀ g ∈ [a, b], g.WellMade := by
    intro g hg
    simp only [List.mem_cons, List.not_mem_nil, or_false] at hg
    rcases hg with rfl | rfl
    · exact ha
    · exact hb
  have he : [a, b].flatMap Geom2D.allSegments = a.allSegments ++ b.allSegments := by simp
  have first : ∀ {L : List Pt}, p ∈ L → ∃ e ∈ polyEdges L, e.1 = p := fun {L} hp => by
    rw [← polyEdges_map_fst L] at hp
    obtain ⟨e, he, e1⟩ := List.mem_map.1 hp
    exact ⟨e, he, e1⟩
  have own : ∀ {g : Geom2D}, s ∈ g → ∃ e ∈ g.allSegments, e.1 = p := fun {g} hs => by
    obtain ⟨m1, m2⟩ := mem_edges hs
    rcases hp with hp | ⟨k, hk, hp⟩
    · obtain ⟨e, he, e1⟩ := first hp
      exact ⟨e, m1 e he, e1⟩
    · obtain ⟨e, he, e1⟩ := first hp
      exact ⟨e, m2 k hk e he, e1⟩
  rw [← he]
  rcases h with h | h | h
  · unfold Geom2D.or at h
    split_ifs at h
    · cases h
      obtain ⟨e, e1, e2⟩ := own hs
      exact Or.inl ⟨e, by rw [he]; simp [e1], Or.inl e2.symm⟩
    · cases h
      obtain ⟨e, e1, e2⟩ := own hs
      exact Or.inl ⟨e, by rw [he]; simp [e1], Or.inl e2.symm⟩
    · exact c108_corners ch hch _ hg _ h hs hp
  · exact c108_corners ch hch _ hg _ h hs hp
  · unfold Geom2D.sub at h
    split_ifs at h
    · cases h
      obtain ⟨e, e1, e2⟩ := own hs
      exact Or.inl ⟨e, by rw [he]; simp [e1], Or.inl e2.symm⟩
    · exact c108_corners ch hch _ hg _ h hs hp

/-- Corners of boxes and crossings of their sides only have the coordinates of the boxes. -/
theorem event_grid {S : List Seg} {X Y : List ℚ} (hS : ∀ s ∈ S, s.1 ≠ s.2 ∧ (s.1.1 ∈ X ∧ s.2.1 = s.1.1 ∨ s.1.2 ∈ Y ∧ s.2.2 = s.1.2) ∧
    (s.1.1 ∈ X ∧ s.2.1 ∈ X ∧ s.1.2 ∈ Y ∧ s.2.2 ∈ Y)) {p : Pt} (h : EventPoint S p) : p.1 ∈ X ∧ p.2 ∈ Y := by
  rcases h with ⟨s, hs, rfl | rfl⟩ | ⟨s, hs, t, ht, hn, ⟨a, -, -, ha⟩, ⟨b, -, -, hb⟩⟩
  · exact ⟨(hS s hs).2.2.1, (hS s hs).2.2.2.2.1⟩
  · exact ⟨(hS s hs).2.2.2.1, (hS s hs).2.2.2.2.2⟩
  · obtain ⟨-, s1, -⟩ := hS s hs
    obtain ⟨-, t1, -⟩ := hS t ht
    have a1 : p.1 = s.1.1 + a * (s.2.1 - s.1.1) := by rw [ha]; rfl
    have a2 : p.2 = s.1.2 + a * (s.2.2 - s.1.2) := by rw [ha]; rfl
    have b1 : p.1 = t.1.1 + b * (t.2.1 - t.1.1) := by rw [hb]; rfl
    have b2 : p.2 = t.1.2 + b * (t.2.2 - t.1.2) := by rw [hb]; rfl
    rcases s1 with ⟨s1, s2⟩ | ⟨s1, s2⟩ <;> rcases t1 with ⟨t1, t2⟩ | ⟨t1, t2⟩
    · exact absurd (by unfold Parallel cross dir; simp [s2, t2]) hn
    · rw [a1, b2, s2, t2]; simpa using ⟨s1, t1⟩
    · rw [b1, a2, s2, t2]; simpa using ⟨t1, s1⟩
    · exact absurd (by unfold Parallel cross dir; simp [s2, t2]) hn

/-- The corners of the box, clockwise. -/
def boxCorner (x0 y0 x1 y1 : ℚ) : Fin 4 → Pt
  | 0 => (x0, y0)
  | 1 => (x0, y1)
  | 2 => (x1, y1)
  | 3 => (x1, y0)

theorem boxLoop_corners (x0 y0 x1 y1 : ℚ) : boxLoop x0 y0 x1 y1 = [0, 1, 2, 3].map (boxCorner x0 y0 x1 y1) := rfl

theorem four_steps (I : List (Fin 4)) (h3 : 3 ≤ I.length) (h4 : I.length ≤ 4) (he : ∀ e ∈ polyEdges I, e.2 = e.1 + 1) :
    ∃ k, I = [0, 1, 2, 3].rotate k := by
  obtain _ | ⟨a, _ | ⟨b, _ | ⟨c, _ | ⟨d, _ | ⟨e, I⟩⟩⟩⟩⟩ := I
  · simp at h3
  · simp at h3
  · simp at h3
  · exfalso
    have e1 : b = a + 1 := he (a, b) (by simp [polyEdges])
    have e2 : c = b + 1 := he (b, c) (by simp [polyEdges])
    have e3 : a = c + 1 := he (c, a) (by simp [polyEdges])
    clear he h3 h4
    revert a b c; decide
  · have e1 : b = a + 1 := he (a, b) (by simp [polyEdges])
    have e2 : c = b + 1 := he (b, c) (by simp [polyEdges])
    have e3 : d = c + 1 := he (c, d) (by simp [polyEdges])
    refine ⟨a.val, ?_⟩
    subst e3 e2 e1
    clear he h3 h4
    revert a; decide
  · simp only [List.length_cons] at h4; omega

/-- A simple ring through corners of a box only, clockwise around its centre, is the outline of the box. -/
theorem box_of_corners {x0 y0 x1 y1 : ℚ} (hx : x0 < x1) (hy : y0 < y1) {R : List Pt}
    (hR : StarRing ((x0 + x1) / 2, (y0 + y1) / 2) R) (hc : ∀ p ∈ R, (p.1 = x0 ∨ p.1 = x1) ∧ (p.2 = y0 ∨ p.2 = y1)) :
    ∃ k, R = (boxLoop x0 y0 x1 y1).rotate k := by
  have hf : ∀ p ∈ R, ∃ i, boxCorner x0 y0 x1 y1 i = p := by
    rintro ⟨a, b⟩ hp
    rcases hc _ hp with ⟨h1 | h1, h2 | h2⟩ <;> dsimp only at h1 h2 <;> subst h1 h2
    exacts [⟨0, rfl⟩, ⟨1, rfl⟩, ⟨3, rfl⟩, ⟨2, rfl⟩]
  obtain ⟨I, rfl⟩ : ∃ I : List (Fin 4), I.map (boxCorner x0 y0 x1 y1) = R := by
    clear hR hc
    induction R with
    | nil => exact ⟨[], rfl⟩
    | cons p R ih =>
      obtain ⟨I, rfl⟩ := ih fun p hp => hf p (List.mem_cons_of_mem _ hp)
      obtain ⟨i, rfl⟩ := hf p List.mem_cons_self
      exact ⟨i :: I, rfl⟩
  have step : ∀ i j : Fin 4, orient (boxCorner x0 y0 x1 y1 i) (boxCorner x0 y0 x1 y1 j) ((x0 + x1) / 2, (y0 + y1) / 2) < 0 → j = i + 1 := by
    intro i j h
    have hm := mul_pos (sub_pos.2 hx) (sub_pos.2 hy)
    fin_cases i <;> fin_cases j <;> first
      | rfl
      | (exfalso; simp only [boxCorner, orient] at h; nlinarith)
  have hnd : I.Nodup := List.Nodup.of_map _ hR.simple.nodup
  have hlen : I.length ≤ 4 := by simpa using hnd.length_le_card
  have h3 := hR.simple.long
  rw [List.length_map] at h3
  obtain ⟨k, rfl⟩ := four_steps I h3 hlen fun e he => step e.1 e.2 (hR.right (boxCorner x0 y0 x1 y1 e.1, boxCorner x0 y0 x1 y1 e.2) (by
    rw [polyEdges_map]
    exact List.mem_map.2 ⟨e, he, rfl⟩))
  exact ⟨k, by rw [boxLoop_corners, List.map_rotate]⟩

theorem boxLoop_rotate_star {x0 y0 x1 y1 : ℚ} {o : Pt} (h1 : x0 < o.1) (h2 : o.1 < x1) (h3 : y0 < o.2) (h4 : o.2 < y1) (k : ℕ) :
    StarRing o ((boxLoop x0 y0 x1 y1).rotate k) where
  simple := (boxLoop_star h1 h2 h3 h4).simple.rotate k
  right e he := (boxLoop_star h1 h2 h3 h4).right e ((polyEdges_rotate _ k).mem_iff.1 he)

theorem boxLoop_rotate_grid (x0 y0 x1 y1 : ℚ) (hx : x0 < x1) (hy : y0 < y1) {X Y : List ℚ} (m0 : x0 ∈ X) (m1 : x1 ∈ X)
    (n0 : y0 ∈ Y) (n1 : y1 ∈ Y) (k : ℕ) {s : Seg} (hs : s ∈ polyEdges ((boxLoop x0 y0 x1 y1).rotate k)) :
    s.1 ≠ s.2 ∧ (s.1.1 ∈ X ∧ s.2.1 = s.1.1 ∨ s.1.2 ∈ Y ∧ s.2.2 = s.1.2) ∧
      (s.1.1 ∈ X ∧ s.2.1 ∈ X ∧ s.1.2 ∈ Y ∧ s.2.2 ∈ Y) := by
  have := (polyEdges_rotate _ k).mem_iff.1 hs
  rw [boxLoop_edges] at this
  simp only [List.mem_cons, List.not_mem_nil, or_false] at this
  rcases this with rfl | rfl | rfl | rfl <;> simp [hx.ne, hx.ne', hy.ne, hy.ne', m0, m1, n0, n1]

theorem boxLoop_out {x0 y0 x1 y1 : ℚ} (hx : x0 < x1) (hy : y0 < y1) (k : ℕ) {p : Pt}
    (h : ¬ (x0 ≤ p.1 ∧ p.1 ≤ x1 ∧ y0 ≤ p.2 ∧ p.2 ≤ y1)) : locate (ringGeom ((boxLoop x0 y0 x1 y1).rotate k)) p = .ok (-1) := by
  obtain ⟨v, h1, h2, h3, h4⟩ := locate_single ((boxLoop x0 y0 x1 y1).rotate k) (by unfold boxLoop; simp) p
  unfold ringGeom
  rw [h1, Except.ok.injEq, h4]
  have e1 := boxLoop_in x0 y0 x1 y1 hx.ne hy.ne p
  have e2 := boxLoop_boundary x0 y0 x1 y1 hy.ne p
  rw [min_eq_left hx.le, max_eq_right hx.le, min_eq_left hy.le, max_eq_right hy.le] at e1 e2
  have hn : ¬ OnBoundary ((boxLoop x0 y0 x1 y1).rotate k) p := by
    rw [onBoundary_rotate, e2]
    exact fun hc => h hc.1
  have hi : ¬ InPoly ((boxLoop x0 y0 x1 y1).rotate k) p := by
    rw [inPoly_turn, e1]
    exact fun hc => h ⟨hc.1.le, hc.2.1.le, hc.2.2.1.le, hc.2.2.2.le⟩
  unfold InPoly at hi
  unfold OutPoly
  refine ⟨hn, ?_⟩
  by_contra hc
  exact hi ⟨hn, hc⟩

/-- C109: the intersection of two rectangles that overlap is the rectangle between the larger lower and the smaller
upper coordinates: one piece, no holes, four corners, whatever order sets and dictionaries are gone through in and
from whichever corners the outlines start. -/
theorem c109_and (ch : Choices) (hch : ch.Valid) {a0 b0 a1 b1 c0 d0 c1 d1 : ℚ} (hx : max a0 c0 < min a1 c1)
    (hy : max b0 d0 < min b1 d1) (i j : ℕ) :
    ∃ k, Geom2D.and (arrangementOp ch) [⟨(boxLoop a0 b0 a1 b1).rotate i, []⟩] [⟨(boxLoop c0 d0 c1 d1).rotate j, []⟩] =
      .ok [⟨(boxLoop (max a0 c0) (max b0 d0) (min a1 c1) (min b1 d1)).rotate k, []⟩] := by
  obtain ⟨x0, hx0⟩ : ∃ x, x = max a0 c0 := ⟨_, rfl⟩
  obtain ⟨y0, hy0⟩ : ∃ x, x = max b0 d0 := ⟨_, rfl⟩
  obtain ⟨x1, hx1⟩ : ∃ x, x = min a1 c1 := ⟨_, rfl⟩
  obtain ⟨y1, hy1⟩ : ∃ x, x = min b1 d1 := ⟨_, rfl⟩
  rw [← hx0, ← hx1] at hx
  rw [← hy0, ← hy1] at hy
  rw [← hx0, ← hx1, ← hy0, ← hy1]
  have l1 : a0 ≤ x0 := hx0 ▸ le_max_left _ _
  have l2 : c0 ≤ x0 := hx0 ▸ le_max_right _ _
  have l3 : b0 ≤ y0 := hy0 ▸ le_max_left _ _
  have l4 : d0 ≤ y0 := hy0 ▸ le_max_right _ _
  have u1 : x1 ≤ a1 := hx1 ▸ min_le_left _ _
  have u2 : x1 ≤ c1 := hx1 ▸ min_le_right _ _
  have u3 : y1 ≤ b1 := hy1 ▸ min_le_left _ _
  have u4 : y1 ≤ d1 := hy1 ▸ min_le_right _ _
  have hP : StarRing ((x0 + x1) / 2, (y0 + y1) / 2) ((boxLoop a0 b0 a1 b1).rotate i) :=
    boxLoop_rotate_star (by dsimp only; linarith) (by dsimp only; linarith) (by dsimp only; linarith) (by dsimp only; linarith) i
  have hQ : StarRing ((x0 + x1) / 2, (y0 + y1) / 2) ((boxLoop c0 d0 c1 d1).rotate j) :=
    boxLoop_rotate_star (by dsimp only; linarith) (by dsimp only; linarith) (by dsimp only; linarith) (by dsimp only; linarith) j
  obtain ⟨-, R, hR, hS, -, -⟩ := c104_step ch hch hP hQ
  have hfine := hS.fine
  have hex := c78_and ch hch hP.fine hQ.fine hR
  obtain ⟨k, rfl⟩ := box_of_corners hx hy hS (by
    intro p hp
    have hg : ∀ g ∈ [ringGeom ((boxLoop a0 b0 a1 b1).rotate i), ringGeom ((boxLoop c0 d0 c1 d1).rotate j)], WellMade g := by
      intro g hg
      simp only [List.mem_cons, List.not_mem_nil, or_false] at hg
      rcases hg with rfl | rfl
      · exact hP.fine.proper.made
      · exact hQ.fine.proper.made
    have hev := c108_corners ch hch _ hg _ hR (s := ⟨R, []⟩) (by simp [ringGeom]) (Or.inl hp)
    have hgr : p.1 ∈ [a0, a1, c0, c1] ∧ p.2 ∈ [b0, b1, d0, d1] := by
      refine event_grid (fun s hs => ?_) hev
      simp only [List.flatMap_cons, List.flatMap_nil, List.append_nil, List.mem_append, ringGeom, allSegments, SPWH.segments,
        edgesIter_eq] at hs
      rcases hs with hs | hs
      · exact boxLoop_rotate_grid a0 b0 a1 b1 (by linarith) (by linarith) (by simp) (by simp) (by simp) (by simp) i hs
      · exact boxLoop_rotate_grid c0 d0 c1 d1 (by linarith) (by linarith) (by simp) (by simp) (by simp) (by simp) j hs
    have hon : OnEdge (ringGeom R) p := by
      rw [← polyEdges_map_fst R] at hp
      obtain ⟨e, he, rfl⟩ := List.mem_map.1 hp
      exact ⟨⟨R, []⟩, by simp [ringGeom], Or.inl ⟨e, he, onSeg_start e⟩⟩
    have inA : a0 ≤ p.1 ∧ p.1 ≤ a1 ∧ b0 ≤ p.2 ∧ p.2 ≤ b1 := by
      by_contra hc
      obtain ⟨⟨v, v1, v2⟩, -⟩ := hfine.crisp.near hfine.proper.made hon (stable_outside hP.fine.proper.made p)
        (by rw [add_zero]; exact boxLoop_out (by linarith) (by linarith) i hc)
      rw [((hex _).1 v2).1] at v1; cases v1
    have inB : c0 ≤ p.1 ∧ p.1 ≤ c1 ∧ d0 ≤ p.2 ∧ p.2 ≤ d1 := by
      by_contra hc
      obtain ⟨⟨v, v1, v2⟩, -⟩ := hfine.crisp.near hfine.proper.made hon (stable_outside hQ.fine.proper.made p)
        (by rw [add_zero]; exact boxLoop_out (by linarith) (by linarith) j hc)
      rw [((hex _).1 v2).2] at v1; cases v1
    have m1 : x0 ≤ p.1 := hx0 ▸ max_le inA.1 inB.1
    have m2 : p.1 ≤ x1 := hx1 ▸ le_min inA.2.1 inB.2.1
    have m3 : y0 ≤ p.2 := hy0 ▸ max_le inA.2.2.1 inB.2.2.1
    have m4 : p.2 ≤ y1 := hy1 ▸ le_min inA.2.2.2 inB.2.2.2
    obtain ⟨g1, g2⟩ := hgr
    simp only [List.mem_cons, List.not_mem_nil, or_false] at g1 g2
    constructor
    · rcases g1 with g | g | g | g
      · left; linarith
      · right; linarith
      · left; linarith
      · right; linarith
    · rcases g2 with g | g | g | g
      · left; linarith
      · right; linarith
      · left; linarith
      · right; linarith)
  exact ⟨k, hR⟩

/-- A geom without inner points is empty. -/
theorem fine_nothing {r : Geom2D} (h : r.Fine) (hp : ∀ p, locate r p ≠ .ok 1) : r = [] := by
  by_contra hne
  obtain ⟨s, hs⟩ := List.exists_mem_of_ne_nil r hne
  have hw := ((SPWH.mk'_iff _ _ _).1 (h.proper.made s hs)).2.wf.1
  obtain ⟨q, hq⟩ := List.exists_mem_of_ne_nil _ hw
  rw [← polyEdges_map_fst s.outer] at hq
  obtain ⟨e, he, -⟩ := List.mem_map.1 hq
  have hon : OnEdge r e.1 := ⟨s, hs, Or.inl ⟨e, he, onSeg_start e⟩⟩
  obtain ⟨⟨v, -, hv⟩, -⟩ := h.crisp.near h.proper.made hon (P := fun _ => True)
    (fun _ _ _ => Filter.Eventually.of_forall fun _ => trivial) trivial
  exact hp _ hv

theorem box_inside {x0 y0 x1 y1 : ℚ} (hx : x0 < x1) (hy : y0 < y1) (k : ℕ) (p : Pt) :
    locate [⟨(boxLoop x0 y0 x1 y1).rotate k, []⟩] p = .ok 1 ↔ x0 < p.1 ∧ p.1 < x1 ∧ y0 < p.2 ∧ p.2 < y1 := by
  obtain ⟨v, h1, h2, -⟩ := locate_single ((boxLoop x0 y0 x1 y1).rotate k) (by unfold boxLoop; simp) p
  rw [h1, Except.ok.injEq, h2, inPoly_turn, boxLoop_in x0 y0 x1 y1 hx.ne hy.ne, min_eq_left hx.le, max_eq_right hx.le,
    min_eq_left hy.le, max_eq_right hy.le]

theorem box_fine {x0 y0 x1 y1 : ℚ} (hx : x0 < x1) (hy : y0 < y1) (k : ℕ) : Geom2D.Fine [⟨(boxLoop x0 y0 x1 y1).rotate k, []⟩] :=
  ring_fine_of ((boxLoop_simple hx hy).rotate k) (by rw [shoelace_rotate, boxLoop_shoelace]; nlinarith)

/-- C109: the intersection of two rectangles that do not overlap is empty, also if they touch. -/
theorem c109_apart (ch : Choices) (hch : ch.Valid) {a0 b0 a1 b1 c0 d0 c1 d1 : ℚ} (ha : a0 < a1) (hb : b0 < b1) (hc : c0 < c1)
    (hd : d0 < d1) (h : ¬ (max a0 c0 < min a1 c1 ∧ max b0 d0 < min b1 d1)) (i j : ℕ) :
    Geom2D.and (arrangementOp ch) [⟨(boxLoop a0 b0 a1 b1).rotate i, []⟩] [⟨(boxLoop c0 d0 c1 d1).rotate j, []⟩] = .ok [] := by
  obtain ⟨r, hr, hf, hp⟩ := c85_and ch hch _ _ (box_fine ha hb i) (box_fine hc hd j)
  rw [hr, fine_nothing hf fun p hin => ?_]
  obtain ⟨h1, h2⟩ := (hp p).1 hin
  rw [box_inside ha hb] at h1
  rw [box_inside hc hd] at h2
  exact h ⟨(max_lt h1.1 h2.1).trans (lt_min h1.2.1 h2.2.1), (max_lt h1.2.2.1 h2.2.2.1).trans (lt_min h1.2.2.2 h2.2.2.2)⟩

/-! ### Examples -/

theorem c109_touch (ch : Choices) (hch : ch.Valid) :
    Geom2D.and (arrangementOp ch) [⟨boxLoop 0 0 10 8, []⟩] [⟨boxLoop 10 3 14 12, []⟩] = .ok [] := by
  simpa using c109_apart ch hch (a0 := 0) (b0 := 0) (a1 := 10) (b1 := 8) (c0 := 10) (d0 := 3) (c1 := 14) (d1 := 12)
    (by norm_num) (by norm_num) (by norm_num) (by norm_num) (by norm_num) 0 0

/-- C108, C109: two rectangles that overlap in a corner, for all orders of sets and dictionaries: the intersection has
four corners, and two of them are no corners of the rectangles. -/
theorem c109_example (ch : Choices) (hch : ch.Valid) :
    ∃ L, Geom2D.and (arrangementOp ch) [⟨boxLoop 0 0 10 8, []⟩] [⟨boxLoop 4 3 14 12, []⟩] = .ok [⟨L, []⟩] ∧ L.length = 4 ∧
      ((4, 8) : Pt) ∈ L ∧ ((10, 3) : Pt) ∈ L := by
  obtain ⟨k, hk⟩ := c109_and ch hch (a0 := 0) (b0 := 0) (a1 := 10) (b1 := 8) (c0 := 4) (d0 := 3) (c1 := 14) (d1 := 12)
    (by norm_num) (by norm_num) 0 0
  rw [List.rotate_zero, List.rotate_zero] at hk
  refine ⟨_, hk, by rw [List.length_rotate]; rfl, ?_, ?_⟩ <;> rw [List.mem_rotate] <;> norm_num [boxLoop]

end Ply
