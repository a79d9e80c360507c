import Verif.Proofs.ArrOp

/-!
# Arrangements of segments and the Boolean operations: C35, C67, C68
-/

namespace Ply

open Arr

/-- A geom that passed the constructor locates every point off its edges strictly inside or outside. -/
theorem locate_off {g : Geom2D} (hg : g.WellMade) {p : Pt} (hp : ¬ g.OnEdge p) :
    Geom2D.locate g p = .ok 1 ∨ Geom2D.locate g p = .ok (-1) := by
  obtain ⟨v, e, h1, h0, hm⟩ := c31_locate g hg p
  rw [e, Except.ok.injEq, Except.ok.injEq, h1, hm]
  by_cases ha : ∃ s ∈ g, InRegion s.outer s.holes p
  · exact Or.inl ha
  · refine Or.inr fun s hs => ?_
    have hw := ((SPWH.mk'_iff _ _ _).1 (hg s hs)).2.wf
    rcases s.locate_three hw.1 hw.2 p with h | h | h
    · exact absurd ⟨s, hs, h.2⟩ ha
    · rcases h.2 with k | ⟨_, pre, x, post, hx, _, k⟩
      · exact absurd ⟨s, hs, Or.inl k⟩ hp
      · exact absurd ⟨s, hs, Or.inr ⟨x, by rw [hx]; simp, k⟩⟩ hp
    · exact h.2

/-- **C35, any operation.** When `_arrangement_op` returns, whatever the iteration orders of the sets and
for any number of operands, its result passed the constructor, its edges are on edges of the operands,
and off these a point is inside the result if the Boolean function selects it and outside otherwise.  The
Boolean function must not select the points outside everything. -/
theorem c35_op (ch : Choices) (hch : ch.Valid) (gs : List Geom2D) (op : List Bool → Bool) (r : Geom2D)
    (hop : op (gs.map fun _ => false) = false)
    (hg : ∀ g ∈ gs, ∀ s ∈ g, SPWH.mk' s.outer s.holes = .ok s)
    (h : arrangementOp ch gs op = .ok r) :
    (∀ s ∈ r, SPWH.mk' s.outer s.holes = .ok s) ∧ (∀ p, r.OnEdge p → ∃ g ∈ gs, Geom2D.OnEdge g p) ∧
    ∀ p, (∀ g ∈ gs, ¬ Geom2D.OnEdge g p) → Geom2D.locate r p =
      .ok (if op (gs.map fun g => decide (Geom2D.locate g p = .ok 1)) = true then 1 else -1) := by
  obtain ⟨h1, h2, h3⟩ := arrangementOp_sound ch hch gs op r hop hg h
  refine ⟨h1, h2, fun p hp => ?_⟩
  have hr : ¬ r.OnEdge p := fun hc => by
    obtain ⟨g, hg', hq⟩ := h2 p hc
    exact hp g hg' hq
  split_ifs with ho
  · exact (h3 p hp).2 ho
  · rcases locate_off h1 hr with h | h
    · exact absurd ((h3 p hp).1 h) ho
    · exact h

/-- **C35.** The operators `|`, `&` and `-`: when they return, a point off the edges of both operands is
inside the result exactly if it should be, and otherwise outside; no new edges appear. -/
theorem c35_operators (ch : Choices) (hch : ch.Valid) (a b : Geom2D)
    (ha : ∀ s ∈ a, SPWH.mk' s.outer s.holes = .ok s) (hb : ∀ s ∈ b, SPWH.mk' s.outer s.holes = .ok s)
    (r : Geom2D) (P : Prop → Prop → Prop)
    (h : (Geom2D.or (arrangementOp ch) a b = .ok r ∧ P = Or) ∨ (Geom2D.and (arrangementOp ch) a b = .ok r ∧ P = And) ∨
      (Geom2D.sub (arrangementOp ch) a b = .ok r ∧ P = fun x y => x ∧ ¬ y)) :
    (∀ s ∈ r, SPWH.mk' s.outer s.holes = .ok s) ∧ (∀ p, r.OnEdge p → a.OnEdge p ∨ b.OnEdge p) ∧
    ∀ p, ¬ a.OnEdge p → ¬ b.OnEdge p →
      (Geom2D.locate r p = .ok 1 ↔ P (Geom2D.locate a p = .ok 1) (Geom2D.locate b p = .ok 1)) ∧
      (Geom2D.locate r p = .ok (-1) ↔ ¬ P (Geom2D.locate a p = .ok 1) (Geom2D.locate b p = .ok 1)) := by
  suffices hs : r.WellMade ∧ (∀ p, r.OnEdge p → a.OnEdge p ∨ b.OnEdge p) ∧
      ∀ p, ¬ a.OnEdge p → ¬ b.OnEdge p →
        (Geom2D.locate r p = .ok 1 ↔ P (Geom2D.locate a p = .ok 1) (Geom2D.locate b p = .ok 1)) by
    refine ⟨hs.1, hs.2.1, fun p pa pb => ⟨hs.2.2 p pa pb, ?_⟩⟩
    rw [← hs.2.2 p pa pb]
    rcases locate_off hs.1 (p := p) fun hc => (hs.2.1 p hc).elim pa pb with h | h <;> rw [h] <;> simp
  have hab : ∀ g ∈ [a, b], Geom2D.WellMade g := by
    intro g hg
    simp only [List.mem_cons, List.not_mem_nil, or_false] at hg
    rcases hg with rfl | rfl
    · exact ha
    · exact hb
  have key : ∀ op : List Bool → Bool, op [false, false] = false → arrangementOp ch [a, b] op = .ok r →
      r.WellMade ∧ (∀ p, r.OnEdge p → a.OnEdge p ∨ b.OnEdge p) ∧ ∀ p, ¬ a.OnEdge p → ¬ b.OnEdge p →
        (Geom2D.locate r p = .ok 1 ↔
          op [decide (Geom2D.locate a p = .ok 1), decide (Geom2D.locate b p = .ok 1)] = true) := by
    intro op h0 h
    obtain ⟨h1, h2, h3⟩ := arrangementOp_sound ch hch [a, b] op r h0 hab h
    refine ⟨h1, fun p hp => ?_, fun p pa pb => ?_⟩
    · simpa using h2 p hp
    · exact h3 p (by simp [pa, pb])
  have hempty : ∀ g : Geom2D, Geom2D.isEmpty g = true → g = [] := fun g hg =>
    List.length_eq_zero_iff.1 (of_decide_eq_true hg)
  rcases h with ⟨h, rfl⟩ | ⟨h, rfl⟩ | ⟨h, rfl⟩
  · unfold Geom2D.or at h
    split_ifs at h with h1 h2
    · cases h
      have := hempty a h1
      subst this
      exact ⟨hb, fun p hp => Or.inr hp, fun p _ _ => by rw [locate_empty]; simp⟩
    · cases h
      have := hempty b h2
      subst this
      exact ⟨ha, fun p hp => Or.inl hp, fun p _ _ => by rw [locate_empty]; simp⟩
    · obtain ⟨k1, k2, k3⟩ := key _ rfl h
      exact ⟨k1, k2, fun p pa pb => by rw [k3 p pa pb]; simp⟩
  · obtain ⟨k1, k2, k3⟩ := key _ rfl h
    exact ⟨k1, k2, fun p pa pb => by rw [k3 p pa pb]; simp⟩
  · unfold Geom2D.sub at h
    split_ifs at h with h1
    · cases h
      have := hempty b h1
      subst this
      exact ⟨ha, fun p hp => Or.inl hp, fun p _ _ => by rw [locate_empty]; simp⟩
    · obtain ⟨k1, k2, k3⟩ := key _ rfl h
      exact ⟨k1, k2, fun p pa pb => by rw [k3 p pa pb]; simp⟩

/-- **C67.** The first half of the construction never fails on segments of positive length, whatever the
iteration orders.  The vertices are the end points and the crossing points, each once; the half-edges are
the pieces of segments between neighbouring vertices, in both directions, each once. -/
theorem c67_net (ch : Choices) (hch : ch.Valid) (segments : List Seg) (hd : ∀ s ∈ segments, s.1 ≠ s.2) :
    ∃ net aabb, buildNet ch segments = .ok (net, aabb) ∧
      (net.vertices.map Prod.fst).Nodup ∧ (∀ p, p ∈ net.vertices.map Prod.fst ↔ EventPoint segments p) ∧
      net.halfEdges.Nodup ∧ (∀ h, h ∈ net.halfEdges ↔ Elem segments h) ∧
      (∀ x, OnAny net.halfEdges x ↔ OnAny segments x) := by
  obtain ⟨net, aabb, verts, h1, h2, h3, h4, h5, _⟩ := buildNet_spec ch hch segments hd
  have hev : ∀ p, EventPoint (ch.segs (normSegs segments)) p ↔ EventPoint segments p := fun p => by
    rw [eventPoint_perm (hch.segs _), eventPoint_norm]
  have helem : ∀ h, Elem (ch.segs (normSegs segments)) h ↔ Elem segments h := by
    intro h
    have hon : (∃ s ∈ ch.segs (normSegs segments), OnSeg s h.1 ∧ OnSeg s h.2) ↔
        ∃ s ∈ segments, OnSeg s h.1 ∧ OnSeg s h.2 := by
      constructor
      · rintro ⟨s, hs, a, b⟩
        have := (hch.segs _).mem_iff.1 hs
        unfold normSegs at this
        rw [List.mem_dedup, List.mem_map] at this
        obtain ⟨t, ht, rfl⟩ := this
        exact ⟨t, ht, (onSeg_sorted t _).1 a, (onSeg_sorted t _).1 b⟩
      · rintro ⟨s, hs, a, b⟩
        refine ⟨segSorted s, (hch.segs _).mem_iff.2 ?_, (onSeg_sorted s _).2 a, (onSeg_sorted s _).2 b⟩
        unfold normSegs
        rw [List.mem_dedup]
        exact List.mem_map_of_mem hs
    constructor
    · rintro ⟨a, b, c, d, e⟩
      exact ⟨a, hon.1 b, (hev _).1 c, (hev _).1 d, fun x hx => e x ((hev x).2 hx)⟩
    · rintro ⟨a, b, c, d, e⟩
      exact ⟨a, hon.2 b, (hev _).2 c, (hev _).2 d, fun x hx => e x ((hev x).1 hx)⟩
  refine ⟨net, aabb, h1, by rw [h4.keys]; exact h2, fun p => by rw [h4.keys]; exact h3 p, h4.nodup, fun h =>
    ⟨fun hh => (helem h).1 (h4.elem h hh), fun hh => ?_⟩, h5⟩
  -- the middle of the piece is on a half-edge
  obtain ⟨s, hs, o1, o2⟩ := hh.on
  have hm : OnSeg h (along h (1 / 2)) := ⟨1 / 2, by norm_num, by norm_num, rfl⟩
  have hms : OnSeg s (along h (1 / 2)) := onSeg_sub o1 o2 hm
  obtain ⟨k, hk, hkm⟩ := (h5 _).2 ⟨s, hs, hms⟩
  rcases elem_meet hh ((helem k).1 (h4.elem k hk)) hm hkm with (e | e) | ⟨e | e, _⟩
  · rw [← e]; exact hk
  · have := h4.rev k hk
    rw [e] at this
    exact this
  · have : (1 / 2 : ℚ) = 0 := along_inj hh.ne (e.trans (along_zero h).symm)
    norm_num at this
  · have : (1 / 2 : ℚ) = 1 := along_inj hh.ne (e.trans (along_one h).symm)
    norm_num at this

/-- **C68.** When the construction of an arrangement returns, the cells use every half-edge exactly once;
the point kept with a cell is on no segment and lies on the right of each edge of the cell, in the same
face; and every point on no segment is in the same face as the point of some cell. -/
theorem c68_cells (ch : Choices) (hch : ch.Valid) (segments : List Seg) (hd : ∀ s ∈ segments, s.1 ≠ s.2)
    (hne : segments ≠ []) (A : Arrangement) (h : build ch segments = .ok A) :
    (A.cells.flatMap fun c => polyEdges c.vertices).Nodup ∧
    (∀ e, e ∈ (A.cells.flatMap fun c => polyEdges c.vertices) ↔ Elem segments e) ∧
    (∀ c ∈ A.cells, ¬ OnAny segments c.point) ∧
    (∀ c ∈ A.cells, ∀ e ∈ polyEdges c.vertices, ∃ (t : ℚ) (v : Pt), 0 < t ∧ t < 1 ∧ cross (dir e) v < 0 ∧
      (∀ τ : ℚ, 0 < τ → τ ≤ 1 → ¬ OnAny segments (along e t + τ • v)) ∧
      SameFace segments (along e t + v) c.point) ∧
    ∀ p, ¬ OnAny segments p → ∃ c ∈ A.cells, SameFace segments p c.point := by
  obtain ⟨hB, hon⟩ := build_spec ch hch segments hd A h
  have hnet : ∀ e, e ∈ A.net.halfEdges ↔ Elem segments e := by
    obtain ⟨net, aabb, h1, _, _, _, h2, _⟩ := c67_net ch hch segments hd
    unfold build at h
    rw [h1] at h
    change (checkFans net.vertices >>= _) = _ at h
    obtain ⟨_, _, h⟩ := (bind_ok _ _ _).1 h
    obtain ⟨R, hR, h⟩ := (bind_ok _ _ _).1 h
    obtain ⟨st, hst, h⟩ := (bind_ok _ _ _).1 h
    obtain ⟨cells, hcells, h⟩ := (bind_ok _ _ _).1 h
    obtain ⟨info, _, h⟩ := (bind_ok _ _ _).1 h
    obtain ⟨conts, _, h⟩ := (bind_ok _ _ _).1 h
    cases h
    exact h2
  have hwithin : ∀ poly, Within A.net.halfEdges poly ↔ Within segments poly := fun poly => by
    unfold Within
    simp only [hon]
  have hface : ∀ p q, SameFace A.net.halfEdges p q ↔ SameFace segments p q := fun p q => by
    unfold SameFace
    simp only [hwithin]
  have hfm : (A.cells.flatMap fun c => polyEdges c.vertices) = allEdges (A.cells.map Cell1.vertices) := by
    unfold allEdges; rw [List.flatMap_map]
  refine ⟨by rw [hfm]; exact hB.nodup, fun e => ?_, fun c hc => by rw [← hon]; exact hB.off c hc, ?_, ?_⟩
  · rw [← hnet]
    constructor
    · intro he
      rw [hfm] at he
      exact hB.sub e he
    · intro he
      obtain ⟨c, hc, h⟩ := hB.every e he
      exact List.mem_flatMap.2 ⟨c, hc, h⟩
  · intro c hc e he
    obtain ⟨p, ⟨t, v, t0, t1, hv, rfl, hτ⟩, hp⟩ := hB.sees c hc e he
    exact ⟨t, v, t0, t1, hv, fun τ a b => by rw [← hon]; exact hτ τ a b, (hface _ _).1 hp⟩
  · intro p hp
    have hH : A.net.halfEdges ≠ [] := by
      intro h0
      obtain ⟨s, hs⟩ := List.exists_mem_of_ne_nil segments hne
      obtain ⟨k, hk, _⟩ := (hon s.1).2 ⟨s, hs, 0, le_rfl, zero_le_one, (along_zero s).symm⟩
      rw [h0] at hk
      cases hk
    obtain ⟨c, hc, hf⟩ := hB.all p hH (by rw [hon]; exact hp)
    exact ⟨c, hc, (hface _ _).1 hf⟩

/-! ### Concrete runs -/

/-- Iteration in the order of insertion. -/
def chDemo : Choices where
  segs := id
  verts := id
  pop := fun l => l.headD ((0, 0), (0, 0))
  conts := fun _ => id
  cells := id
  merger := fun _ => ⟨fun _ _ _ vs => vs.headD (0, 0), fun _ => id⟩
  merged := id
  holes := fun _ => id

theorem chDemo_valid : chDemo.Valid := by
  have hp : ∀ {α : Type} (d : α) (l : List α), l ≠ [] → l.headD d ∈ l := by
    intro α d l hl
    cases l with
    | nil => exact absurd rfl hl
    | cons x l => exact List.mem_cons_self
  exact ⟨fun _ => .refl _, fun _ => .refl _, fun l hl => hp _ l hl, fun _ _ => .refl _, fun _ => .refl _,
    fun _ => ⟨fun _ _ _ vs hv => hp _ vs hv, fun _ _ => .refl _⟩, fun _ => .refl _, fun _ _ => .refl _⟩

/-- The computation returns a value with the property. -/
def okAnd {α : Type} (x : Except PyErr α) (f : α → Bool) : Bool :=
  match x with
  | .ok r => f r
  | .error _ => false

theorem ok_of_match {α : Type} {x : Except PyErr α} {f : α → Bool} (h : okAnd x f = true) : ∃ r, x = .ok r ∧ f r = true := by
  cases x with
  | ok r => exact ⟨r, rfl, h⟩
  | error e => cases h

/-- Two overlapping squares. -/
def sqA : Geom2D := [⟨[(0, 0), (0, 2), (2, 2), (2, 0)], []⟩]
def sqB : Geom2D := [⟨[(1, 1), (1, 3), (3, 3), (3, 1)], []⟩]
/-- A square inside the first one. -/
def sqC : Geom2D := [⟨[(1/2, 1/2), (1/2, 1), (1, 1), (1, 1/2)], []⟩]

theorem sqABC_made : (∀ s ∈ sqA, SPWH.mk' s.outer s.holes = .ok s) ∧ (∀ s ∈ sqB, SPWH.mk' s.outer s.holes = .ok s) ∧
    ∀ s ∈ sqC, SPWH.mk' s.outer s.holes = .ok s := by
  have key : ∀ s : SPWH, okAnd (SPWH.mk' s.outer s.holes) (fun r => decide (r = s)) = true →
      SPWH.mk' s.outer s.holes = .ok s := by
    intro s h
    obtain ⟨r, h1, h2⟩ := ok_of_match h
    rw [h1, of_decide_eq_true h2]
  refine ⟨?_, ?_, ?_⟩ <;> intro s hs <;> rw [List.mem_singleton.1 hs] <;> apply key <;> decide +kernel

/-- C35: the union of the overlapping squares is one polygon with eight corners, their intersection is a
square, and subtracting the inner square leaves one polygon with a hole. -/
theorem c35_runs : (∃ r, Geom2D.or (arrangementOp chDemo) sqA sqB = .ok r ∧
      decide (r.map (fun s => (s.outer.length, s.holes.length)) = [(8, 0)]) = true) ∧
    (∃ r, Geom2D.and (arrangementOp chDemo) sqA sqB = .ok r ∧
      decide (r.map (fun s => (s.outer.length, s.holes.length)) = [(4, 0)]) = true) ∧
    (∃ r, Geom2D.sub (arrangementOp chDemo) sqA sqC = .ok r ∧
      decide (r.map (fun s => (s.outer.length, s.holes.length)) = [(4, 1)]) = true) :=
  ⟨ok_of_match (by decide +kernel), ok_of_match (by decide +kernel), ok_of_match (by decide +kernel)⟩

/-- C67, C68: the arrangement of the overlapping squares is built and has four cells, one of them outside. -/
theorem c68_run : ∃ A, build chDemo (sqA.allSegments ++ sqB.allSegments) = .ok A ∧
    decide (A.cells.length = 4 ∧ (A.cells.filter fun c => c.negative).length = 1 ∧ A.net.vertices.length = 10 ∧
      A.net.halfEdges.length = 24) = true :=
  ok_of_match (by decide +kernel)

end Ply
