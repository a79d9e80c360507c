import Verif.Proofs.TotalOp
import Verif.Props.BufferExample
import Verif.Props.Exact2D

/-!
# Which 2D operations never raise
-/

namespace Ply

open Arr

/-! ### The arrangement is always built (C84) -/

/-- The list of the cells directly outside each cell, from winding numbers: the container of `c` is the innermost
of the other cells that wind around the point of `c`. -/
def Encloses (A : Arrangement) (c : Cell1) : Option (List Pt) → Prop
  | none => ∀ b ∈ A.cells, b ≠ c → windingNumber b.vertices c.point = 0
  | some v => ∃ d ∈ A.cells, d.vertices = v ∧ d ≠ c ∧ windingNumber v c.point ≠ 0 ∧
      (shoelace v < 0 ↔ ¬ shoelace c.vertices < 0) ∧
      ∀ b ∈ A.cells, b ≠ c → b ≠ d → windingNumber b.vertices c.point ≠ 0 → windingNumber b.vertices d.point ≠ 0

theorem encloses_unique {A : Arrangement} (hF : Arr.Full A) {c : Cell1} {o o' : Option (List Pt)}
    (h : Encloses A c o) (h' : Encloses A c o') : o = o' := by
  have hN := nested hF.wheel hF.tiling
  have hm : ∀ x ∈ A.cells, x.vertices ∈ (A.cells.map Cell1.vertices).toFinset := fun x hx =>
    List.mem_toFinset.2 (List.mem_map_of_mem hx)
  cases o with
  | none =>
    cases o' with
    | none => rfl
    | some v' =>
      obtain ⟨d, h1, rfl, h2, h3, -⟩ := h'
      exact absurd (h d h1 h2) h3
  | some v =>
    obtain ⟨d, h1, rfl, h2, h3, -, h4⟩ := h
    cases o' with
    | none => exact absurd (h' d h1 h2) h3
    | some v' =>
      obtain ⟨d', h1', rfl, h2', h3', -, h4'⟩ := h'
      by_cases hd : d = d'
      · rw [hd]
      exfalso
      have a1 := h4 d' h1' h2' (Ne.symm hd) h3'
      have a2 := h4' d h1 h2 hd h3
      rw [← cellW_pt hF h1' h1] at a1
      rw [← cellW_pt hF h1 h1'] at a2
      have hv : d.vertices ≠ d'.vertices := fun hx => hd (cell_eq hF h1 h1' hx)
      have k1 := hN.degree_lt (hm d' h1') (hm d h1) (Ne.symm hv) a1
      have k2 := hN.degree_lt (hm d h1) (hm d' h1') hv a2
      omega

theorem full_encloses {A : Arrangement} (hF : Arr.Full A) {c : Cell1} (hc : c ∈ A.cells) :
    ∃ o, dget c.vertices A.containers = .ok o ∧ Encloses A c o := by
  have hN := nested hF.wheel hF.tiling
  have hm : ∀ x ∈ A.cells, x.vertices ∈ (A.cells.map Cell1.vertices).toFinset := fun x hx =>
    List.mem_toFinset.2 (List.mem_map_of_mem hx)
  have hne : ∀ x ∈ A.cells, ∀ y ∈ A.cells, x ≠ y → x.vertices ≠ y.vertices := fun x hx y hy h h' =>
    h (cell_eq hF hx hy h')
  obtain ⟨o, h1, h2, h3⟩ := container_ok hF hc
  refine ⟨o, h1, ?_⟩
  cases o with
  | none =>
    intro b hb hbc
    rw [← cellW_pt hF hb hc]
    exact h2 rfl _ (List.mem_map_of_mem hb) (hne b hb c hc hbc)
  | some v =>
    obtain ⟨k1, k2, k3, k4, k5⟩ := h3 v rfl
    dsimp only at k2 k3 k4 k5
    obtain ⟨d, hd, rfl⟩ := List.mem_map.1 k1
    refine ⟨d, hd, rfl, fun h => k2 (by rw [h]), ?_, k5, ?_⟩
    · rw [← cellW_pt hF hd hc]; exact k3
    · intro b hb hbc hbd hw
      rw [← cellW_pt hF hb hc] at hw
      rw [← cellW_pt hF hb hd]
      exact hN.innermost (hm b hb) (hm d hd) (hm c hc) (hne b hb c hc hbc) (hne b hb d hd hbd) hw k3 k4

/-- C84: the arrangement of the edges of any geoms is built, no assertion fails.  Each cell is positive or negative, has
a point off all edges, and its container is the innermost of the other cells around this point, and the only one; a
negative cell lies in the face of its container. -/
theorem c84_built (ch : Choices) (hch : ch.Valid) (gs : List Geom2D) (hg : ∀ g ∈ gs, Geom2D.Usable g) :
    ∃ A, build ch (gs.flatMap Geom2D.allSegments) = .ok A ∧ (A.cells.map Cell1.vertices).Nodup ∧
      ∀ c ∈ A.cells, (∀ g ∈ gs, ¬ Geom2D.OnEdge g c.point) ∧ shoelace c.vertices ≠ 0 ∧
        (c.negative = true ↔ 0 < shoelace c.vertices) ∧
        ∃ o, dget c.vertices A.containers = .ok o ∧ (∀ o', Encloses A c o' ↔ o' = o) ∧
          (c.negative = true → ∀ d ∈ A.cells, o = some d.vertices →
            ∀ L : List Pt, (∀ e ∈ polyEdges L, ∀ x, OnSeg e x → ∃ g ∈ gs, Geom2D.OnEdge g x) →
              windingNumber L c.point = windingNumber L d.point) := by
  have hm : ∀ g ∈ gs, Geom2D.WellMade g := fun g h => (hg g h).made
  obtain ⟨A, hA, hF⟩ := build_ok hch (loops_geoms gs hm fun g h => (hg g h).cutting)
  obtain ⟨hB, hon⟩ := build_spec ch hch _ (segments_ne gs hm) A hA
  have hon' : ∀ x, OnAny A.net.halfEdges x ↔ ∃ g ∈ gs, Geom2D.OnEdge g x := fun x => (hon x).trans (onAny_flat gs x)
  refine ⟨A, hA, hF.nodup, fun c hc => ?_⟩
  obtain ⟨o, h1, h2⟩ := full_encloses hF hc
  have hsg : shoelace c.vertices ≠ 0 := by
    obtain ⟨e, he, -⟩ := hF.sees c hc
    rcases (cell_ok hF hc).side hF.wheel he with h | h
    · exact h.1.ne
    · exact h.1.ne'
  refine ⟨fun g hg' hx => hB.off c hc ((hon' _).2 ⟨g, hg', hx⟩), hsg, hF.sign c hc, o, h1,
    fun o' => ⟨fun h => encloses_unique hF h h2, fun h => h ▸ h2⟩, ?_⟩
  rintro hn d hd rfl L hL
  have hneg : ¬ cellPos c.vertices := not_lt.2 ((hF.sign c hc).1 hn).le
  exact (container_neg hF hB hc hneg hd h1).1 L fun e he x hx => (hon' x).2 (hL e he x hx)

/-! ### Operations that never raise (C85) -/

theorem pair_fine {a b : Geom2D} (ha : a.Fine) (hb : b.Fine) : ∀ g ∈ [a, b], Geom2D.Fine g := by
  intro g hg
  rcases List.mem_cons.1 hg with rfl | hg
  · exact ha
  · rw [List.mem_singleton.1 hg]; exact hb

/-- C85: for all geoms made by earlier operations `a & b` returns a geom, and it is the intersection. -/
theorem c85_and (ch : Choices) (hch : ch.Valid) (a b : Geom2D) (ha : a.Fine) (hb : b.Fine) :
    ∃ r, Geom2D.and (arrangementOp ch) a b = .ok r ∧ r.Fine ∧
      ∀ p, Geom2D.locate r p = .ok 1 ↔ Geom2D.locate a p = .ok 1 ∧ Geom2D.locate b p = .ok 1 := by
  obtain ⟨r, hr⟩ := choosy_total ch hch [a, b] (fun v => match v with | [x, y] => x && y | _ => false) rfl (by
    intro v w hv hw
    rw [List.length_cons, List.length_singleton] at hv hw
    match v, w, hv, hw with
    | [v1, v2], [w1, w2], _, _ => revert v1 v2 w1 w2; decide) (pair_fine ha hb)
  exact ⟨r, hr, and_fine ch hch ha.usable hb.usable hr, c78_and ch hch ha hb hr⟩

/-- C85: for all geoms made by earlier operations `a - b` returns a geom, and it is the difference. -/
theorem c85_sub (ch : Choices) (hch : ch.Valid) (a b : Geom2D) (ha : a.Fine) (hb : b.Fine) :
    ∃ r, Geom2D.sub (arrangementOp ch) a b = .ok r ∧ r.Fine ∧
      ∀ p, Geom2D.locate r p = .ok 1 ↔ Geom2D.locate a p = .ok 1 ∧ Geom2D.locate b p = .ok (-1) := by
  obtain ⟨r, hr⟩ : ∃ r, Geom2D.sub (arrangementOp ch) a b = .ok r := by
    unfold Geom2D.sub
    split_ifs with h
    · exact ⟨a, rfl⟩
    exact choosy_total ch hch [a, b] _ rfl (by
      intro v w hv hw
      rw [List.length_cons, List.length_singleton] at hv hw
      match v, w, hv, hw with
      | [v1, v2], [w1, w2], _, _ => revert v1 v2 w1 w2; decide) (pair_fine ha hb)
  exact ⟨r, hr, sub_fine ch hch ha hb.usable hr, c78_sub ch hch ha hb hr⟩

/-! ### Examples -/

/-- A frame, and the left half of a ring inside it. -/
def frameLeft : Geom2D :=
  [⟨[(0, 0), (0, 20), (20, 20), (20, 0)], [[(18, 18), (18, 2), (2, 2), (2, 18)]]⟩,
   ⟨[(4, 4), (4, 14), (9, 14), (9, 11), (7, 11), (7, 7), (9, 7), (9, 4)], []⟩]

/-- The right half of the ring, and a square on the inner side of the left half. -/
def rightNub : Geom2D :=
  [⟨[(9, 4), (9, 7), (11, 7), (11, 11), (9, 11), (9, 14), (14, 14), (14, 4)], []⟩,
   ⟨[(7, 8), (7, 10), (8, 10), (8, 8)], []⟩]

theorem frameLeft_fine : frameLeft.Fine := by
  refine fine_of [⟨[(0, 0), (0, 20), (20, 20), (20, 0)], [[(2, 2), (2, 18), (18, 18), (18, 2)]]⟩,
    ⟨[(4, 4), (4, 14), (9, 14), (9, 11), (7, 11), (7, 7), (9, 7), (9, 4)], []⟩] (made_of _ (by decide +kernel))
    (by decide +kernel) ?_
  decide +kernel

theorem rightNub_fine : rightNub.Fine := by
  refine fine_of rightNub (made_of _ (by decide +kernel)) (by decide +kernel) ?_
  decide +kernel

/-- C84: the two geoms touch along edges; one lies in a hole of the other. -/
theorem c84_run : ∃ A, build chDemo ([frameLeft, rightNub].flatMap Geom2D.allSegments) = .ok A ∧
    decide ((A.cells.filter fun c => c.negative).length = 3) = true ∧
    decide ((A.containers.filter fun x => x.2 = none).length = 1) = true := by
  have key : okAnd (build chDemo ([frameLeft, rightNub].flatMap Geom2D.allSegments)) (fun A =>
      decide ((A.cells.filter fun c => c.negative).length = 3) &&
      decide ((A.containers.filter fun x => x.2 = none).length = 1)) = true := by
    decide +kernel
  obtain ⟨A, h1, h2⟩ := ok_of_match key
  rw [Bool.and_eq_true] at h2
  exact ⟨A, h1, h2⟩

/-- C85: in any order of the sets. -/
theorem c85_run (ch : Choices) (hch : ch.Valid) : ∃ r, Geom2D.sub (arrangementOp ch) frameLeft rightNub = .ok r ∧
    Geom2D.locate r (1, 1) = .ok 1 ∧ Geom2D.locate r (10, 5) ≠ .ok 1 := by
  obtain ⟨r, h1, -, h2⟩ := c85_sub ch hch _ _ frameLeft_fine rightNub_fine
  have e : okAnd (Geom2D.locate rightNub (10, 5)) (fun v => decide (v = 1)) = true := by decide +kernel
  refine ⟨r, h1, (h2 _).2 ⟨by decide +kernel, by decide +kernel⟩, fun h => ?_⟩
  obtain ⟨v, v1, v2⟩ := ok_of_match e
  rw [((h2 _).1 h).2] at v1
  cases v1
  exact absurd (of_decide_eq_true v2) (by decide)

/-- `a | b` on the other hand may raise `AssertionError`. -/
theorem c86_or_raises : chDemo.Valid ∧ frameLeft.Fine ∧ rightNub.Fine ∧
    Geom2D.or (arrangementOp chDemo) frameLeft rightNub = .error .assertion := by
  refine ⟨chDemo_valid, frameLeft_fine, rightNub_fine, ?_⟩
  have h : (match Geom2D.or (arrangementOp chDemo) frameLeft rightNub with | .error .assertion => true | _ => false) = true := by
    decide +kernel
  revert h
  generalize Geom2D.or (arrangementOp chDemo) frameLeft rightNub = x
  intro h
  split at h
  · rfl
  · cases h

end Ply
