import Verif.Props.Buffer2D
import Verif.Props.BufferDist

/-! # Runs of `buffer`, of a fresh build and of the clean-up -/

namespace Ply

open Arr MeasureTheory Geom1D

/-- The square roots of 1 and of 2 as gmpy2 rounds them for `buffer_of_size`. -/
def sqDemo : ℚ → ℚ := fun x => if x = 1 then 1 else 41 / 29

theorem sqDemo_root : RootLike sqDemo := by
  constructor <;> (unfold sqDemo; norm_num)

/-- No edge is a point, and edges that go opposite ways are not on one line. -/
def forwardCheck (L : List Pt) : Bool :=
  (polyEdges L).all fun e => decide (e.1 ≠ e.2) && (polyEdges L).all fun e' =>
    decide (cross (dir e) (dir e') ≠ 0) || decide (orient e.1 e.2 e'.1 ≠ 0) ||
    decide (0 < (dir e).1 * (dir e').1 + (dir e).2 * (dir e').2)

theorem forward_of (L : List Pt) (h : forwardCheck L = true) : Forward L := by
  unfold forwardCheck at h
  rw [List.all_eq_true] at h
  have key := fun e he => (Bool.and_eq_true _ _ |>.mp (h e he))
  refine ⟨fun e he => of_decide_eq_true (key e he).1, fun e he e' he' s s' s0 s1 t0 t1 hst k hk => ?_⟩
  have := List.all_eq_true.1 (key e he).2 e' he'
  simp only [Bool.or_eq_true, decide_eq_true_eq] at this
  rcases this with (h1 | h1) | h1
  · exact absurd (by rw [hk]; unfold cross; simp; ring) h1
  · refine absurd ?_ h1
    have e1 : orient e.1 e.2 e'.1 = orient e.1 e.2 (along e' s') - s' * cross (dir e) (dir e') := by
      unfold orient along cross dir; simp; ring
    have e2 : cross (dir e) (dir e') = 0 := by rw [hk]; unfold cross; simp; ring
    rw [e1, ← hst, e2]
    unfold orient along; ring
  · rw [hk] at h1
    simp only [Prod.smul_fst, Prod.smul_snd, smul_eq_mul] at h1
    have : 0 ≤ (dir e).1 * (dir e).1 + (dir e).2 * (dir e).2 := add_nonneg (mul_self_nonneg _) (mul_self_nonneg _)
    by_contra hc
    have := mul_nonpos_of_nonpos_of_nonneg (not_lt.1 hc) this
    linarith

theorem usable_of (g : Geom2D) (hg : g.WellMade)
    (h : (g.all fun s => forwardCheck s.outer && s.holes.all forwardCheck) = true) : g.Usable := by
  refine ⟨hg, fun s hs => ?_⟩
  have := List.all_eq_true.1 h s hs
  rw [Bool.and_eq_true] at this
  exact ⟨(forward_of _ this.1).cuts, fun k hk => (forward_of _ (List.all_eq_true.1 this.2 k hk)).cuts⟩

theorem fine_of (g : Geom2D) {g' : Geom2D} (hg : g.WellMade)
    (h : (g.all fun s => forwardCheck s.outer && s.holes.all forwardCheck) = true)
    (h' : okAnd (Geom2D.and (arrangementOp chDemo) g g) (fun r => decide (r = g')) = true) : g'.Fine := by
  obtain ⟨r, h1, h2⟩ := ok_of_match h'
  rw [← of_decide_eq_true h2]
  exact and_fine chDemo chDemo_valid (usable_of g hg h) (usable_of g hg h) h1

theorem plate_fine : plate.Fine := fine_of plate (made_of _ (by decide +kernel)) (by decide +kernel) (by decide +kernel)

/-- A plate with a thin strip. -/
def thin : Geom2D := [⟨[(0, 0), (0, 8), (10, 8), (10, 1 / 2), (12, 1 / 2), (12, 0)], []⟩]

theorem thin_fine : thin.Fine := fine_of thin (made_of _ (by decide +kernel)) (by decide +kernel) (by decide +kernel)

/-- A frame with a triangle in its hole. -/
def ring : Geom2D := [⟨[(0, 0), (0, 30), (30, 0)], [[(16, 4), (4, 4), (4, 16)]]⟩, ⟨[(6, 6), (6, 10), (10, 6)], []⟩]

theorem ring_fine : ring.Fine :=
  fine_of [⟨[(0, 0), (0, 30), (30, 0)], [[(4, 4), (4, 16), (16, 4)]]⟩, ⟨[(6, 6), (6, 10), (10, 6)], []⟩]
    (made_of _ (by decide +kernel)) (by decide +kernel) (by decide +kernel)

theorem noIslands_of (g : Geom2D) (h : (g.all fun s => s.holes.isEmpty) = true) : g.NoIslands := by
  intro s hs k hk
  have := List.all_eq_true.1 h s hs
  rw [List.isEmpty_iff] at this
  rw [this] at hk
  cases hk

theorem ok_value {α : Type} [DecidableEq α] {x : Except PyErr α} {a : α} (h : okAnd x (fun r => decide (r = a)) = true) :
    x = .ok a := by
  obtain ⟨r, h1, h2⟩ := ok_of_match h
  rw [h1, of_decide_eq_true h2]

/-- C71: `buffer` of the plate by 1 cuts off the corners of the grown plate. -/
theorem c71_run : ∃ b, Geom2D.bufferBy (arrangementOp chDemo) sqDemo plate 1 = .ok b ∧ b.Fine ∧
    Geom2D.locate b (-1, 4) = .ok 0 ∧ Geom2D.locate b (-9 / 10, -9 / 10) = .ok (-1) := by
  have key : okAnd (Geom2D.bufferBy (arrangementOp chDemo) sqDemo plate 1) (fun b =>
      okAnd (Geom2D.locate b (-1, 4)) (fun x => decide (x = 0)) &&
      okAnd (Geom2D.locate b (-9 / 10, -9 / 10)) (fun x => decide (x = -1))) = true := by decide +kernel
  obtain ⟨b, h1, h2⟩ := ok_of_match key
  rw [Bool.and_eq_true] at h2
  exact ⟨b, h1, buffer_fine' chDemo chDemo_valid sqDemo_root plate_fine h1, ok_value h2.1, ok_value h2.2⟩

/-- C72: `buffer` of the plate by -1/2 is a rectangle. -/
theorem c72_run : Geom2D.bufferBy (arrangementOp chDemo) sqDemo plate (-(1 / 2)) =
    .ok [⟨[(1 / 2, 15 / 2), (19 / 2, 15 / 2), (19 / 2, 1 / 2), (1 / 2, 1 / 2)], []⟩] :=
  ok_value (by decide +kernel)

/-- The frame grown by 1: the triangle is gone. -/
def ringGrown : Geom2D := [⟨[(-29 / 41, -29 / 41), (-1, 0), (-1, 30), (-29 / 41, 1259 / 41), (0, 31), (29 / 41, 1259 / 41),
  (1259 / 41, 29 / 41), (31, 0), (1259 / 41, -29 / 41), (30, -1), (0, -1)], [[(5, 557 / 41), (557 / 41, 5), (5, 5)]]⟩]

/-- C73: growing the frame with the triangle in it loses the triangle. -/
theorem c73_run : Geom2D.bufferBy (arrangementOp chDemo) sqDemo ring 1 = .ok ringGrown := ok_value (by decide +kernel)

example : ring.Fine ∧ Geom2D.locate ring (7, 7) = .ok 1 ∧ Geom2D.locate ringGrown (7, 7) = .ok (-1) :=
  ⟨ring_fine, ok_value (by decide +kernel), ok_value (by decide +kernel)⟩

/-- The triangle alone, and grown by 1. -/
def isle : Geom2D := [⟨[(6, 6), (6, 10), (10, 6)], []⟩]
def isleGrown : Geom2D := [⟨[(217 / 41, 217 / 41), (5, 6), (5, 10), (217 / 41, 439 / 41), (6, 11), (275 / 41, 439 / 41),
  (439 / 41, 275 / 41), (11, 6), (439 / 41, 217 / 41), (10, 5), (6, 5)], []⟩]

theorem isle_run : Geom2D.bufferBy (arrangementOp chDemo) sqDemo isle 1 = .ok isleGrown := ok_value (by decide +kernel)

/-- C46: with a polygon in a hole of a face, a fresh build can fail the check. -/
theorem c46_islands : ∃ sb, createSheetbuild (codeOps chDemo sqDemo) plex1 (fun _ => ⟨ring, isle, isle⟩) 1 = .ok sb ∧
    sb.check (codeOps chDemo sqDemo) = .error .assertion := by
  have ok_bind : ∀ {α β : Type} (a : α) (f : α → Except PyErr β), (Except.ok a >>= f) = f a := fun _ _ => rfl
  have a0 : (codeOps chDemo sqDemo).buffer ring 1 = .ok ringGrown := c73_run
  have a1 : (codeOps chDemo sqDemo).buffer isle 1 = .ok isleGrown := isle_run
  have a2 : (codeOps chDemo sqDemo).buffer isle 0 = .ok isle := ok_value (by decide +kernel)
  have a3 : (codeOps chDemo sqDemo).and ring isle = .ok isle := ok_value (by decide +kernel)
  have a4 : (codeOps chDemo sqDemo).and isleGrown isle = .ok isle := ok_value (by decide +kernel)
  have a5 : (codeOps chDemo sqDemo).and ringGrown isleGrown = .ok [] := ok_value (by decide +kernel)
  have a6 : (codeOps chDemo sqDemo).and [] isle = .ok [] := ok_value (by decide +kernel)
  have c : freshChosen (codeOps chDemo sqDemo) ⟨ring, isle, isle⟩ = .ok isle := by
    unfold freshChosen
    dsimp only
    rw [a3, ok_bind, a1, ok_bind, a2, ok_bind, a4]
  have k : freshOk (codeOps chDemo sqDemo) 1 ⟨ring, isle, isle⟩ = .ok [] := by
    unfold freshOk
    dsimp only
    rw [a0, ok_bind, a1, ok_bind, a5, ok_bind, a2, ok_bind, a6]
  have hsh : plex1.sheets = [("s0".toList, ⟨"s0".toList⟩)] := by decide
  have hi : intersides (plex1.intersections.map Prod.snd) none = [] := rfl
  refine ⟨⟨plex1, [("s0".toList, isle)], [("s0".toList, [])], [], []⟩, ?_, ?_⟩
  · unfold createSheetbuild
    rw [hi, hsh]
    simp only [dictOf, c, k, ok_bind]
    rfl
  · have key : (match SheetBuild.check (codeOps chDemo sqDemo) ⟨plex1, [("s0".toList, isle)], [("s0".toList, [])], [], []⟩ with
      | .ok _ => false
      | .error e => decide (e = .assertion)) = true := by decide +kernel
    split at key
    · cases key
    · rename_i e he
      rw [he, of_decide_eq_true key]

/-- The faces of two like sheets, with a thin strip in the middle slices. -/
def geomsT : Name → SheetGeoms Geom2D := fun _ => ⟨plate, plate, thin⟩

theorem geomsT_valid : ValidGeoms Geom2D.Fine geomsT := fun _ => ⟨plate_fine, plate_fine, thin_fine⟩

theorem geomsT_islands (n : Name) : (geomsT n).face0.NoIslands ∧ (geomsT n).face1.NoIslands :=
  ⟨noIslands_of plate (by decide), noIslands_of plate (by decide)⟩

/-- What is allowed: the plate and the part of the strip within 1 of it. -/
def strip : Geom2D := [⟨[(11, 1 / 2), (11, 0), (0, 0), (0, 8), (10, 8), (10, 1 / 2)], []⟩]

theorem strip_chosen : freshChosen (codeOps chDemo sqDemo) ⟨plate, plate, thin⟩ = .ok strip :=
  ok_value (by decide +kernel)

theorem strip_ok : freshOk (codeOps chDemo sqDemo) 1 ⟨plate, plate, thin⟩ = .ok strip :=
  ok_value (by decide +kernel)

/-- The fresh build. -/
def buildF : SheetBuild Geom2D where
  sheetplex := plex2
  sheetChosen := [("s0".toList, plateBack), ("s2".toList, plateBack)]
  sheetOk := [("s0".toList, strip), ("s2".toList, strip)]
  interChosen := [(id0, ⟨[]⟩), (id2, ⟨[]⟩)]
  interOk := [(id0, ivl 0 11), (id2, ivl 0 11)]

theorem ivl_and (a b : ℚ) (h : a < b) : (ivl a b).and (ivl a b) = .ok (ivl a b) := by
  have m := (ivl_valid a b h).1
  obtain ⟨g, h1, h2, h3⟩ := and_denotes m.nf m.nf
  rw [h1]
  congr 1
  exact c03_canonical _ _ ((made_iff_nf _).2 h2) m fun x => by rw [h3, Set.inter_self]

/-- C46: a fresh build of the two sheets.  The part off the joint is chosen, the thin strip is allowed. -/
theorem c46_2d_run : createSheetbuild (codeOps chDemo sqDemo) plex2 geomsT 1 = .ok buildF := by
  have ok_bind : ∀ {α β : Type} (a : α) (f : α → Except PyErr β), (Except.ok a >>= f) = f a := fun _ _ => rfl
  have f1 : dictOf (fun e : Name × Sheet => e.2.id) (fun e => freshChosen (codeOps chDemo sqDemo) (geomsT e.2.id)) plex2.sheets =
      .ok [("s0".toList, strip), ("s2".toList, strip)] := by
    have : plex2.sheets = [("s0".toList, ⟨"s0".toList⟩), ("s2".toList, ⟨"s2".toList⟩)] := by decide
    rw [this]
    simp only [dictOf, geomsT, strip_chosen, ok_bind]
  have f2 : dictOf (fun e : Name × Sheet => e.2.id) (fun e => freshOk (codeOps chDemo sqDemo) 1 (geomsT e.2.id)) plex2.sheets =
      .ok [("s0".toList, strip), ("s2".toList, strip)] := by
    have : plex2.sheets = [("s0".toList, ⟨"s0".toList⟩), ("s2".toList, ⟨"s2".toList⟩)] := by decide
    rw [this]
    simp only [dictOf, geomsT, strip_ok, ok_bind]
  have f3 : intersides (plex2.intersections.map Prod.snd) none = [side2 0, side2 1] := by rfl
  have f4 : dictOf InterSide.id (fun _ => Geom1D.empty) [side2 0, side2 1] = .ok [(id0, ⟨[]⟩), (id2, ⟨[]⟩)] :=
    ok_value (by decide +kernel)
  have f5 : dictOf InterSide.id (freshInterOk (codeOps chDemo sqDemo) geomsT [("s0".toList, strip), ("s2".toList, strip)])
      [side2 0, side2 1] = .ok [(id0, ivl 0 11), (id2, ivl 0 11)] := ok_value (by decide +kernel)
  have f6 : restrictInter plex2 [(id0, ivl 0 11), (id2, ivl 0 11)] [side2 0, side2 1] =
      .ok [(id0, ivl 0 11), (id2, ivl 0 11)] := by
    have g0 : PMap.get [(id0, ivl 0 11), (id2, ivl 0 11)] (side2 0).id = .ok (ivl 0 11) := by rfl
    have g1 : PMap.get [(id0, ivl 0 11), (id2, ivl 0 11)] (side2 1).id = .ok (ivl 0 11) := by rfl
    have o0 : (side2 0).opposite plex2 = .ok (side2 1) := by rfl
    have o1 : (side2 1).opposite plex2 = .ok (side2 0) := by rfl
    have s0 : PMap.set [(id0, ivl 0 11), (id2, ivl 0 11)] (side2 0).id (ivl 0 11) = [(id0, ivl 0 11), (id2, ivl 0 11)] := by rfl
    have s1 : PMap.set [(id0, ivl 0 11), (id2, ivl 0 11)] (side2 1).id (ivl 0 11) = [(id0, ivl 0 11), (id2, ivl 0 11)] := by rfl
    rw [restrictInter, g0, ok_bind, o0, ok_bind, g1, ok_bind, ivl_and 0 11 (by norm_num), ok_bind, s0,
      restrictInter, g1, ok_bind, o1, ok_bind, g0, ok_bind, ivl_and 0 11 (by norm_num), ok_bind, s1, restrictInter]
  have f7 : removeFingers (codeOps chDemo sqDemo) plex2 [("s0".toList, strip), ("s2".toList, strip)]
      [(id0, ivl 0 11), (id2, ivl 0 11)] = .ok [("s0".toList, plateBack), ("s2".toList, plateBack)] :=
    ok_value (by decide +kernel)
  unfold createSheetbuild
  rw [f1, ok_bind, f2, ok_bind, f3]
  dsimp only
  rw [f4, ok_bind, f5, ok_bind, f6, ok_bind, f7]
  rfl

/-- C46: it passes the check. -/
theorem c46_2d_check : buildF.check (codeOps chDemo sqDemo) = .ok () := by
  refine (c46_check_2d chDemo_valid sqDemo_root plex2 plex2_paired plex2_sheeted geomsT geomsT_valid 1 le_rfl
    (fun e _ => geomsT_islands e.2.id) buildF c46_2d_run).2 ⟨?_, ?_⟩
  · have b : okAnd (Geom2D.sub (arrangementOp chDemo) plateBack strip) (fun r => decide (r = [])) = true := by
      decide +kernel
    have hsh : ∀ e ∈ buildF.sheetplex.sheets, (e.2.id = "s0".toList ∨ e.2.id = "s2".toList) := by decide
    intro e he c k hc hk
    refine ⟨[], ?_⟩
    rcases hsh e he with h | h <;> rw [h] at hc hk <;> cases hc <;> cases hk <;> exact ok_value b
  · intro s t hj c v hc hv
    have a : ∀ i < 2, okAnd (do
        let f ← (side2 i).makeFingers (arrangementOp chDemo) (ivl 0 11) 0 1
        Geom2D.and (arrangementOp chDemo) plateBack f) (fun r => decide (r = [])) = true := by decide +kernel
    rcases joint2 s t hj with ⟨rfl, rfl⟩ | ⟨rfl, rfl⟩
    · have hc' : buildF.sheetChosen.get? "s0".toList = some c := hc
      have hv' : buildF.interOk.get? id2 = some v := hv
      cases hc'; cases hv'
      obtain ⟨f, f1, f2⟩ := (bind_ok _ _ _).1 (ok_value (a 0 (by norm_num)))
      exact ⟨f, [], f1, f2⟩
    · have hc' : buildF.sheetChosen.get? "s2".toList = some c := hc
      have hv' : buildF.interOk.get? id0 = some v := hv
      cases hc'; cases hv'
      obtain ⟨f, f1, f2⟩ := (bind_ok _ _ _).1 (ok_value (a 1 (by norm_num)))
      exact ⟨f, [], f1, f2⟩

/-- C52: the clean-up of the fresh build takes the strip away. -/
theorem c52_clean_run : ∃ sb', Heu.cleanUp (codeOps chDemo sqDemo) buildF = .ok sb' ∧ Good Geom2D.Fine sb' ∧
    ∃ k, sb'.sheetOk.get? "s0".toList = some k ∧ Geom2D.locate strip (21 / 2, 1 / 4) = .ok 1 ∧
      Geom2D.locate k (21 / 2, 1 / 4) = .ok (-1) ∧ Geom2D.locate k (5, 1) = .ok 1 := by
  have ok_bind : ∀ {α β : Type} (a : α) (f : α → Except PyErr β), (Except.ok a >>= f) = f a := fun _ _ => rfl
  have key : okAnd (do
      let b1 ← Geom2D.bufferBy (arrangementOp chDemo) sqDemo strip (-(1 / 2))
      let b2 ← Geom2D.bufferBy (arrangementOp chDemo) sqDemo b1 (1 / 2)
      Geom2D.or (arrangementOp chDemo) b2 plateBack) (fun r => okAnd (Geom2D.locate r (21 / 2, 1 / 4)) fun x =>
        okAnd (Geom2D.locate r (5, 1)) fun y => decide (x = -1 ∧ y = 1)) = true := by decide +kernel
  obtain ⟨r, h, hl⟩ := ok_of_match key
  obtain ⟨b1, h1, h⟩ := (bind_ok _ _ _).1 h
  obtain ⟨b2, h2, h⟩ := (bind_ok _ _ _).1 h
  obtain ⟨x, x1, hl⟩ := ok_of_match hl
  obtain ⟨y, y1, hl⟩ := ok_of_match hl
  obtain ⟨rfl, rfl⟩ := of_decide_eq_true hl
  have h3 : okAnd (Geom2D.locate strip (21 / 2, 1 / 4)) (fun x => decide (x = 1)) = true := by decide +kernel
  have hrun : Heu.cleanUp (codeOps chDemo sqDemo) buildF = .ok { buildF with sheetOk := [("s0".toList, r), ("s2".toList, r)] } := by
    have e : buildF.sheetplex.sheets = [("s0".toList, ⟨"s0".toList⟩), ("s2".toList, ⟨"s2".toList⟩)] := by decide
    have c0 : buildF.sheetChosen.get "s0".toList = .ok plateBack := by rfl
    have c2 : buildF.sheetChosen.get "s2".toList = .ok plateBack := by rfl
    have k0 : buildF.sheetOk.get "s0".toList = .ok strip := by rfl
    have k2 : buildF.sheetOk.get "s2".toList = .ok strip := by rfl
    have h1' : (codeOps chDemo sqDemo).buffer strip (-(1 / 2)) = .ok b1 := h1
    have h2' : (codeOps chDemo sqDemo).buffer b1 (1 / 2) = .ok b2 := h2
    have h' : (codeOps chDemo sqDemo).or b2 plateBack = .ok r := h
    unfold Heu.cleanUp
    rw [e]
    simp only [Heu.cleanLoop, c0, c2, k0, k2, h1', h2', h', ok_bind]
    rfl
  obtain ⟨-, w1, -, -⟩ := c46_2d chDemo_valid sqDemo_root plex2 plex2_paired plex2_sheeted geomsT geomsT_valid 1 buildF c46_2d_run
  obtain ⟨-, -, w2, -⟩ := c46_2d chDemo_valid sqDemo_root plex2 plex2_paired plex2_sheeted geomsT geomsT_valid 1 buildF c46_2d_run
  exact ⟨_, hrun, (c52_clean_2d chDemo_valid sqDemo_root buildF _ w2 hrun).2.1, r, rfl, ok_value h3, x1, y1⟩

end Ply
