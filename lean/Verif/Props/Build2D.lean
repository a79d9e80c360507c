import Verif.Props.Area2D

/-! # A run of the sheet build on squares -/

namespace Ply

open Arr MeasureTheory Geom1D

/-- A plate, and the part of it off the joint. -/
def plate : Geom2D := [⟨[(0, 0), (0, 8), (10, 8), (10, 0)], []⟩]
def plateBack : Geom2D := [⟨[(0, 3), (0, 8), (10, 8), (10, 3)], []⟩]

theorem made_of (g : Geom2D) (h : (g.all fun s => okAnd (SPWH.mk' s.outer s.holes) fun r => decide (r = s)) = true) :
    g.WellMade := by
  intro s hs
  obtain ⟨r, h1, h2⟩ := ok_of_match (List.all_eq_true.1 h s hs)
  rw [h1, of_decide_eq_true h2]

theorem proper_of_and (g : Geom2D) (hg : g.WellMade)
    (h : okAnd (Geom2D.and (arrangementOp chDemo) g g) (fun r => decide (r = g)) = true) : g.Proper := by
  obtain ⟨r, h1, h2⟩ := ok_of_match h
  rw [← of_decide_eq_true h2]
  exact arrangementOp_proper chDemo chDemo_valid [g, g] _ r (by rfl) (pair_wellMade hg hg) h1

theorem plate_proper : plate.Proper ∧ plateBack.Proper :=
  ⟨proper_of_and _ (made_of _ (by decide +kernel)) (by decide +kernel),
    proper_of_and _ (made_of _ (by decide +kernel)) (by decide +kernel)⟩

/-- The part off the joint chosen, the joint undecided. -/
def buildP : SheetBuild Geom2D where
  sheetplex := plex2
  sheetChosen := [("s0".toList, plateBack), ("s2".toList, plateBack)]
  sheetOk := [("s0".toList, plate), ("s2".toList, plate)]
  interChosen := [(id0, ⟨[]⟩), (id2, ⟨[]⟩)]
  interOk := [(id0, ivl 0 10), (id2, ivl 0 10)]

theorem buildP_good : Good Geom2D.Proper buildP where
  paired := plex2_paired
  madeC := build2_good.madeC
  madeO := build2_good.madeO
  validC k g h := by
    have := PMap.mem_of_get? _ _ _ h
    simp only [buildP, List.mem_cons, List.not_mem_nil, or_false, Prod.mk.injEq] at this
    rcases this with ⟨_, rfl⟩ | ⟨_, rfl⟩ <;> exact plate_proper.2
  validO k g h := by
    have := PMap.mem_of_get? _ _ _ h
    simp only [buildP, List.mem_cons, List.not_mem_nil, or_false, Prod.mk.injEq] at this
    rcases this with ⟨_, rfl⟩ | ⟨_, rfl⟩ <;> exact plate_proper.1

theorem buildP_full : Full buildP where
  ok := build2_full.ok
  chosen := build2_full.chosen
  sheetOk id s h := by
    rcases plex2_sides id s h with ⟨rfl, rfl⟩ | ⟨rfl, rfl⟩ <;> exact ⟨_, rfl⟩
  sheetChosen id s h := by
    rcases plex2_sides id s h with ⟨rfl, rfl⟩ | ⟨rfl, rfl⟩ <;> exact ⟨_, rfl⟩

/-- The operations; no buffer is called. -/
def noBuffer : Geom2D → ℚ → Except PyErr Geom2D := fun _ _ => .error (.other 0)

abbrev opsP : G2Ops Geom2D := geom2dOps (arrangementOp chDemo) noBuffer

theorem apart_of (a b : Geom2D) (ha : a.Proper) (hb : b.Proper)
    (h : okAnd (Geom2D.and (arrangementOp chDemo) a b) (fun r => decide (r = [])) = true) :
    volume (a.region ∩ b.region) = 0 := by
  obtain ⟨r, h1, h2⟩ := ok_of_match h
  rw [of_decide_eq_true h2] at h1
  obtain ⟨_, h3⟩ := operators_region chDemo chDemo_valid a b [] ha hb And (Or.inr (Or.inl ⟨h1, rfl⟩))
  refine (c70_area (arrangementOp chDemo) noBuffer).null _ ?_
  filter_upwards [h3] with z hz hc
  exact region_empty z (hz.2 hc)

theorem within_of (a b : Geom2D) (ha : a.Proper) (hb : b.Proper)
    (h : okAnd (Geom2D.sub (arrangementOp chDemo) a b) (fun r => decide (r = [])) = true) :
    volume (a.region \ b.region) = 0 := by
  obtain ⟨r, h1, h2⟩ := ok_of_match h
  rw [of_decide_eq_true h2] at h1
  obtain ⟨_, h3⟩ := operators_region chDemo chDemo_valid a b [] ha hb _ (Or.inr (Or.inr ⟨h1, rfl⟩))
  refine (c70_area (arrangementOp chDemo) noBuffer).null _ ?_
  filter_upwards [h3] with z hz hc
  exact region_empty z (hz.2 hc)

/-- The calls for giving the joint from 0 to 4 to `s0` go through. -/
theorem buildP_calls : ChooseCalls opsP buildP (side2 0) (side2 1) (ivl 0 4) false := by
  have k1 : okAnd (do
      let F ← (side2 1).makeFingers (arrangementOp chDemo) (ivl 0 4) 0 1
      let b ← Geom2D.and (arrangementOp chDemo) F plateBack
      let d ← Geom2D.sub (arrangementOp chDemo) plate F
      .ok (F, b, d)) (fun _ => true) = true := by decide +kernel
  have k2 : okAnd (do
      let f ← (side2 0).makeFingers (arrangementOp chDemo) (ivl 0 4) 0 1
      let fk ← Geom2D.and (arrangementOp chDemo) f plate
      let u ← Geom2D.or (arrangementOp chDemo) plateBack fk
      .ok (f, fk, u)) (fun _ => true) = true := by decide +kernel
  constructor
  · obtain ⟨q, h, -⟩ := ok_of_match k1
    obtain ⟨F, h1, h⟩ := (bind_ok _ _ _).1 h
    obtain ⟨b, h2, h⟩ := (bind_ok _ _ _).1 h
    obtain ⟨d, h3, h⟩ := (bind_ok _ _ _).1 h
    exact ⟨F, plateBack, plate, h1, rfl, rfl, ⟨b, h2⟩, d, h3⟩
  · intro _
    obtain ⟨q, h, -⟩ := ok_of_match k2
    obtain ⟨f, h1, h⟩ := (bind_ok _ _ _).1 h
    obtain ⟨fk, h2, h⟩ := (bind_ok _ _ _).1 h
    obtain ⟨u, h3, h⟩ := (bind_ok _ _ _).1 h
    exact ⟨f, plateBack, plate, fk, h1, rfl, rfl, h2, u, h3⟩

theorem buildP_fingers (i : ℕ) (hi : i < 2) (F : Geom2D)
    (h : (side2 i).makeFingers (arrangementOp chDemo) (ivl 0 4) 0 1 = .ok F) :
    F.Proper ∧ okAnd (Geom2D.and (arrangementOp chDemo) F plateBack) (fun r => decide (r = [])) = true := by
  refine ⟨makeFingers_proper chDemo chDemo_valid _ _ 0 1 F h, ?_⟩
  have key : ∀ i < 2, okAnd ((side2 i).makeFingers (arrangementOp chDemo) (ivl 0 4) 0 1)
      (fun F => okAnd (Geom2D.and (arrangementOp chDemo) F plateBack) (fun r => decide (r = []))) = true := by
    decide +kernel
  have := key i hi
  rw [h] at this
  exact this

/-- C62: the choice is accepted. -/
theorem c62_2d_run : ∃ sb', buildP.chooseInterside opsP id0 (ivl 0 4) false = .ok sb' := by
  refine (c62_2d chDemo noBuffer chDemo_valid buildP buildP_good buildP_full id0 (side2 0) (side2 1) rfl rfl
    (ivl 0 4) (ivl_valid 0 4 (by norm_num)).1 false).2 ⟨?_, ?_, buildP_calls⟩
  · have : pts buildP.interOk id0 = pointsOf (ivl 0 10).intervals := rfl
    rw [this, ivl_points, ivl_points, Set.sdiff_eq_empty.2 (by
      rintro x ⟨a, b⟩
      push_cast at a b ⊢
      exact ⟨a, by linarith⟩), measure_empty]
    exact tol6_pos
  · intro F hF
    obtain ⟨h1, h2⟩ := buildP_fingers 1 (by norm_num) F hF
    have : dens Geom2D.region buildP.sheetChosen (side2 1).sheet = plateBack.region := rfl
    rw [this, apart_of F plateBack h1 plate_proper.2 h2]
    exact tol6_pos

/-- C44, C45: a run of one choice meets the hypotheses, and `s0` gains exactly the fingers. -/
theorem c44_2d_run : ∃ sb', runOps opsP [.choose id0 (ivl 0 4) false] buildP = .ok sb' ∧
    Good Geom2D.Proper sb' ∧
    volume (dens Geom2D.region sb'.sheetChosen "s0".toList \ dens Geom2D.region sb'.sheetOk "s0".toList) ≤
      ENNReal.ofReal (tol6 : ℝ) ∧
    ∃ c, sb'.sheetChosen.get? "s0".toList = some c ∧ Geom2D.area c = .ok 62 := by
  obtain ⟨sb', h⟩ := c62_2d_run
  have v04 := (ivl_valid 0 4 (by norm_num)).1
  have hr : runOps opsP [.choose id0 (ivl 0 4) false] buildP = .ok sb' := by
    have : SbOp.run opsP buildP (.choose id0 (ivl 0 4) false) = .ok sb' := h
    rw [runOps, this]
    rfl
  have hm : ∀ op ∈ [(SbOp.choose id0 (ivl 0 4) false : SbOp Geom2D)], op.Made1 ∧ op.Valid2 Geom2D.Proper := by
    intro op hop
    rw [List.mem_singleton] at hop
    subst hop
    exact ⟨v04, v04⟩
  refine ⟨sb', hr, (c44_2d chDemo noBuffer chDemo_valid buildP sb' buildP_good _ (fun op h => (hm op h).1)
    (fun op h => (hm op h).2) hr).1, ?_, ?_⟩
  · refine le_trans (c45_2d chDemo noBuffer chDemo_valid buildP sb' buildP_good _ (fun op h => (hm op h).1)
      (fun op h => (hm op h).2) hr _) ?_
    have e : volume (dens Geom2D.region buildP.sheetChosen "s0".toList \
        dens Geom2D.region buildP.sheetOk "s0".toList) = 0 :=
      within_of plateBack plate plate_proper.2 plate_proper.1 (by decide +kernel)
    rw [e]
    simp [nChoose, nAreas]
  · obtain ⟨s, t, ef⟩ := choose_effect opsP buildP sb' buildP_good.madeC buildP_good.madeO id0 (ivl 0 4) v04 false h
    have e1 := ef.here
    have e1' : buildP.sheetplex.interside id0 = .ok (side2 0) := rfl
    rw [e1'] at e1
    cases e1
    rcases ef.sheetChosen with ⟨h', _⟩ | ⟨f, k, fk, g1, g2, g3, g4⟩
    · cases h'
    obtain ⟨⟨w, u, hw, hu, hk⟩, _⟩ := c57_or_geom _ _ _ _ _ _ g4
    have e3 : buildP.sheetOk.get? (side2 0).sheet = some plate := rfl
    rw [e3] at g2
    cases g2
    have e4 : buildP.sheetChosen.get? (side2 0).sheet = some plateBack := rfl
    rw [e4] at hw
    have ew : w = plateBack := by
      rcases hw with hw | ⟨hw, _⟩
      · cases hw; rfl
      · cases hw
    subst ew
    have key : okAnd ((side2 0).makeFingers (arrangementOp chDemo) (ivl 0 4) 0 1) (fun f =>
        okAnd (Geom2D.and (arrangementOp chDemo) f plate) fun fk =>
        okAnd (Geom2D.or (arrangementOp chDemo) plateBack fk) fun u =>
        okAnd (Geom2D.area u) fun q => decide (q = 62)) = true := by decide +kernel
    have g1' : (side2 0).makeFingers (arrangementOp chDemo) (ivl 0 4) 0 1 = .ok f := g1
    have g3' : Geom2D.and (arrangementOp chDemo) f plate = .ok fk := g3
    have hu' : Geom2D.or (arrangementOp chDemo) plateBack fk = .ok u := hu
    rw [g1'] at key
    unfold okAnd at key
    dsimp only at key
    rw [g3'] at key
    dsimp only at key
    rw [hu'] at key
    dsimp only at key
    obtain ⟨q, q1, q2⟩ := ok_of_match (x := Geom2D.area u) (f := fun q => decide (q = 62)) key
    rw [of_decide_eq_true q2] at q1
    exact ⟨u, hk, q1⟩

/-- The joint decided: 0 to 4 for `s0`, the rest for `s2`. -/
def plate0 : Geom2D := [⟨[(0, 0), (0, 8), (10, 8), (10, 3), (4, 3), (4, 0)], []⟩]
def plate2 : Geom2D := [⟨[(0, 3), (0, 8), (10, 8), (10, 0), (4, 0), (4, 3)], []⟩]

def buildQ : SheetBuild Geom2D where
  sheetplex := plex2
  sheetChosen := [("s0".toList, plate0), ("s2".toList, plate2)]
  sheetOk := [("s0".toList, plate0), ("s2".toList, plate2)]
  interChosen := [(id0, ivl 0 4), (id2, ivl 4 10)]
  interOk := [(id0, ivl 0 4), (id2, ivl 4 10)]

theorem plateQ_proper : plate0.Proper ∧ plate2.Proper :=
  ⟨proper_of_and _ (made_of _ (by decide +kernel)) (by decide +kernel),
    proper_of_and _ (made_of _ (by decide +kernel)) (by decide +kernel)⟩

theorem buildQ_good : Good Geom2D.Proper buildQ where
  paired := plex2_paired
  madeC := build4_good.madeC
  madeO := build4_good.madeO
  validC k g h := by
    have := PMap.mem_of_get? _ _ _ h
    simp only [buildQ, List.mem_cons, List.not_mem_nil, or_false, Prod.mk.injEq] at this
    rcases this with ⟨_, rfl⟩ | ⟨_, rfl⟩
    · exact plateQ_proper.1
    · exact plateQ_proper.2
  validO k g h := by
    have := PMap.mem_of_get? _ _ _ h
    simp only [buildQ, List.mem_cons, List.not_mem_nil, or_false, Prod.mk.injEq] at this
    rcases this with ⟨_, rfl⟩ | ⟨_, rfl⟩
    · exact plateQ_proper.1
    · exact plateQ_proper.2

theorem buildQ_full : Full buildQ where
  ok := build4_full.ok
  chosen := build4_full.chosen
  sheetOk id s h := by
    rcases plex2_sides id s h with ⟨rfl, rfl⟩ | ⟨rfl, rfl⟩ <;> exact ⟨_, rfl⟩
  sheetChosen id s h := by
    rcases plex2_sides id s h with ⟨rfl, rfl⟩ | ⟨rfl, rfl⟩ <;> exact ⟨_, rfl⟩

theorem joint2 (s t : InterSide) (h : Joint plex2 s t) :
    (s = side2 0 ∧ t = side2 1) ∨ (s = side2 1 ∧ t = side2 0) := by
  obtain ⟨h1, h2⟩ := h
  rcases plex2_sides _ _ h1 with ⟨_, rfl⟩ | ⟨_, rfl⟩
  · have : (side2 0).opposite plex2 = .ok (side2 1) := rfl
    rw [this] at h2
    cases h2
    exact Or.inl ⟨rfl, rfl⟩
  · have : (side2 1).opposite plex2 = .ok (side2 0) := rfl
    rw [this] at h2
    cases h2
    exact Or.inr ⟨rfl, rfl⟩

/-- C63: this build passes the check. -/
theorem c63_2d_run : buildQ.check opsP = .ok () := by
  have a1 : okAnd (do
      let f ← (side2 0).makeFingers (arrangementOp chDemo) (ivl 4 10) 0 1
      Geom2D.and (arrangementOp chDemo) plate0 f) (fun r => decide (r = [])) = true := by decide +kernel
  have a2 : okAnd (do
      let f ← (side2 1).makeFingers (arrangementOp chDemo) (ivl 0 4) 0 1
      Geom2D.and (arrangementOp chDemo) plate2 f) (fun r => decide (r = [])) = true := by decide +kernel
  have b1 : okAnd (Geom2D.sub (arrangementOp chDemo) plate0 plate0) (fun r => decide (r = [])) = true := by
    decide +kernel
  have b2 : okAnd (Geom2D.sub (arrangementOp chDemo) plate2 plate2) (fun r => decide (r = [])) = true := by
    decide +kernel
  have hsh : ∀ e ∈ buildQ.sheetplex.sheets, (e.2.id = "s0".toList ∨ e.2.id = "s2".toList) := by decide
  have c0 : buildQ.sheetChosen.get? "s0".toList = some plate0 := rfl
  have c2 : buildQ.sheetChosen.get? "s2".toList = some plate2 := rfl
  have k0 : buildQ.sheetOk.get? "s0".toList = some plate0 := rfl
  have k2 : buildQ.sheetOk.get? "s2".toList = some plate2 := rfl
  have o1 : buildQ.interOk.get? (side2 1).id = some (ivl 4 10) := rfl
  have o0 : buildQ.interOk.get? (side2 0).id = some (ivl 0 4) := rfl
  have t7 : (0 : ENNReal) < ENNReal.ofReal (tol7 : ℝ) := by rw [ENNReal.ofReal_pos]; unfold tol7; norm_num
  have t3 : (0 : ENNReal) < ENNReal.ofReal (tol3 : ℝ) := by rw [ENNReal.ofReal_pos]; unfold tol3; norm_num
  obtain ⟨r1, e1, z1⟩ := ok_of_match a1
  obtain ⟨f1, e1, e1'⟩ := (bind_ok _ _ _).1 e1
  obtain ⟨r2, e2, z2⟩ := ok_of_match a2
  obtain ⟨f2, e2, e2'⟩ := (bind_ok _ _ _).1 e2
  have pf1 := makeFingers_proper chDemo chDemo_valid _ _ 0 1 f1 e1
  have pf2 := makeFingers_proper chDemo chDemo_valid _ _ 0 1 f2 e2
  refine (c63_2d chDemo noBuffer chDemo_valid buildQ buildQ_good buildQ_full ?_).2 ⟨⟨?_, ?_⟩, ?_, ?_⟩
  · intro e he
    rcases hsh e he with h | h <;> rw [h]
    · exact ⟨⟨_, c0⟩, _, k0⟩
    · exact ⟨⟨_, c2⟩, _, k2⟩
  · intro e he c k hc hk
    rcases hsh e he with h | h <;> rw [h] at hc hk
    · rw [c0] at hc; rw [k0] at hk; cases hc; cases hk
      obtain ⟨r, h1, _⟩ := ok_of_match b1
      exact ⟨r, h1⟩
    · rw [c2] at hc; rw [k2] at hk; cases hc; cases hk
      obtain ⟨r, h1, _⟩ := ok_of_match b2
      exact ⟨r, h1⟩
  · intro s t hj c v hc hv
    rcases joint2 s t hj with ⟨rfl, rfl⟩ | ⟨rfl, rfl⟩
    · have hc' : buildQ.sheetChosen.get? "s0".toList = some c := hc
      rw [c0] at hc'; rw [o1] at hv; cases hc'; cases hv
      exact ⟨f1, r1, e1, e1'⟩
    · have hc' : buildQ.sheetChosen.get? "s2".toList = some c := hc
      rw [c2] at hc'; rw [o0] at hv; cases hc'; cases hv
      exact ⟨f2, r2, e2, e2'⟩
  · intro e he
    have : ∀ S : Set (ℝ × ℝ), volume (S \ S) < ENNReal.ofReal (tol7 : ℝ) := by
      intro S
      rw [Set.sdiff_self, measure_empty]
      exact t7
    rcases hsh e he with h | h <;> rw [h]
    · exact this plate0.region
    · exact this plate2.region
  · intro s t hj
    have p1 : pts buildQ.interOk (side2 1).id = pointsOf (ivl 4 10).intervals := rfl
    have p0 : pts buildQ.interOk (side2 0).id = pointsOf (ivl 0 4).intervals := rfl
    have q1 : pts buildQ.interChosen (side2 1).id = pointsOf (ivl 4 10).intervals := rfl
    have q0 : pts buildQ.interChosen (side2 0).id = pointsOf (ivl 0 4).intervals := rfl
    have disj : pointsOf (ivl 0 4).intervals ∩ pointsOf (ivl 4 10).intervals = ∅ := by
      rw [ivl_points, ivl_points, Set.eq_empty_iff_forall_notMem]
      rintro x ⟨⟨_, h1⟩, h2, _⟩
      exact absurd h1 (not_lt.2 h2)
    rcases joint2 s t hj with ⟨rfl, rfl⟩ | ⟨rfl, rfl⟩
    · refine ⟨by rw [q0, p0, Set.sdiff_self, measure_empty]; exact t7, by rw [q0, p1, disj], ?_⟩
      intro v f hv hf
      rw [o1] at hv; cases hv
      rw [e1] at hf; cases hf
      have : dens Geom2D.region buildQ.sheetChosen (side2 0).sheet = plate0.region := rfl
      rw [this, apart_of plate0 f1 plateQ_proper.1 pf1 (by unfold okAnd; rw [e1']; exact z1)]
      exact t3
    · refine ⟨by rw [q1, p1, Set.sdiff_self, measure_empty]; exact t7, by rw [q1, p0, Set.inter_comm, disj], ?_⟩
      intro v f hv hf
      rw [o0] at hv; cases hv
      rw [e2] at hf; cases hf
      have : dens Geom2D.region buildQ.sheetChosen (side2 1).sheet = plate2.region := rfl
      rw [this, apart_of plate2 f2 plateQ_proper.2 pf2 (by unfold okAnd; rw [e2']; exact z2)]
      exact t3

/-- A plate and a loose square. -/
def plateLoose : Geom2D := plate ++ [⟨[(20, 0), (20, 1), (21, 1), (21, 0)], []⟩]

theorem plateLoose_proper : plateLoose.Proper :=
  proper_of_and _ (made_of _ (by decide +kernel)) (by decide +kernel)

/-- The loose square is allowed on `s0`. -/
def buildL : SheetBuild Geom2D := { buildP with sheetOk := [("s0".toList, plateLoose), ("s2".toList, plate)] }

theorem buildL_good : Good Geom2D.Proper buildL where
  paired := plex2_paired
  madeC := buildP_good.madeC
  madeO := buildP_good.madeO
  validC := buildP_good.validC
  validO k g h := by
    have := PMap.mem_of_get? _ _ _ h
    simp only [buildL, List.mem_cons, List.not_mem_nil, or_false, Prod.mk.injEq] at this
    rcases this with ⟨_, rfl⟩ | ⟨_, rfl⟩
    · exact plateLoose_proper
    · exact plate_proper.1

/-- C52: `remove_loose` takes the loose square away: of the area 81 there remains 80. -/
theorem c52_2d_run : ∃ sb', Heu.looseSheet opsP (fun _ => ⟨plate, plate, plate⟩) buildL ("s0".toList, ⟨"s0".toList⟩) =
    .ok sb' ∧ ∃ g, sb'.sheetOk.get? "s0".toList = some g ∧ Geom2D.area g = .ok 80 ∧
    Geom2D.area plateLoose = .ok 81 ∧
    Shrunk (ae (volume : Measure (ℝ × ℝ))) Geom2D.Proper Geom2D.region buildL sb' := by
  have key : okAnd (Heu.looseSheet opsP (fun _ => ⟨plate, plate, plate⟩) buildL ("s0".toList, ⟨"s0".toList⟩)) (fun sb' =>
      okAnd (sb'.sheetOk.get "s0".toList) fun g => okAnd (Geom2D.area g) fun q => decide (q = 80)) = true := by
    decide +kernel
  obtain ⟨sb', h1, h⟩ := ok_of_match key
  obtain ⟨g, h2, h⟩ := ok_of_match h
  obtain ⟨q, h3, h⟩ := ok_of_match h
  rw [of_decide_eq_true h] at h3
  have area : okAnd (Geom2D.area plateLoose) (fun q => decide (q = 81)) = true := by decide +kernel
  obtain ⟨a, a1, a2⟩ := ok_of_match area
  rw [of_decide_eq_true a2] at a1
  exact ⟨sb', h1, g, (PMap.get_ok _ _ _).1 h2, h3, a1,
    (c52_loose_2d chDemo noBuffer chDemo_valid (fun _ => ⟨plate, plate, plate⟩)
      (fun _ => ⟨plate_proper.1, plate_proper.1, plate_proper.1⟩) _ buildL sb' buildL_good h1).1⟩

/-- C37: fingers on two stretches, and back. -/
theorem c37_2d_run : ∃ r, (side2 0).makeFingers (arrangementOp chDemo) ⟨[(Ext.fin 0, Ext.fin 1), (Ext.fin 2, Ext.fin 4)]⟩ 0 1 =
    .ok r ∧ decide (r.length = 2) = true ∧ r.Proper := by
  have key : okAnd ((side2 0).makeFingers (arrangementOp chDemo) ⟨[(Ext.fin 0, Ext.fin 1), (Ext.fin 2, Ext.fin 4)]⟩ 0 1)
      (fun r => decide (r.length = 2)) = true := by decide +kernel
  obtain ⟨r, h1, h2⟩ := ok_of_match key
  exact ⟨r, h1, h2, makeFingers_proper chDemo chDemo_valid _ _ 0 1 r h1⟩

end Ply
