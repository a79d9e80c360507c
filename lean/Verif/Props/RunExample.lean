import Verif.Props.Run

/-! # A run that succeeds

Two sheets with one joint, where every 2D operation gives the same geom and the whole joint is allowed. -/

namespace Ply.Canned

open MeasureTheory Geom1D SheetBuild Heu

/-- 2D operations on a single geom. -/
def unitOps : G2Ops Unit where
  empty := ()
  or _ _ := .ok ()
  and _ _ := .ok ()
  sub _ _ := .ok ()
  isEmpty _ := false
  area _ := .ok 0
  buffer _ _ := .ok ()
  polygons _ := [()]
  fingers _ _ := .ok ()
  project _ _ := .ok (ivl 0 10)

/-- The build with the given stretches on the joint. -/
def mkU (c0 c2 k0 k2 : Geom1D) : SheetBuild Unit where
  sheetplex := plex2
  sheetChosen := [("s0".toList, ()), ("s2".toList, ())]
  sheetOk := [("s0".toList, ()), ("s2".toList, ())]
  interChosen := [(id0, c0), (id2, c2)]
  interOk := [(id0, k0), (id2, k2)]

/-- The whole joint. -/
abbrev W : Geom1D := ivl 0 10

/-- Nothing. -/
abbrev E : Geom1D := ⟨[]⟩

theorem W_made : Made W := (ivl_valid 0 10 (by norm_num)).1

theorem E_made : Made E := none_valid.1

theorem E_points : pointsOf E.intervals = ∅ := pointsOf_nil

theorem eq_of {r : Except PyErr Geom1D} {g : Geom1D} (hg : Made g) {S : Set ℝ}
    (h : ∃ c, r = .ok c ∧ NormalForm c.intervals ∧ pointsOf c.intervals = S) (hS : S = pointsOf g.intervals) :
    r = .ok g := by
  obtain ⟨c, h1, h2, h3⟩ := h
  rw [h1, c03_canonical c g ((made_iff_nf _).2 h2) hg fun x => by rw [h3, hS]]

theorem sub_none {g : Geom1D} (hg : Made g) : g.sub E = .ok g :=
  eq_of hg (sub_denotes hg.nf E_made.nf) (by rw [E_points, Set.sdiff_empty])

theorem sub_same {g : Geom1D} (hg : Made g) : g.sub g = .ok E :=
  eq_of E_made (sub_denotes hg.nf hg.nf) (by rw [E_points, Set.sdiff_self])

theorem none_sub {g : Geom1D} (hg : Made g) : Geom1D.sub E g = .ok E :=
  eq_of E_made (sub_denotes E_made.nf hg.nf) (by rw [E_points, Set.empty_sdiff])

theorem and_same {g : Geom1D} (hg : Made g) : g.and g = .ok g :=
  eq_of hg (and_denotes hg.nf hg.nf) (by rw [Set.inter_self])

theorem none_and {g : Geom1D} (hg : Made g) : Geom1D.and E g = .ok E :=
  eq_of E_made (and_denotes E_made.nf hg.nf) (by rw [E_points, Set.empty_inter])

theorem none_or {g : Geom1D} (hg : Made g) : Geom1D.or E g = .ok g :=
  eq_of hg (or_denotes E_made.nf hg.nf) (by rw [E_points, Set.empty_union])

theorem or_same {g : Geom1D} (hg : Made g) : g.or g = .ok g :=
  eq_of hg (or_denotes hg.nf hg.nf) (by rw [Set.union_self])

theorem none_buffer (r : ℚ) : Geom1D.buffer E (.mpq r) = .ok E := by
  obtain ⟨c, h1, h2, h3, h4⟩ := buffer_mpq E E_made r
  rw [h1, c03_canonical c E h2 E_made fun x => ?_]
  rw [E_points, Set.mem_empty_iff_false, iff_false]
  intro hx
  rcases le_total 0 r with hr | hr
  · rw [h3 hr, E_points] at hx
    obtain ⟨y, hy, _⟩ := hx
    exact hy
  · rw [h4 hr, E_points] at hx
    have := hx x (by simp; exact_mod_cast hr)
    exact this

theorem choose0 (c0 c2 k0 k2 v c k : Geom1D) (hk : Made k0) (hv : Made v)
    (hin : pointsOf v.intervals ⊆ pointsOf k0.intervals) (hc : c0.or v = .ok c) (hk2 : k2.sub v = .ok k) :
    (mkU c0 c2 k0 k2).chooseInterside unitOps id0 v false = .ok (mkU c c2 k0 k) := by
  obtain ⟨n, n1, n2, n3⟩ := invert_denotes hk.nf
  obtain ⟨w, w1, w2, w3⟩ := and_denotes n2 hv.nf
  have hm : measureLt w.measure1d tol6 = true := by
    rw [measureLt_iff ((made_iff_nf _).2 w2), w3, n3]
    have : (pointsOf k0.intervals)ᶜ ∩ pointsOf v.intervals = ∅ :=
      Set.eq_empty_iff_forall_notMem.2 fun x hx => hx.1 (hin hx.2)
    rw [this, measure_empty]
    exact tol6_pos
  unfold chooseInterside
  rw [show (mkU c0 c2 k0 k2).interOk.get id0 = .ok k0 from rfl, bind_okC, n1, bind_okC, w1, bind_okC, hm]
  have e1 : mapOrGeom Geom1D.or Geom1D.empty (mkU c0 c2 k0 k2).interChosen id0 v = .ok [(id0, c), (id2, c2)] := by
    unfold mapOrGeom
    rw [show (mkU c0 c2 k0 k2).interChosen.get? id0 = some c0 from rfl]
    dsimp only
    rw [bind_okC, hc]
    rfl
  have e2 : mapOpGeom Geom1D.sub (mkU c0 c2 k0 k2).interOk (side2 1).id v = .ok [(id0, k0), (id2, k)] := by
    unfold mapOpGeom
    rw [show (mkU c0 c2 k0 k2).interOk.get? (side2 1).id = some k2 from rfl]
    dsimp only
    rw [hk2]
    rfl
  have d6 : decide ((0 : ℚ) < tol6) = true := decide_eq_true (by unfold tol6; norm_num)
  rw [show assert true = .ok () from rfl, bind_okC, show (mkU c0 c2 k0 k2).sheetplex.interside id0 = .ok (side2 0) from rfl,
    bind_okC, show (side2 0).opposite (mkU c0 c2 k0 k2).sheetplex = .ok (side2 1) from rfl, bind_okC,
    show unitOps.fingers (side2 1) v = .ok () from rfl, bind_okC,
    show (mkU c0 c2 k0 k2).sheetChosen.get (side2 1).sheet = .ok () from rfl, bind_okC,
    show unitOps.and () () = .ok () from rfl, bind_okC, show unitOps.area () = .ok 0 from rfl, bind_okC, d6,
    show assert true = .ok () from rfl, bind_okC, e1, e2]
  rfl

theorem choose2 (c0 c2 k0 k2 v c k : Geom1D) (hk : Made k2) (hv : Made v)
    (hin : pointsOf v.intervals ⊆ pointsOf k2.intervals) (hc : c2.or v = .ok c) (hk2 : k0.sub v = .ok k) :
    (mkU c0 c2 k0 k2).chooseInterside unitOps id2 v false = .ok (mkU c0 c k k2) := by
  obtain ⟨n, n1, n2, n3⟩ := invert_denotes hk.nf
  obtain ⟨w, w1, w2, w3⟩ := and_denotes n2 hv.nf
  have hm : measureLt w.measure1d tol6 = true := by
    rw [measureLt_iff ((made_iff_nf _).2 w2), w3, n3]
    have : (pointsOf k2.intervals)ᶜ ∩ pointsOf v.intervals = ∅ :=
      Set.eq_empty_iff_forall_notMem.2 fun x hx => hx.1 (hin hx.2)
    rw [this, measure_empty]
    exact tol6_pos
  unfold chooseInterside
  rw [show (mkU c0 c2 k0 k2).interOk.get id2 = .ok k2 from rfl, bind_okC, n1, bind_okC, w1, bind_okC, hm]
  have e1 : mapOrGeom Geom1D.or Geom1D.empty (mkU c0 c2 k0 k2).interChosen id2 v = .ok [(id0, c0), (id2, c)] := by
    unfold mapOrGeom
    rw [show (mkU c0 c2 k0 k2).interChosen.get? id2 = some c2 from rfl]
    dsimp only
    rw [bind_okC, hc]
    rfl
  have e2 : mapOpGeom Geom1D.sub (mkU c0 c2 k0 k2).interOk (side2 0).id v = .ok [(id0, k), (id2, k2)] := by
    unfold mapOpGeom
    rw [show (mkU c0 c2 k0 k2).interOk.get? (side2 0).id = some k0 from rfl]
    dsimp only
    rw [hk2]
    rfl
  have d6 : decide ((0 : ℚ) < tol6) = true := decide_eq_true (by unfold tol6; norm_num)
  rw [show assert true = .ok () from rfl, bind_okC, show (mkU c0 c2 k0 k2).sheetplex.interside id2 = .ok (side2 1) from rfl,
    bind_okC, show (side2 1).opposite (mkU c0 c2 k0 k2).sheetplex = .ok (side2 0) from rfl, bind_okC,
    show unitOps.fingers (side2 0) v = .ok () from rfl, bind_okC,
    show (mkU c0 c2 k0 k2).sheetChosen.get (side2 0).sheet = .ok () from rfl, bind_okC,
    show unitOps.and () () = .ok () from rfl, bind_okC, show unitOps.area () = .ok 0 from rfl, bind_okC, d6,
    show assert true = .ok () from rfl, bind_okC, e1, e2]
  rfl


theorem unchoose0 (c0 c2 k0 k2 v k : Geom1D) (hc : c0.and v = .ok E) (hk : k0.sub v = .ok k) :
    (mkU c0 c2 k0 k2).unchooseInterside id0 v = .ok (mkU c0 c2 k k2) := by
  unfold unchooseInterside
  have e2 : mapOpGeom Geom1D.sub (mkU c0 c2 k0 k2).interOk (side2 0).id v = .ok [(id0, k), (id2, k2)] := by
    unfold mapOpGeom
    rw [show (mkU c0 c2 k0 k2).interOk.get? (side2 0).id = some k0 from rfl]
    dsimp only
    rw [hk]
    rfl
  rw [show (mkU c0 c2 k0 k2).interChosen.get id0 = .ok c0 from rfl, bind_okC, hc, bind_okC, if_pos (by rfl),
    show (mkU c0 c2 k0 k2).sheetplex.interside id0 = .ok (side2 0) from rfl, bind_okC, e2]
  rfl

theorem unchoose2 (c0 c2 k0 k2 v k : Geom1D) (hc : c2.and v = .ok E) (hk : k2.sub v = .ok k) :
    (mkU c0 c2 k0 k2).unchooseInterside id2 v = .ok (mkU c0 c2 k0 k) := by
  unfold unchooseInterside
  have e2 : mapOpGeom Geom1D.sub (mkU c0 c2 k0 k2).interOk (side2 1).id v = .ok [(id0, k0), (id2, k)] := by
    unfold mapOpGeom
    rw [show (mkU c0 c2 k0 k2).interOk.get? (side2 1).id = some k2 from rfl]
    dsimp only
    rw [hk]
    rfl
  rw [show (mkU c0 c2 k0 k2).interChosen.get id2 = .ok c2 from rfl, bind_okC, hc, bind_okC, if_pos (by rfl),
    show (mkU c0 c2 k0 k2).sheetplex.interside id2 = .ok (side2 1) from rfl, bind_okC, e2]
  rfl

/-- The parameters of the run. -/
def parU : Params Unit where
  o := unitOps
  geoms _ := ⟨(), (), ()⟩
  supportRadius := 1
  minW := 1
  maxW := 2
  draws _ _ := lowDraws
  order l := l
  el _ _ := true

theorem parU_valid : parU.Valid where
  project s g v h := by cases h; exact W_made
  draws _ _ := lowDraws_valid
  minW := by show (0 : ℚ) < 1; norm_num
  maxW := by show (0 : ℚ) < 2; norm_num

/-- The created build. -/
abbrev U : SheetBuild Unit := mkU E E W W

theorem sidesU : allSides plex2 = [side2 0, side2 1] := rfl

theorem createU : createSheetbuild unitOps plex2 parU.geoms 1 = .ok U := by
  obtain ⟨w, hw⟩ : ∃ w, Geom1D.construct [(.fraction (-1000), .fraction 1000)] = .ok w :=
    (construct_isOk_iff _).2 fun iv hiv => by
      rw [List.mem_singleton.1 hiv]
      exact ⟨_, rfl⟩
  have h1 : ∀ s : InterSide, s.sheet = "s0".toList ∨ s.sheet = "s2".toList →
      freshInterOk unitOps parU.geoms [("s0".toList, ()), ("s2".toList, ())] s = .ok W := by
    intro s hs
    unfold freshInterOk
    rcases hs with h | h <;> (rw [h, hw]; rfl)
  have h2 : dictOf InterSide.id (freshInterOk unitOps parU.geoms [("s0".toList, ()), ("s2".toList, ())])
      [side2 0, side2 1] = .ok [(id0, W), (id2, W)] := by
    rw [dictOf, h1 _ (Or.inl rfl), bind_okC, dictOf, h1 _ (Or.inr rfl)]
    rfl
  obtain ⟨e, e1, e2, e3⟩ := Geom1D.empty_denotes
  have he : e = E := c03_canonical e E ((made_iff_nf _).2 e2) E_made fun x => by rw [e3, E_points]
  subst he
  have h3 : dictOf InterSide.id (fun _ => Geom1D.empty) [side2 0, side2 1] = .ok [(id0, E), (id2, E)] := by
    rw [e1]
    rfl
  have h4 : restrictInter plex2 [(id0, W), (id2, W)] [side2 0, side2 1] = .ok [(id0, W), (id2, W)] := by
    rw [restrictInter, show PMap.get [(id0, W), (id2, W)] (side2 0).id = .ok W from rfl, bind_okC,
      show (side2 0).opposite plex2 = .ok (side2 1) from rfl, bind_okC,
      show PMap.get [(id0, W), (id2, W)] (side2 1).id = .ok W from rfl, bind_okC, and_same W_made, bind_okC,
      show PMap.set [(id0, W), (id2, W)] (side2 0).id W = [(id0, W), (id2, W)] from rfl,
      restrictInter, show PMap.get [(id0, W), (id2, W)] (side2 1).id = .ok W from rfl, bind_okC,
      show (side2 1).opposite plex2 = .ok (side2 0) from rfl, bind_okC,
      show PMap.get [(id0, W), (id2, W)] (side2 0).id = .ok W from rfl, bind_okC, and_same W_made, bind_okC]
    rfl
  unfold createSheetbuild
  rw [show dictOf (fun e : Name × Sheet => e.2.id) (fun e => freshChosen unitOps (parU.geoms e.2.id)) plex2.sheets =
      .ok [("s0".toList, ()), ("s2".toList, ())] from rfl, bind_okC,
    show dictOf (fun e : Name × Sheet => e.2.id) (fun e => freshOk unitOps 1 (parU.geoms e.2.id)) plex2.sheets =
      .ok [("s0".toList, ()), ("s2".toList, ())] from rfl, bind_okC]
  dsimp only
  rw [show intersides (plex2.intersections.map Prod.snd) none = [side2 0, side2 1] from rfl, h3, bind_okC, h2, bind_okC,
    h4, bind_okC]
  rfl

theorem irrelevantU (s : InterSide) (hs : s = side2 0 ∨ s = side2 1) :
    irrelevantAt unitOps parU.geoms U s = .ok E := by
  obtain ⟨b, b1, _⟩ := buffer_mpq W W_made (1 / 100)
  obtain ⟨n, n1, n2, n3⟩ := invert_denotes W_made.nf
  have h1 : n.and W = .ok E := eq_of E_made (and_denotes n2 W_made.nf) (by rw [n3, E_points, Set.compl_inter_self])
  have hg : U.interOk.get s.id = .ok W := by rcases hs with rfl | rfl <;> rfl
  have ho : ∃ t, s.opposite U.sheetplex = .ok t ∧ U.interOk.get t.id = .ok W := by
    rcases hs with rfl | rfl
    · exact ⟨side2 1, rfl, rfl⟩
    · exact ⟨side2 0, rfl, rfl⟩
  obtain ⟨t, t1, t2⟩ := ho
  unfold irrelevantAt
  rw [hg, bind_okC, b1, bind_okC]
  show (do
    let p ← Except.ok W
    let less ← Geom1D.invert p
    let opp ← s.opposite U.sheetplex
    let okOpp ← U.interOk.get opp.id
    let r ← less.and W
    r.and okOpp) = _
  rw [bind_okC, n1, bind_okC, t1, bind_okC, t2, bind_okC, h1, bind_okC, none_and W_made]

theorem stepIrr : chooseIrrelevant unitOps parU.geoms (fun _ => true) U = .ok U := by
  unfold chooseIrrelevant
  rw [show checkAt unitOps (fun _ => true) 0 U = .ok () from rfl, bind_okC,
    show allSides U.sheetplex = [side2 0, side2 1] from rfl, dictOf, irrelevantU _ (Or.inl rfl), bind_okC, dictOf,
    irrelevantU _ (Or.inr rfl), bind_okC, dictOf, bind_okC, bind_okC,
    show (side2 0).id = id0 from rfl, show (side2 1).id = id2 from rfl]
  show (unchooseIntersides U [(id0, E), (id2, E)]) = _
  rw [unchooseIntersides, unchoose0 E E W W E W (none_and E_made) (sub_none W_made), bind_okC,
    unchooseIntersides, unchoose2 E E W W E W (none_and E_made) (sub_none W_made), bind_okC]
  rfl

theorem stepLoose : removeLoose unitOps parU.geoms (fun _ => true) U = .ok U := by
  rfl

theorem interAtU (s : InterSide) (hs : s = side2 0 ∨ s = side2 1) : interOkAt unitOps U s = .ok U := by
  obtain ⟨b, b1, _⟩ := buffer_mpq W W_made (1 / 10)
  have hg : U.interOk.get s.id = .ok W := by rcases hs with rfl | rfl <;> rfl
  have hk : U.sheetOk.get s.sheet = .ok () := by rcases hs with rfl | rfl <;> rfl
  have hm : mapOpGeom Geom1D.sub U.interOk s.id E = .ok U.interOk := by
    unfold mapOpGeom
    rcases hs with rfl | rfl
    · rw [show U.interOk.get? (side2 0).id = some W from rfl]
      dsimp only
      rw [sub_none W_made]
      rfl
    · rw [show U.interOk.get? (side2 1).id = some W from rfl]
      dsimp only
      rw [sub_none W_made]
      rfl
  unfold interOkAt
  rw [hg, bind_okC, b1, bind_okC, show unitOps.fingers s b = .ok () from rfl, bind_okC, hk, bind_okC,
    show unitOps.and () () = .ok () from rfl, bind_okC, show unitOps.project s () = .ok W from rfl, bind_okC, bind_okC,
    sub_same W_made, bind_okC, none_buffer, bind_okC, hm]
  rfl

theorem stepInter : updateInterOk unitOps (fun _ => true) U = .ok U := by
  unfold updateInterOk
  rw [show checkAt unitOps (fun _ => true) 0 U = .ok () from rfl, bind_okC,
    show allSides U.sheetplex = [side2 0, side2 1] from rfl, fold, interAtU _ (Or.inl rfl), bind_okC, fold,
    interAtU _ (Or.inr rfl), bind_okC]
  rfl

theorem onU (s : InterSide) (hs : s = side2 0 ∨ s = side2 1) : onSides unitOps U [s] () () = .ok ((), ()) := by
  have hg : U.interOk.get s.id = .ok W := by rcases hs with rfl | rfl <;> rfl
  have ho : ∃ t, s.opposite U.sheetplex = .ok t ∧ U.interOk.get t.id = .ok W := by
    rcases hs with rfl | rfl
    · exact ⟨side2 1, rfl, rfl⟩
    · exact ⟨side2 0, rfl, rfl⟩
  obtain ⟨t, t1, t2⟩ := ho
  rw [onSides, t1, bind_okC, hg, bind_okC, show unitOps.fingers s W = .ok () from rfl, bind_okC,
    show unitOps.or () () = .ok () from rfl, bind_okC, t2, bind_okC, or_same W_made, bind_okC]
  rfl

theorem plex2_names (e : Name × Sheet) (he : e ∈ plex2.sheets) : e.2.id = "s0".toList ∨ e.2.id = "s2".toList := by
  rw [show plex2.sheets = [("s0".toList, ⟨"s0".toList⟩), ("s2".toList, ⟨"s2".toList⟩)] from rfl] at he
  simp only [List.mem_cons, List.not_mem_nil, or_false] at he
  rcases he with rfl | rfl
  · exact Or.inl rfl
  · exact Or.inr rfl

theorem stepSheet : updateSheetOk unitOps (fun _ => true) U = .ok U := by
  have d6 : decide ((0 : ℚ) < tol5) = true := decide_eq_true (by unfold tol5; norm_num)
  have h : ∀ e : Name × Sheet, (e.2.id = "s0".toList ∨ e.2.id = "s2".toList) → sheetOkAt unitOps U e = .ok U := by
    intro e he
    have h1 : onSides unitOps U (sidesOf U.sheetplex e.2.id) () () = .ok ((), ()) := by
      rcases he with h | h
      · rw [h, show sidesOf U.sheetplex "s0".toList = [side2 0] from rfl, onU _ (Or.inl rfl)]
      · rw [h, show sidesOf U.sheetplex "s2".toList = [side2 1] from rfl, onU _ (Or.inr rfl)]
    have h2 : U.sheetChosen.get e.2.id = .ok () := by rcases he with h | h <;> (rw [h]; rfl)
    unfold sheetOkAt
    rw [show onSides unitOps U (sidesOf U.sheetplex e.2.id) unitOps.empty unitOps.empty = .ok ((), ()) from h1, bind_okC]
    dsimp only
    rw [show unitOps.sub () () = .ok () from rfl, bind_okC, show unitOps.buffer () (2 / 1000) = .ok () from rfl, bind_okC,
      h2, bind_okC, show unitOps.sub () () = .ok () from rfl, bind_okC]
    have h3 : mapOpGeom unitOps.sub U.sheetOk e.2.id () = .ok U.sheetOk := by rcases he with h | h <;> (rw [h]; rfl)
    unfold unchooseSheetArea
    rw [h2, bind_okC, show unitOps.and () () = .ok () from rfl, bind_okC, show unitOps.area () = .ok 0 from rfl, bind_okC,
      d6, show assert true = .ok () from rfl, bind_okC, h3]
    rfl
  have hf : ∀ l : List (Name × Sheet), (∀ e ∈ l, e.2.id = "s0".toList ∨ e.2.id = "s2".toList) →
      fold (sheetOkAt unitOps) U l = .ok U := by
    intro l hl
    induction l with
    | nil => rfl
    | cons e l ih =>
      rw [fold, h e (hl e List.mem_cons_self), bind_okC]
      exact ih fun x hx => hl x (List.mem_cons_of_mem _ hx)
  unfold updateSheetOk
  rw [show checkAt unitOps (fun _ => true) 0 U = .ok () from rfl, bind_okC]
  exact hf _ fun e he => plex2_names e he

theorem stepMulti : multiInter unitOps (fun _ => true) (fun l => l) U = .ok U := by
  rfl

theorem buffers_none (a b : ℚ) : (do let e ← Geom1D.buffer E (.mpq a); e.buffer (.mpq b)) = .ok E := by
  rw [none_buffer, bind_okC, none_buffer]

theorem okAtU (t : ℕ) (s : InterSide) (hs : s = side2 0 ∨ s = side2 1) :
    okSideAt unitOps (fun _ => true) t U s = .ok U := by
  have hg : U.interOk.get s.id = .ok W := by rcases hs with rfl | rfl <;> rfl
  have hc : U.interChosen.get s.id = .ok E := by rcases hs with rfl | rfl <;> rfl
  have ho : ∃ t, s.opposite U.sheetplex = .ok t ∧ U.interOk.get t.id = .ok W ∧ U.interChosen.get t.id = .ok E := by
    rcases hs with rfl | rfl
    · exact ⟨side2 1, rfl, rfl, rfl⟩
    · exact ⟨side2 0, rfl, rfl, rfl⟩
  obtain ⟨o, o1, o2, o3⟩ := ho
  have h1 : U.chooseInterside unitOps s.id E false = .ok U := by
    rcases hs with rfl | rfl
    · exact choose0 E E W W E E W W_made E_made (by rw [E_points]; exact Set.empty_subset _) (none_or E_made) (sub_none W_made)
    · exact choose2 E E W W E E W W_made E_made (by rw [E_points]; exact Set.empty_subset _) (none_or E_made) (sub_none W_made)
  have h2 : U.unchooseInterside s.id E = .ok U := by
    rcases hs with rfl | rfl
    · exact unchoose0 E E W W E W (none_and E_made) (sub_none W_made)
    · exact unchoose2 E E W W E W (none_and E_made) (sub_none W_made)
  unfold okSideAt
  rw [hg, bind_okC, hc, bind_okC, sub_none W_made, bind_okC, o1, bind_okC, o2, bind_okC, sub_same W_made, bind_okC, o3,
    bind_okC, none_sub E_made, bind_okC, none_buffer, bind_okC, none_buffer, bind_okC, none_sub E_made, bind_okC, h1,
    bind_okC, h2, bind_okC]
  rfl

theorem stepOk : chooseOkSide unitOps (fun _ => true) U = .ok U := by
  unfold chooseOkSide
  rw [show checkAt unitOps (fun _ => true) 0 U = .ok () from rfl, bind_okC,
    show allSides U.sheetplex = [side2 0, side2 1] from rfl, okSides, okAtU _ _ (Or.inl rfl), bind_okC, okSides,
    okAtU _ _ (Or.inr rfl), bind_okC]
  rfl

theorem stepFingers : ∃ g0 g1 k0 k2, singleFingers unitOps (fun _ => true) parU.draws 1 2 U = .ok (mkU g0 g1 k0 k2) ∧
    Made g0 ∧ Made g1 ∧ Made k0 ∧ Made k2 ∧ pointsOf g0.intervals ⊆ pointsOf k0.intervals ∧
    pointsOf g1.intervals ⊆ pointsOf k2.intervals ∧ pointsOf g0.intervals ∩ pointsOf k2.intervals = ∅ ∧
    pointsOf g1.intervals ∩ pointsOf k0.intervals = ∅ := by
  obtain ⟨b, c, _, _, hsp⟩ := c48_split lowDraws lowDraws_valid 1 2 (by norm_num) (by norm_num) E E
    E_made E_made 0 10 (by norm_num)
  have hx : ∃ x, W.xor W = .ok x ∧ measureLt x.measure1d tol8 = true := by
    obtain ⟨x, x1, x2, x3⟩ := xor_denotes W_made.nf W_made.nf
    refine ⟨x, x1, ?_⟩
    rw [measureLt_iff ((made_iff_nf _).2 x2), x3, symmDiff_self]
    show volume (∅ : Set ℝ) < _
    rw [measure_empty, ENNReal.ofReal_pos]
    have : (0 : ℚ) < tol8 := by unfold tol8; norm_num
    exact_mod_cast this
  obtain ⟨x, x1, x2⟩ := hx
  have hfold : ∀ cs, stretchFingers lowDraws 1 2 E E 0 10 = .ok cs → ∀ r, fold (chooseFingers unitOps (side2 0) (side2 1)) U cs = .ok r →
      singleFingers unitOps (fun _ => true) parU.draws 1 2 U = .ok r := by
    intro cs h r hr
    have hat : fingersAt unitOps (parU.draws "s0,s2".toList) 1 2 (side2 0) (side2 1) U (Ext.fin 0, Ext.fin 10) = .ok r := by
      unfold fingersAt
      rw [show asFraction (Ext.fin 0) = .ok 0 from rfl, show asFraction (Ext.fin 10) = .ok 10 from rfl, bind_okC, bind_okC,
        show U.interChosen.get (side2 0).id = .ok E from rfl, show U.interChosen.get (side2 1).id = .ok E from rfl,
        bind_okC, bind_okC, show parU.draws "s0,s2".toList (Ext.fin 0, Ext.fin 10) = lowDraws from rfl, h, bind_okC, hr]
    have hj : fingersJoint unitOps parU.draws 1 2 U ("s0,s2".toList, ⟨"s0,s2".toList, [side2 0, side2 1]⟩) = .ok r := by
      unfold fingersJoint
      dsimp only
      rw [show U.interOk.get (side2 0).id = .ok W from rfl, bind_okC, show U.interOk.get (side2 1).id = .ok W from rfl, bind_okC,
        show U.interChosen.get (side2 0).id = .ok E from rfl, show U.interChosen.get (side2 1).id = .ok E from rfl,
        bind_okC, bind_okC, sub_none W_made, bind_okC, bind_okC, x1, bind_okC, x2, show assert true = .ok () from rfl, bind_okC]
      show fold _ _ [(Ext.fin 0, Ext.fin 10)] = _
      rw [fold, hat]
      rfl
    unfold singleFingers
    rw [show U.sheetplex.intersections = _ from plex2_inter,
      show checkAt unitOps (fun _ => true) 0 U = .ok () from rfl, bind_okC, fold, hj]
    rfl
  have hW : pointsOf W.intervals = {x | ((0 : ℚ) : ℝ) ≤ x ∧ x < ((10 : ℚ) : ℝ)} := ivl_points 0 10
  rcases hsp with ⟨g, s1, s2, s3, _⟩ | ⟨g0, g1, spans, lo, hi, s1, s2, s3, _, _, _, _, _, _, _, s4, s5⟩
  · have : g = W := c03_canonical g W s2 W_made fun x => by rw [s3, hW]
    subst this
    refine ⟨W, E, W, E, hfold _ s1 _ ?_, W_made, E_made, W_made, E_made, subset_rfl, subset_rfl, ?_, ?_⟩
    · rw [fold]
      unfold chooseFingers
      rw [if_pos rfl, show (side2 0).id = id0 from rfl,
        choose0 E E W W W W E W_made W_made subset_rfl (none_or W_made) (sub_same W_made)]
      rfl
    · rw [E_points, Set.inter_empty]
    · rw [E_points, Set.empty_inter]
  · rw [← hW] at s5
    obtain ⟨k2, m1, m2, m3⟩ := sub_denotes W_made.nf s2.nf
    obtain ⟨k0, n1, n2, n3⟩ := sub_denotes W_made.nf s3.nf
    have q1 : pointsOf g1.intervals ⊆ pointsOf k2.intervals := by
      rw [m3, ← s5]
      exact fun x hx => ⟨Or.inr hx, fun h0 => Set.disjoint_left.1 s4 h0 hx⟩
    refine ⟨g0, g1, k0, k2, hfold _ s1 _ ?_, s2, s3, (made_iff_nf _).2 n2, (made_iff_nf _).2 m2, ?_, q1, ?_, ?_⟩
    · rw [fold]
      unfold chooseFingers
      rw [if_pos rfl, show (side2 0).id = id0 from rfl,
        choose0 E E W W g0 g0 k2 W_made s2 (by rw [← s5]; exact Set.subset_union_left) (none_or s2) m1, bind_okC, fold,
        if_neg one_ne_zero, show (side2 1).id = id2 from rfl,
        choose2 g0 E W k2 g1 g1 k0 ((made_iff_nf _).2 m2) s3 q1 (none_or s3) n1]
      rfl
    · rw [n3, ← s5]
      exact fun x hx => ⟨Or.inl hx, fun h0 => Set.disjoint_left.1 s4 hx h0⟩
    · rw [m3, Set.inter_sdiff_self]
    · rw [n3, Set.inter_sdiff_self]

theorem checkU {g0 g1 k0 k2 : Geom1D} (h1 : Made g0) (h2 : Made g1) (h3 : Made k0) (h4 : Made k2)
    (i0 : pointsOf g0.intervals ⊆ pointsOf k0.intervals)
    (i1 : pointsOf g1.intervals ⊆ pointsOf k2.intervals) (e0 : pointsOf g0.intervals ∩ pointsOf k2.intervals = ∅)
    (e1 : pointsOf g1.intervals ∩ pointsOf k0.intervals = ∅) : (mkU g0 g1 k0 k2).check unitOps = .ok () := by
  have d7 : decide ((0 : ℚ) < tol7) = true := decide_eq_true (by unfold tol7; norm_num)
  have d3 : decide ((0 : ℚ) < tol3) = true := decide_eq_true (by unfold tol3; norm_num)
  have key : ∀ (a b d : Geom1D), Made a → Made b → Made d → pointsOf a.intervals ⊆ pointsOf b.intervals →
      pointsOf a.intervals ∩ pointsOf d.intervals = ∅ →
      (∃ w, a.sub b = .ok w ∧ measureLt w.measure1d tol7 = true) ∧ ∃ w, a.and d = .ok w ∧ w.isEmpty = true := by
    intro a b d ha hb hd h1 h2
    obtain ⟨w, w1, w2, w3⟩ := sub_denotes ha.nf hb.nf
    refine ⟨⟨w, w1, ?_⟩, E, eq_of E_made (and_denotes ha.nf hd.nf) (by rw [h2, E_points]), rfl⟩
    rw [measureLt_iff ((made_iff_nf _).2 w2), w3, Set.sdiff_eq_empty.2 h1, measure_empty, ENNReal.ofReal_pos]
    exact_mod_cast of_decide_eq_true d7
  rw [check_iff]
  constructor
  · intro e he
    unfold checkSheet
    have hg : (mkU g0 g1 k0 k2).sheetChosen.get e.2.id = .ok () ∧ (mkU g0 g1 k0 k2).sheetOk.get e.2.id = .ok () := by
      rcases plex2_names e he with h | h <;> (rw [h]; exact ⟨rfl, rfl⟩)
    rw [hg.1, hg.2, bind_okC, bind_okC, show unitOps.sub () () = .ok () from rfl, bind_okC,
      show unitOps.area () = .ok 0 from rfl, bind_okC, d7]
    rfl
  · intro s hs
    rw [show intersides ((mkU g0 g1 k0 k2).sheetplex.intersections.map Prod.snd) none = [side2 0, side2 1] from rfl] at hs
    simp only [List.mem_cons, List.not_mem_nil, or_false] at hs
    unfold checkInterside
    rcases hs with rfl | rfl
    · obtain ⟨⟨w, w1, w2⟩, v, v1, v2⟩ := key g0 k0 k2 h1 h3 h4 i0 e0
      rw [show (side2 0).opposite (mkU g0 g1 k0 k2).sheetplex = .ok (side2 1) from rfl, bind_okC,
        show (mkU g0 g1 k0 k2).interChosen.get (side2 0).id = .ok g0 from rfl, bind_okC,
        show (mkU g0 g1 k0 k2).interOk.get (side2 0).id = .ok k0 from rfl, bind_okC, w1, bind_okC, w2,
        show assert true = .ok () from rfl, bind_okC,
        show (mkU g0 g1 k0 k2).interOk.get (side2 1).id = .ok k2 from rfl, bind_okC, v1, bind_okC, v2,
        show assert true = .ok () from rfl, bind_okC,
        show (mkU g0 g1 k0 k2).sheetChosen.get (side2 0).sheet = .ok () from rfl, bind_okC,
        show unitOps.fingers (side2 0) k2 = .ok () from rfl, bind_okC, show unitOps.and () () = .ok () from rfl,
        bind_okC, show unitOps.area () = .ok 0 from rfl, bind_okC, d3]
      rfl
    · obtain ⟨⟨w, w1, w2⟩, v, v1, v2⟩ := key g1 k2 k0 h2 h4 h3 i1 e1
      rw [show (side2 1).opposite (mkU g0 g1 k0 k2).sheetplex = .ok (side2 0) from rfl, bind_okC,
        show (mkU g0 g1 k0 k2).interChosen.get (side2 1).id = .ok g1 from rfl, bind_okC,
        show (mkU g0 g1 k0 k2).interOk.get (side2 1).id = .ok k2 from rfl, bind_okC, w1, bind_okC, w2,
        show assert true = .ok () from rfl, bind_okC,
        show (mkU g0 g1 k0 k2).interOk.get (side2 0).id = .ok k0 from rfl, bind_okC, v1, bind_okC, v2,
        show assert true = .ok () from rfl, bind_okC,
        show (mkU g0 g1 k0 k2).sheetChosen.get (side2 1).sheet = .ok () from rfl, bind_okC,
        show unitOps.fingers (side2 1) k0 = .ok () from rfl, bind_okC, show unitOps.and () () = .ok () from rfl,
        bind_okC, show unitOps.area () = .ok 0 from rfl, bind_okC, d3]
      rfl

/-- The hypotheses of C66 can be met: a run of all twelve steps succeeds. -/
theorem runU : ∃ r, run parU plex2 none none = .ok r ∧ r.ok = true ∧ r.history[11]? = some U := by
  obtain ⟨g0, g1, k0, k2, hf, h1, h2, h3, h4, i0, i1, e0, e1⟩ := stepFingers
  have hc : cleanUp unitOps (mkU g0 g1 k0 k2) = .ok (mkU g0 g1 k0 k2) := rfl
  have hch : Chain U (steps parU) [U, U, U, U, U, U, U, U, U, U, U, mkU g0 g1 k0 k2] (mkU g0 g1 k0 k2) :=
    .cons _ _ _ _ _ _ stepIrr <| .cons _ _ _ _ _ _ stepLoose <| .cons _ _ _ _ _ _ stepInter <|
    .cons _ _ _ _ _ _ stepSheet <| .cons _ _ _ _ _ _ stepInter <| .cons _ _ _ _ _ _ stepLoose <|
    .cons _ _ _ _ _ _ stepInter <| .cons _ _ _ _ _ _ stepMulti <| .cons _ _ _ _ _ _ stepInter <|
    .cons _ _ _ _ _ _ stepOk <| .cons _ _ _ _ _ _ hf <| .cons _ _ _ _ _ _ hc <| .nil _
  have := (c53_ok (createSheetbuild parU.o plex2 parU.geoms parU.supportRadius) (checkAt parU.o (parU.el 0) 0)
    (check parU.o) (steps parU) none _).2 ⟨U, _, _, ⟨createU, rfl, hch, checkU h1 h2 h3 h4 i0 i1 e0 e1⟩, rfl⟩
  exact ⟨_, this.1, this.2, rfl⟩

/-- After this run every part of the joint is chosen on one of the two sides. -/
example : ∃ r, run parU plex2 none none = .ok r ∧ {x : ℝ | ((0 : ℚ) : ℝ) ≤ x ∧ x < ((10 : ℚ) : ℝ)} ⊆
    pts r.sheetbuild.interChosen id0 ∪ pts r.sheetbuild.interChosen id2 := by
  obtain ⟨r, h1, h2, h3⟩ := runU
  obtain ⟨_, _, _, sb0, sb1, _, hh, _, h⟩ := c66_run parU parU_valid plex2 plex2_paired none r h1 h2
  rw [h3] at hh
  cases hh
  have h4 := (h (side2 0) (side2 1) ⟨rfl, rfl⟩).2.2.2.2.2
  rw [show pts U.interOk (side2 0).id = pointsOf (ivl 0 10).intervals from rfl, ivl_points] at h4
  exact ⟨r, h1, h4⟩

/-! ### Examples for single steps -/

/-- Cleaning up keeps what is chosen. -/
example : ∃ sb', cleanUp lineOps build4 = .ok sb' ∧
    ∀ x, x ∈ dens (fun g => pointsOf g.intervals) sb'.sheetChosen "s0".toList →
      x ∈ dens (fun g => pointsOf g.intervals) sb'.sheetOk "s0".toList := by
  have h : ∃ sb', cleanUp lineOps build4 = .ok sb' := by
    have hc : ∀ e ∈ build4.sheetplex.sheets, ∃ ch ok, build4.sheetChosen.get e.2.id = .ok ch ∧
        build4.sheetOk.get e.2.id = .ok ok ∧ LineValid ch ∧ LineValid ok := by
      intro e he
      rcases plex2_names e he with h | h
      · rw [h]
        exact ⟨ivl 0 4, ivl 0 4, rfl, rfl, ivl_valid _ _ (by norm_num), ivl_valid _ _ (by norm_num)⟩
      · rw [h]
        exact ⟨ivl 4 10, ivl 4 10, rfl, rfl, ivl_valid _ _ (by norm_num), ivl_valid _ _ (by norm_num)⟩
    have hl : ∀ (es : List (Name × Sheet)) (m : PMap Name Geom1D), (∀ e ∈ es, e ∈ build4.sheetplex.sheets) →
        ∃ r, cleanLoop lineOps build4 es m = .ok r := by
      intro es
      induction es with
      | nil => exact fun m _ => ⟨m, rfl⟩
      | cons e es ih =>
        intro m hm
        obtain ⟨ch, ok, c1, c2, c3, c4⟩ := hc e (hm e List.mem_cons_self)
        obtain ⟨b1, h1⟩ := line_totalCreate.buffer ok (-(1 / 2)) c4
        have v1 := line_buffer.valid _ _ _ c4 h1
        obtain ⟨b2, h2⟩ := line_totalCreate.buffer b1 (1 / 2) v1
        obtain ⟨r, h3⟩ := line_total.or b2 ch (line_buffer.valid _ _ _ v1 h2) c3
        rw [cleanLoop, c1, bind_okC, c2, bind_okC, h1, bind_okC, h2, bind_okC, h3, bind_okC]
        exact ih _ fun x hx => hm x (List.mem_cons_of_mem _ hx)
    obtain ⟨r, hr⟩ := hl build4.sheetplex.sheets build4.sheetOk fun _ h => h
    unfold cleanUp
    rw [hr]
    exact ⟨_, rfl⟩
  obtain ⟨sb', h⟩ := h
  obtain ⟨_, _, h3⟩ := c52_clean line_lawful line_buffer.valid build4 sb' build4_good h
  exact ⟨sb', h, Filter.eventually_top.1 (h3 ("s0".toList, ⟨"s0".toList⟩) List.mem_cons_self).1⟩

/-- A sheet without support loses everything that is allowed. -/
example : ∃ sb', looseSheet lineOps (fun _ => ⟨⟨[]⟩, ⟨[]⟩, ⟨[]⟩⟩) build2 ("s0".toList, ⟨"s0".toList⟩) = .ok sb' ∧
    sb'.sheetOk.get? "s0".toList = some ⟨[]⟩ ∧ sb'.sheetOk.get? "s2".toList = build2.sheetOk.get? "s2".toList := by
  have d2 : decide ((0 : ℚ) < tol2) = true := decide_eq_true (by unfold tol2; norm_num)
  unfold looseSheet
  rw [show lineOps.and ⟨[]⟩ ⟨[]⟩ = .ok E from none_and E_made, bind_okC,
    show build2.sheetChosen.get "s0".toList = .ok E from rfl, bind_okC,
    show build2.sheetOk.get "s0".toList = .ok W from rfl, bind_okC, show lineOps.or E W = .ok W from none_or W_made, bind_okC]
  have hand : W.and E = .ok E := eq_of E_made (and_denotes W_made.nf E_made.nf) (by rw [E_points, Set.inter_empty])
  have h : looseLoop lineOps E E [W] ⟨[]⟩ = .ok W := by
    rw [looseLoop, show lineOps.and W E = .ok E from hand, bind_okC, if_pos (by rfl),
      show lineOps.and E W = .ok E from none_and W_made, bind_okC, show lineOps.area E = .ok 0 from rfl, bind_okC, d2,
      show assert true = .ok () from rfl, bind_okC, show lineOps.or ⟨[]⟩ W = .ok W from none_or W_made]
    rfl
  rw [show looseLoop lineOps E E (lineOps.polygons W) lineOps.empty = .ok W from h, bind_okC]
  have hm : mapOpGeom lineOps.sub build2.sheetOk "s0".toList W =
      .ok [("s0".toList, E), ("s2".toList, W)] := by
    unfold mapOpGeom
    rw [show build2.sheetOk.get? "s0".toList = some W from rfl]
    dsimp only
    rw [show lineOps.sub W W = .ok E from sub_same W_made]
    rfl
  rw [hm]
  exact ⟨_, rfl, rfl, rfl⟩

/-- A step that fails leaves the last good build when failures are to be returned, and raises otherwise. -/
example : (∃ r, canned1 (.ok build2) none (fun _ => .ok ()) (fun _ => .ok ())
      [fun _ => .ok build4, fun _ => .error .assertion] (some true) = .ok r ∧ r.ok = false ∧ r.sheetbuild = build4 ∧
      r.sheetCuts = build4.sheetChosen) ∧
    canned1 (.ok build2) none (fun _ => .ok ()) (fun _ => .ok ())
      [fun _ => .ok build4, fun _ => .error .assertion] (some false) = .error .assertion ∧
    canned1 (.ok build2) none (fun _ => .ok ()) (fun _ => .ok ())
      [fun _ => .ok build4, fun _ => .error .assertion] none = .error .keyError :=
  ⟨⟨_, rfl, rfl, rfl, rfl⟩, rfl, rfl⟩

/-- Without failures the last build is returned with the builds before it. -/
example : ∃ r, canned1 (.ok build2) none (fun _ => .ok ()) (fun _ => .ok ()) [fun _ => .ok build4] none = .ok r ∧
    r.ok = true ∧ r.sheetbuild = build4 ∧ r.history = [build2, build2, build4] :=
  ⟨_, rfl, rfl, rfl, rfl⟩

end Ply.Canned
