import Verif.Props.Maps
import Verif.Props.SheetPlex

/-! # Effect of the operations on a sheet build -/

namespace Ply

open MeasureTheory Geom1D

theorem bind_ok {α β : Type} (x : Except PyErr α) (f : α → Except PyErr β) (b : β) :
    (x >>= f) = .ok b ↔ ∃ a, x = .ok a ∧ f a = .ok b := by
  cases x with
  | error e =>
    constructor
    · intro h; cases h
    · rintro ⟨a, h, _⟩; cases h
  | ok a =>
    constructor
    · intro h; exact ⟨a, rfl, h⟩
    · rintro ⟨a', h, h'⟩; cases h; exact h'

theorem interside_spec (sp : SheetPlex) (hsp : sp.Paired) (id : Name × Name) (s : InterSide)
    (h : sp.interside id = .ok s) :
    s.id = id ∧ ∃ t, s.opposite sp = .ok t ∧ t.opposite sp = .ok s ∧ t.sheet ≠ s.sheet ∧ t.id ≠ s.id ∧
      sp.interside t.id = .ok t ∧ t.id.1 = s.id.1 := by
  have hid : s.id = id ∧ ∃ inter, sp.intersections.get id.1 = .ok inter ∧ s ∈ inter.sides := by
    unfold SheetPlex.interside at h
    rw [bind_ok] at h
    obtain ⟨inter, hi, h⟩ := h
    rw [bind_ok] at h
    obtain ⟨t0, h0, h⟩ := h
    obtain ⟨h1, s0, s1, h2, h3, h4, h5, h6⟩ := hsp.2 _ (PMap.mem_of_get _ _ _ hi)
    dsimp only at h1 h2 h6
    rw [h2, (pyIndex_two s0 s1).1] at h0
    cases h0
    have e0 := (h6 t0 (by simp)).2
    have e1 := (h6 s1 (by simp)).2
    split_ifs at h with hc
    · cases h
      exact ⟨by rw [e0, hc], inter, hi, by rw [h2]; simp⟩
    · rw [bind_ok] at h
      obtain ⟨t1, h1', h⟩ := h
      rw [h2, (pyIndex_two t0 s1).2] at h1'
      cases h1'
      split_ifs at h with hc'
      cases h
      exact ⟨by rw [e1, hc'], inter, hi, by rw [h2]; simp⟩
  obtain ⟨hid, inter, hi, hs⟩ := hid
  refine ⟨hid, ?_⟩
  obtain ⟨⟨t, h1, h2, h3, h4, h5⟩, h6, h7, _⟩ := paired_opposite sp hsp id.1 inter s hi hs
  obtain ⟨_, k2, k3, _⟩ := paired_opposite sp hsp id.1 inter t hi h2
  refine ⟨t, h1, h5, h3, ?_, k2, by rw [k3, h7]⟩
  rw [k3, h7]
  intro h
  exact h3 (congrArg Prod.snd h)

theorem measureLt_iff {g : Geom1D} (hg : Made g) (tol : ℚ) :
    measureLt g.measure1d tol = true ↔ volume (pointsOf g.intervals) < ENNReal.ofReal (tol : ℝ) := by
  obtain ⟨v, h1, h2⟩ := c09_measure g hg
  rw [h1]
  unfold measureLt
  dsimp only
  rw [decide_eq_true_iff, ← Ext.toE_lt, h2, Ext.toE_fin]
  constructor
  · intro h
    have hn : volume (pointsOf g.intervals) ≠ ⊤ := by
      intro ht
      rw [ht] at h
      exact absurd h (by simp)
    rw [← ENNReal.ofReal_toReal hn]
    rw [← ENNReal.ofReal_toReal hn] at h
    have h' : (volume (pointsOf g.intervals)).toReal < (tol : ℝ) := by
      rw [EReal.coe_ennreal_ofReal, max_eq_left ENNReal.toReal_nonneg] at h
      exact EReal.coe_lt_coe_iff.1 h
    rw [ENNReal.ofReal_lt_ofReal_iff_of_nonneg ENNReal.toReal_nonneg]
    exact h'
  · intro h
    have hn : volume (pointsOf g.intervals) ≠ ⊤ := ne_top_of_lt h
    rw [← ENNReal.ofReal_toReal hn] at h ⊢
    rw [ENNReal.ofReal_lt_ofReal_iff_of_nonneg ENNReal.toReal_nonneg] at h
    rw [EReal.coe_ennreal_ofReal, max_eq_left ENNReal.toReal_nonneg]
    exact EReal.coe_lt_coe_iff.2 h

theorem assert_ok (b : Bool) (u : Unit) : SheetBuild.assert b = .ok u ↔ b = true := by
  unfold SheetBuild.assert
  cases b <;> simp

/-- Points of a map after `map_sub_geom`. -/
theorem subGeom_1d {κ : Type} [DecidableEq κ] (m r : PMap κ Geom1D) (hm : MadeMap m) (key : κ) (g : Geom1D)
    (hg : Made g) (h : mapOpGeom Geom1D.sub m key g = .ok r) :
    MadeMap r ∧ (∀ k, pts r k = if k = key then pts m k \ pointsOf g.intervals else pts m k) ∧
    key ∈ m.map Prod.fst ∧ r.map Prod.fst = m.map Prod.fst := by
  have hr := h
  obtain ⟨⟨w, v, hw, hv, hk⟩, ho⟩ := c57_op_geom Geom1D.sub m r key g h
  obtain ⟨u, u1, u2, u3⟩ := sub_denotes (hm key w hw).nf hg.nf
  rw [u1] at hv
  cases hv
  have hmem : key ∈ m.map Prod.fst := List.mem_map.2 ⟨_, PMap.mem_of_get? _ _ _ hw, rfl⟩
  refine ⟨?_, ?_, hmem, ?_⟩
  · intro k g' hg'
    by_cases hkk : k = key
    · subst hkk
      rw [hk] at hg'
      cases hg'
      exact (made_iff_nf _).2 u2
    · exact hm k g' (by rw [← ho k hkk]; exact hg')
  · intro k
    unfold pts
    split_ifs with hkk
    · subst hkk
      rw [hk, hw]
      dsimp only
      rw [u3]
    · rw [ho k hkk]
  · unfold mapOpGeom at hr
    rw [hw] at hr
    dsimp only at hr
    rw [u1] at hr
    cases hr
    exact PMap.set_keys _ _ _ hmem

/-- What an accepted `choose_interside` does. -/
structure ChooseEffect {G : Type} (o : G2Ops G) (sb sb' : SheetBuild G) (id : Name × Name) (v : Geom1D)
    (tentative : Bool) (s t : InterSide) : Prop where
  here : sb.sheetplex.interside id = .ok s
  opp : s.opposite sb.sheetplex = .ok t
  plex : sb'.sheetplex = sb.sheetplex
  madeC : MadeMap sb'.interChosen
  madeO : MadeMap sb'.interOk
  chosen : ∀ k, pts sb'.interChosen k = if k = id then pts sb.interChosen k ∪ pointsOf v.intervals
    else pts sb.interChosen k
  ok : ∀ k, pts sb'.interOk k = if k = t.id then pts sb.interOk k \ pointsOf v.intervals else pts sb.interOk k
  slack : volume (pointsOf v.intervals \ pts sb.interOk id) < ENNReal.ofReal (tol6 : ℝ)
  chosenEq : mapOrGeom Geom1D.or Geom1D.empty sb.interChosen id v = .ok sb'.interChosen
  okEq : mapOpGeom Geom1D.sub sb.interOk t.id v = .ok sb'.interOk
  sheetOk : ∃ F c both a, o.fingers t v = .ok F ∧ sb.sheetChosen.get? t.sheet = some c ∧ o.and F c = .ok both ∧
    o.area both = .ok a ∧ a < tol6 ∧ mapOpGeom o.sub sb.sheetOk t.sheet F = .ok sb'.sheetOk
  sheetChosen : (tentative = true ∧ sb'.sheetChosen = sb.sheetChosen) ∨
    (∃ f k fk, o.fingers s v = .ok f ∧ sb.sheetOk.get? s.sheet = some k ∧ o.and f k = .ok fk ∧
      mapOrGeom o.or (.ok o.empty) sb.sheetChosen s.sheet fk = .ok sb'.sheetChosen)

theorem choose_effect {G : Type} (o : G2Ops G) (sb sb' : SheetBuild G)
    (hc : MadeMap sb.interChosen) (ho : MadeMap sb.interOk) (id : Name × Name) (v : Geom1D) (hv : Made v)
    (tentative : Bool) (h : sb.chooseInterside o id v tentative = .ok sb') :
    ∃ s t, ChooseEffect o sb sb' id v tentative s t := by
  unfold SheetBuild.chooseInterside at h
  rw [bind_ok] at h; obtain ⟨okHere, a1, h⟩ := h
  rw [bind_ok] at h; obtain ⟨notOk, a2, h⟩ := h
  rw [bind_ok] at h; obtain ⟨outside, a3, h⟩ := h
  rw [bind_ok] at h; obtain ⟨u, a4, h⟩ := h
  rw [bind_ok] at h; obtain ⟨s, a5, h⟩ := h
  rw [bind_ok] at h; obtain ⟨t, a6, h⟩ := h
  rw [bind_ok] at h; obtain ⟨F, a7, h⟩ := h
  rw [bind_ok] at h; obtain ⟨c, a8, h⟩ := h
  rw [bind_ok] at h; obtain ⟨both, a9, h⟩ := h
  rw [bind_ok] at h; obtain ⟨a, a10, h⟩ := h
  rw [bind_ok] at h; obtain ⟨u', a11, h⟩ := h
  rw [bind_ok] at h; obtain ⟨chosen, a12, h⟩ := h
  rw [bind_ok] at h; obtain ⟨F', a13, h⟩ := h
  rw [bind_ok] at h; obtain ⟨sok, a14, h⟩ := h
  rw [bind_ok] at h; obtain ⟨ich, a15, h⟩ := h
  rw [bind_ok] at h; obtain ⟨iok, a16, h⟩ := h
  cases h
  rw [a7] at a13
  cases a13
  rw [assert_ok] at a4 a11
  rw [decide_eq_true_iff] at a11
  rw [PMap.get_ok] at a1 a8
  obtain ⟨n, n1, n2, n3⟩ := invert_denotes (ho id okHere a1).nf
  rw [n1] at a2; cases a2
  obtain ⟨w, w1, w2, w3⟩ := and_denotes n2 hv.nf
  rw [w1] at a3; cases a3
  obtain ⟨m1, m2, m3, _⟩ := c57_or_geom_1d sb.interChosen hc id v hv
  rw [m2] at a15; cases a15
  obtain ⟨k1, k2, _⟩ := subGeom_1d sb.interOk iok ho t.id v hv a16
  refine ⟨s, t, a5, a6, rfl, m3, k1, ‹_ ∧ _ ∧ _›.1, k2, ?_, m2, a16, ?_, ?_⟩
  · rw [measureLt_iff ((made_iff_nf _).2 w2), w3, n3] at a4
    have : pts sb.interOk id = pointsOf okHere.intervals := by unfold pts; rw [a1]
    rw [this]
    convert a4 using 2
    ext x
    simp [and_comm]
  · exact ⟨F, c, both, a, a7, a8, a9, a10, a11, a14⟩
  · cases tentative with
    | true => left; exact ⟨rfl, by cases a12; rfl⟩
    | false =>
      right
      rw [if_neg (by simp)] at a12
      rw [bind_ok] at a12; obtain ⟨f, b1, a12⟩ := a12
      rw [bind_ok] at a12; obtain ⟨k, b2, a12⟩ := a12
      rw [bind_ok] at a12; obtain ⟨fk, b3, a12⟩ := a12
      exact ⟨f, k, fk, b1, (PMap.get_ok _ _ _).1 b2, b3, a12⟩

/-- What an accepted `unchoose_interside` does. -/
theorem unchoose_effect {G : Type} (sb sb' : SheetBuild G) (hsp : sb.sheetplex.Paired)
    (hc : MadeMap sb.interChosen) (ho : MadeMap sb.interOk) (id : Name × Name) (v : Geom1D) (hv : Made v)
    (h : sb.unchooseInterside id v = .ok sb') :
    sb'.sheetplex = sb.sheetplex ∧ sb'.sheetChosen = sb.sheetChosen ∧ sb'.sheetOk = sb.sheetOk ∧
    sb'.interChosen = sb.interChosen ∧ MadeMap sb'.interOk ∧
    (∀ k, pts sb'.interOk k = if k = id then pts sb.interOk k \ pointsOf v.intervals else pts sb.interOk k) ∧
    pts sb.interChosen id ∩ pointsOf v.intervals = ∅ ∧
    mapOpGeom Geom1D.sub sb.interOk id v = .ok sb'.interOk := by
  unfold SheetBuild.unchooseInterside at h
  rw [bind_ok] at h; obtain ⟨ch, a1, h⟩ := h
  rw [bind_ok] at h; obtain ⟨both, a2, h⟩ := h
  rw [PMap.get_ok] at a1
  obtain ⟨w, w1, w2, w3⟩ := and_denotes (hc id ch a1).nf hv.nf
  rw [w1] at a2; cases a2
  split_ifs at h with he
  rw [bind_ok] at h; obtain ⟨s, a3, h⟩ := h
  rw [bind_ok] at h; obtain ⟨iok, a4, h⟩ := h
  cases h
  rw [(interside_spec _ hsp id s a3).1] at a4
  obtain ⟨k1, k2, _⟩ := subGeom_1d sb.interOk iok ho id v hv a4
  refine ⟨rfl, rfl, rfl, rfl, k1, k2, ?_, a4⟩
  have := (c10_isEmpty both ((made_iff_nf _).2 w2)).1 he
  rw [w3] at this
  have hp : pts sb.interChosen id = pointsOf ch.intervals := by unfold pts; rw [a1]
  rw [hp]
  exact Set.eq_empty_iff_forall_notMem.2 this

/-- What an accepted `unchoose_sheet_area` does. -/
theorem unchooseArea_effect {G : Type} (o : G2Ops G) (sb sb' : SheetBuild G) (sheet : Name) (g : G)
    (h : sb.unchooseSheetArea o sheet g = .ok sb') :
    ∃ c both a, sb.sheetChosen.get? sheet = some c ∧ o.and c g = .ok both ∧ o.area both = .ok a ∧ a < tol5 ∧
      mapOpGeom o.sub sb.sheetOk sheet g = .ok sb'.sheetOk ∧ sb' = { sb with sheetOk := sb'.sheetOk } := by
  unfold SheetBuild.unchooseSheetArea at h
  rw [bind_ok] at h; obtain ⟨c, a1, h⟩ := h
  rw [bind_ok] at h; obtain ⟨both, a2, h⟩ := h
  rw [bind_ok] at h; obtain ⟨a, a3, h⟩ := h
  rw [bind_ok] at h; obtain ⟨u, a4, h⟩ := h
  rw [bind_ok] at h; obtain ⟨ok, a5, h⟩ := h
  cases h
  rw [assert_ok, decide_eq_true_iff] at a4
  exact ⟨c, both, a, (PMap.get_ok _ _ _).1 a1, a2, a3, a4, a5, rfl⟩

end Ply
