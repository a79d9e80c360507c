import Verif.Props.Check

/-! # C52: steps that only restrict what is allowed -/

namespace Ply

open MeasureTheory Geom1D SheetBuild Heu

variable {G : Type}

/-- The single polygons of a valid geom are right as operands, if not valid themselves. -/
structure LawfulPolygons {X : Type} (o : G2Ops G) (l : Filter X) (Valid Weak : G → Prop) (den : G → Set X) : Prop where
  lawful : Lawful o l Weak den
  weak : ∀ g, Valid g → Weak g
  polygons : ∀ g, Valid g → ∀ p ∈ o.polygons g, Weak p
  and : ∀ a b c, Weak a → Weak b → o.and a b = .ok c → Valid c
  sub : ∀ a b c, Valid a → Weak b → o.sub a b = .ok c → Valid c

/-- The build is still well made and no allowed area has grown. -/
structure Shrunk {X : Type} (l : Filter X) (Valid : G → Prop) (den : G → Set X) (sb sb' : SheetBuild G) : Prop where
  good : Good Valid sb'
  plex : sb'.sheetplex = sb.sheetplex
  less : ∀ k, ∀ᶠ x in l, x ∈ dens den sb'.sheetOk k → x ∈ dens den sb.sheetOk k

theorem Shrunk.refl {X : Type} {l : Filter X} {Valid : G → Prop} {den : G → Set X} {sb : SheetBuild G}
    (h : Good Valid sb) : Shrunk l Valid den sb sb :=
  ⟨h, rfl, fun _ => Filter.Eventually.of_forall fun _ hx => hx⟩

theorem Shrunk.trans {X : Type} {l : Filter X} {Valid : G → Prop} {den : G → Set X} {a b c : SheetBuild G}
    (h : Shrunk l Valid den a b) (h' : Shrunk l Valid den b c) : Shrunk l Valid den a c :=
  ⟨h'.good, h'.plex.trans h.plex, fun k => by filter_upwards [h.less k, h'.less k] with x x1 x2 hx using x1 (x2 hx)⟩

theorem fold_shrunk {X α : Type} {l : Filter X} {Valid : G → Prop} {den : G → Set X}
    (f : SheetBuild G → α → Except PyErr (SheetBuild G))
    (hf : ∀ x a b, Good Valid a → f a x = .ok b → Shrunk l Valid den a b) : ∀ (xs : List α) (sb sb' : SheetBuild G),
    Good Valid sb → fold f sb xs = .ok sb' → Shrunk l Valid den sb sb'
  | [], sb, sb', hg, h => by
    cases h
    exact Shrunk.refl hg
  | x :: xs, sb, sb', hg, h => by
    rw [fold, bind_ok] at h
    obtain ⟨sb1, h1, h⟩ := h
    have s := hf x sb sb1 hg h1
    exact s.trans (fold_shrunk f hf xs sb1 sb' s.good h)

theorem looseLoop_spec {X : Type} {o : G2Ops G} {l : Filter X} {Valid Weak : G → Prop} {den : G → Set X}
    {μ : Set X → ENNReal} (A : LawfulArea o l Valid den μ) (P : LawfulPolygons o l Valid Weak den) (support chosen : G)
    (hs : Weak support) (hc : Weak chosen) : ∀ (ps : List G) (i r : G), (∀ p ∈ ps, Weak p) → Weak i →
    looseLoop o support chosen ps i = .ok r →
    Weak r ∧ ∃ qs : List G, qs.Sublist ps ∧ (∀ᶠ x in l, x ∈ den r ↔ x ∈ den i ∨ ∃ q ∈ qs, x ∈ den q) ∧
      (∀ q ∈ ps, (q ∈ qs → (∀ᶠ x in l, ¬ (x ∈ den q ∧ x ∈ den support)) ∧
        μ (den chosen ∩ den q) < ENNReal.ofReal (tol2 : ℝ))) ∧
      ∀ q ∈ ps, q ∉ qs → ∃ m, o.and q support = .ok m ∧ o.isEmpty m = false
  | [], i, r, _, hi, h => by
    cases h
    exact ⟨hi, [], List.Sublist.refl _, Filter.Eventually.of_forall fun x => by simp, by simp, by simp⟩
  | p :: ps, i, r, hp, hi, h => by
    have hpv := hp p (by simp)
    rw [looseLoop, bind_ok] at h
    obtain ⟨m, h1, h⟩ := h
    obtain ⟨vm, dm⟩ := P.lawful.and p support m hpv hs h1
    split_ifs at h with he
    · rw [bind_ok] at h; obtain ⟨c, h2, h⟩ := h
      rw [bind_ok] at h; obtain ⟨a, h3, h⟩ := h
      rw [bind_ok] at h; obtain ⟨_, h4, h⟩ := h
      rw [bind_ok] at h; obtain ⟨i', h5, h⟩ := h
      obtain ⟨_, dc⟩ := P.lawful.and chosen p c hc hpv h2
      obtain ⟨vi, di⟩ := P.lawful.or i p i' hi hpv h5
      obtain ⟨r1, qs, r2, r3, r4, r5⟩ := looseLoop_spec A P support chosen hs hc ps i' r
        (fun q hq => hp q (by simp [hq])) vi h
      have good : (∀ᶠ x in l, ¬ (x ∈ den p ∧ x ∈ den support)) ∧
          μ (den chosen ∩ den p) < ENNReal.ofReal (tol2 : ℝ) := by
        constructor
        · filter_upwards [P.lawful.isEmpty m vm he, dm] with x x1 x2 x3
          exact x1 (x2.2 x3)
        · rw [← area_congr A (den c) (den chosen ∩ den p) dc, A.area c a (P.and chosen p c hc hpv h2) h3,
            ENNReal.ofReal_lt_ofReal_iff (by unfold tol2; norm_num)]
          rw [assert_ok, decide_eq_true_iff] at h4
          exact_mod_cast h4
      refine ⟨r1, p :: qs, r2.cons_cons p, ?_, ?_, ?_⟩
      · filter_upwards [r3, di] with x x1 x2
        rw [x1, x2]
        simp only [List.mem_cons, exists_eq_or_imp]
        tauto
      · intro q hq hq'
        by_cases e : q = p
        · subst e
          exact good
        · have := (List.mem_cons.1 hq').resolve_left e
          exact r4 q (r2.subset this) this
      · intro q hq hq'
        rw [List.mem_cons, not_or] at hq'
        exact r5 q ((List.mem_cons.1 hq).resolve_left hq'.1) hq'.2
    · obtain ⟨r1, qs, r2, r3, r4, r5⟩ := looseLoop_spec A P support chosen hs hc ps i r
        (fun q hq => hp q (by simp [hq])) hi h
      refine ⟨r1, qs, r2.cons p, r3, ?_, ?_⟩
      · intro q _ hq'
        exact r4 q (r2.subset hq') hq'
      · intro q hq hq'
        rcases List.mem_cons.1 hq with rfl | hq
        · exact ⟨m, h1, by simpa using he⟩
        · exact r5 q hq hq'

/-- C52, one sheet of `remove_loose`: the allowed area loses exactly some whole polygons of the possible area,
each off the support and overlapping what is chosen in less than 1e-2; the other polygons meet the support. -/
theorem c52_loose_sheet {X : Type} {o : G2Ops G} {l : Filter X} {Valid Weak : G → Prop} {den : G → Set X}
    (L : Lawful o l Valid den) {μ : Set X → ENNReal} (A : LawfulArea o l Valid den μ) (P : LawfulPolygons o l Valid Weak den)
    (geoms : Name → SheetGeoms G) (hgm : ValidGeoms Valid geoms) (e : Name × Sheet) (sb sb' : SheetBuild G)
    (hg : Good Valid sb) (h : looseSheet o geoms sb e = .ok sb') :
    Shrunk l Valid den sb sb' ∧ (∀ k, k ≠ e.2.id → sb'.sheetOk.get? k = sb.sheetOk.get? k) ∧
    ∃ (ch ok possible : G) (qs : List G), sb.sheetChosen.get? e.2.id = some ch ∧ sb.sheetOk.get? e.2.id = some ok ∧
      o.or ch ok = .ok possible ∧ qs.Sublist (o.polygons possible) ∧
      (∀ᶠ x in l, x ∈ dens den sb'.sheetOk e.2.id ↔ x ∈ den ok ∧ ∀ q ∈ qs, x ∉ den q) ∧
      (∀ q ∈ qs, (∀ᶠ x in l, ¬ (x ∈ den q ∧ x ∈ den (geoms e.2.id).face0 ∧ x ∈ den (geoms e.2.id).face1)) ∧
        μ (den ch ∩ den q) < ENNReal.ofReal (tol2 : ℝ)) ∧
      ∀ q ∈ o.polygons possible, q ∉ qs → ∃ support m, o.and (geoms e.2.id).face0 (geoms e.2.id).face1 = .ok support ∧
        o.and q support = .ok m ∧ o.isEmpty m = false := by
  unfold looseSheet at h
  rw [bind_ok] at h; obtain ⟨support, a1, h⟩ := h
  rw [bind_ok] at h; obtain ⟨ch, a2, h⟩ := h
  rw [bind_ok] at h; obtain ⟨ok, a3, h⟩ := h
  rw [bind_ok] at h; obtain ⟨possible, a4, h⟩ := h
  rw [bind_ok] at h; obtain ⟨imp, a5, h⟩ := h
  rw [bind_ok] at h; obtain ⟨ok', a6, h⟩ := h
  cases h
  obtain ⟨g0, g1, _⟩ := hgm e.2.id
  rw [PMap.get_ok] at a2 a3
  obtain ⟨vs, ds⟩ := L.and _ _ support g0 g1 a1
  have vc := hg.validC _ _ a2
  obtain ⟨vp, _⟩ := L.or ch ok possible vc (hg.validO _ _ a3) a4
  obtain ⟨r1, qs, r2, r3, r4, r5⟩ := looseLoop_spec A P support ch (P.weak _ vs) (P.weak _ vc) _ _ _ (P.polygons possible vp)
    P.lawful.empty.1 a5
  obtain ⟨_, k2, k3⟩ := subGeom_2d P.lawful sb.sheetOk ok' (fun k g h => P.weak g (hg.validO k g h)) e.2.id imp r1 a6
  have k1 : ValidMap Valid ok' := by
    obtain ⟨⟨w, v, hw, hv, hk⟩, ho⟩ := c57_op_geom o.sub _ _ _ _ a6
    intro k g' hg'
    by_cases hkk : k = e.2.id
    · subst hkk
      rw [hk] at hg'
      cases hg'
      exact P.sub w imp v (hg.validO _ _ hw) r1 hv
    · exact hg.validO k g' (by rw [← ho k hkk]; exact hg')
  have hd : dens den sb.sheetOk e.2.id = den ok := by unfold dens; rw [a3]
  refine ⟨⟨⟨hg.paired, hg.madeC, hg.madeO, hg.validC, k1⟩, rfl, fun k => ?_⟩, k3,
    ch, ok, possible, qs, a2, a3, a4, r2, ?_, ?_, ?_⟩
  · by_cases hk : k = e.2.id
    · subst hk
      exact k2.mono fun x hx hx' => (hx.1 hx').1
    · unfold dens
      rw [k3 k hk]
      exact Filter.Eventually.of_forall fun x hx => hx
  · filter_upwards [k2, r3, L.empty.2] with x x1 x2 x3
    rw [x1, x2, hd]
    simp only [x3, false_or, not_exists, not_and]
  · intro q hq
    obtain ⟨b1, b2⟩ := r4 q (r2.subset hq) hq
    refine ⟨?_, b2⟩
    filter_upwards [b1, ds] with x x1 x2 x3
    exact x1 ⟨x3.1, x2.2 x3.2⟩
  · intro q hq hq'
    obtain ⟨m, m1, m2⟩ := r5 q hq hq'
    exact ⟨support, m, a1, m1, m2⟩

/-- C52: `remove_loose` changes nothing but allowed areas and enlarges none. -/
theorem c52_loose {X : Type} {o : G2Ops G} {l : Filter X} {Valid Weak : G → Prop} {den : G → Set X}
    (L : Lawful o l Valid den) {μ : Set X → ENNReal} (A : LawfulArea o l Valid den μ) (P : LawfulPolygons o l Valid Weak den)
    (geoms : Name → SheetGeoms G) (hgm : ValidGeoms Valid geoms) (el : ℕ → Bool) (sb sb' : SheetBuild G)
    (hg : Good Valid sb) (h : removeLoose o geoms el sb = .ok sb') :
    OnlySheetOk sb sb' ∧ Good Valid sb' ∧
    ∀ k, ∀ᶠ x in l, x ∈ dens den sb'.sheetOk k → x ∈ dens den sb.sheetOk k := by
  refine ⟨c52_loose_only o geoms el sb sb' h, ?_⟩
  unfold removeLoose at h
  rw [bind_ok] at h; obtain ⟨_, _, h⟩ := h
  have s := fold_shrunk (l := l) (den := den) _
    (fun e a b ha hs => (c52_loose_sheet L A P geoms hgm e a b ha hs).1) _ sb sb' hg h
  exact ⟨s.good, s.less⟩

theorem onSides_valid {X : Type} {o : G2Ops G} {l : Filter X} {Valid : G → Prop} {den : G → Set X}
    (L : Lawful o l Valid den) (sb : SheetBuild G) (hg : Good Valid sb) : ∀ (ss : List InterSide) (a b : G) (r : G × G),
    Valid a → Valid b → onSides o sb ss a b = .ok r → Valid r.1 ∧ Valid r.2
  | [], a, b, r, ha, hb, h => by
    cases h
    exact ⟨ha, hb⟩
  | s :: ss, a, b, r, ha, hb, h => by
    rw [onSides, bind_ok] at h; obtain ⟨opp, a1, h⟩ := h
    rw [bind_ok] at h; obtain ⟨ok, a2, h⟩ := h
    rw [bind_ok] at h; obtain ⟨f, a3, h⟩ := h
    rw [bind_ok] at h; obtain ⟨b', a4, h⟩ := h
    rw [bind_ok] at h; obtain ⟨ok2, a5, h⟩ := h
    rw [bind_ok] at h; obtain ⟨u, a6, h⟩ := h
    rw [bind_ok] at h; obtain ⟨g, a7, h⟩ := h
    rw [bind_ok] at h; obtain ⟨a', a8, h⟩ := h
    have vf := L.fingers _ _ _ (made_of_get hg.madeO a2) a3
    have vg := L.fingers _ _ _ ⟨_, a6⟩ a7
    exact onSides_valid L sb hg ss a' b' r (L.or _ _ _ ha vg a8).1 (L.or _ _ _ hb vf a4).1 h

/-- C52: `update_sheet_ok` changes nothing but allowed areas and enlarges none. -/
theorem c52_sheet {X : Type} {o : G2Ops G} {l : Filter X} {Valid : G → Prop} {den : G → Set X}
    (L : Lawful o l Valid den) (B : BufferValid o Valid) (el : ℕ → Bool) (sb sb' : SheetBuild G)
    (hg : Good Valid sb) (h : updateSheetOk o el sb = .ok sb') :
    OnlySheetOk sb sb' ∧ Good Valid sb' ∧
    ∀ k, ∀ᶠ x in l, x ∈ dens den sb'.sheetOk k → x ∈ dens den sb.sheetOk k := by
  refine ⟨c52_sheet_only o el sb sb' h, ?_⟩
  unfold updateSheetOk at h
  rw [bind_ok] at h; obtain ⟨_, _, h⟩ := h
  have s := fold_shrunk (l := l) (den := den) (Valid := Valid) _ (fun e a b ha hs => by
    unfold sheetOkAt at hs
    rw [bind_ok] at hs; obtain ⟨r, a1, hs⟩ := hs
    rw [bind_ok] at hs; obtain ⟨d, a2, hs⟩ := hs
    rw [bind_ok] at hs; obtain ⟨bf, a3, hs⟩ := hs
    rw [bind_ok] at hs; obtain ⟨ch, a4, hs⟩ := hs
    rw [bind_ok] at hs; obtain ⟨w, a5, hs⟩ := hs
    obtain ⟨v1, v2⟩ := onSides_valid L a ha _ _ _ r L.empty.1 L.empty.1 a1
    have vb := B _ _ _ (L.sub _ _ _ v1 v2 a2).1 a3
    rw [PMap.get_ok] at a4
    have vw := (L.sub _ _ _ vb (ha.validC _ _ a4) a5).1
    obtain ⟨o1, o2, _, _, _, o6⟩ := op_2d L a b ha (.unchooseArea e.2.id w) vw trivial hs
    exact ⟨o1, o2, o6⟩) _ sb sb' hg h
  exact ⟨s.good, s.less⟩

theorem cleanLoop_spec {X : Type} {o : G2Ops G} {l : Filter X} {Valid : G → Prop} {den : G → Set X}
    (L : Lawful o l Valid den) (B : BufferValid o Valid) (sb : SheetBuild G) (hg : Good Valid sb) :
    ∀ (es : List (Name × Sheet)) (m r : PMap Name G), ValidMap Valid m → cleanLoop o sb es m = .ok r →
    ValidMap Valid r ∧ (∀ k, k ∉ es.map (fun e => e.2.id) → r.get? k = m.get? k) ∧
    ∀ e ∈ es, ∃ ok b1 b2, sb.sheetOk.get? e.2.id = some ok ∧ o.buffer ok (-(1 / 2)) = .ok b1 ∧
      o.buffer b1 (1 / 2) = .ok b2 ∧
      ∀ᶠ x in l, x ∈ dens den r e.2.id ↔ x ∈ den b2 ∨ x ∈ dens den sb.sheetChosen e.2.id
  | [], m, r, hm, h => by
    cases h
    exact ⟨hm, fun _ _ => rfl, by simp⟩
  | e :: es, m, r, hm, h => by
    rw [cleanLoop, bind_ok] at h; obtain ⟨ch, a1, h⟩ := h
    rw [bind_ok] at h; obtain ⟨ok, a2, h⟩ := h
    rw [bind_ok] at h; obtain ⟨b1, a3, h⟩ := h
    rw [bind_ok] at h; obtain ⟨b2, a4, h⟩ := h
    rw [bind_ok] at h; obtain ⟨w, a5, h⟩ := h
    rw [PMap.get_ok] at a1 a2
    have v2 := B _ _ _ (B _ _ _ (hg.validO _ _ a2) a3) a4
    obtain ⟨vw, dw⟩ := L.or _ _ _ v2 (hg.validC _ _ a1) a5
    have hm' : ValidMap Valid (m.set e.2.id w) := by
      intro k g hk
      rw [PMap.get?_set] at hk
      split_ifs at hk
      · cases hk
        exact vw
      · exact hm k g hk
    obtain ⟨i1, i2, i3⟩ := cleanLoop_spec L B sb hg es _ r hm' h
    refine ⟨i1, ?_, ?_⟩
    · intro k hk
      rw [List.map_cons, List.mem_cons, not_or] at hk
      rw [i2 k hk.2, PMap.get?_set, if_neg hk.1]
    · intro e' he'
      by_cases hin : e'.2.id ∈ es.map fun e => e.2.id
      · obtain ⟨e2, he2, hid⟩ := List.mem_map.1 hin
        have := i3 e2 he2
        rw [hid] at this
        exact this
      · have : e' = e := by
          rcases List.mem_cons.1 he' with h | h
          · exact h
          · exact absurd (List.mem_map_of_mem h) hin
        subst this
        refine ⟨ok, b1, b2, a2, a3, a4, ?_⟩
        filter_upwards [dw] with x hx
        have e1 : dens den r e'.2.id = den w := by
          unfold dens
          rw [i2 _ hin, PMap.get?_set, if_pos rfl]
        have e2 : dens den sb.sheetChosen e'.2.id = den ch := by
          unfold dens
          rw [a1]
        rw [e1, e2, hx]

/-- C52: `clean_up_thin_ok_parts` changes nothing but allowed areas, and the allowed area of every sheet is
then the opened allowed area together with the chosen area, so that it contains the chosen area. -/
theorem c52_clean {X : Type} {o : G2Ops G} {l : Filter X} {Valid : G → Prop} {den : G → Set X}
    (L : Lawful o l Valid den) (B : BufferValid o Valid) (sb sb' : SheetBuild G)
    (hg : Good Valid sb) (h : cleanUp o sb = .ok sb') :
    OnlySheetOk sb sb' ∧ Good Valid sb' ∧
    ∀ e ∈ sb.sheetplex.sheets,
      (∀ᶠ x in l, x ∈ dens den sb'.sheetChosen e.2.id → x ∈ dens den sb'.sheetOk e.2.id) ∧
      ∃ ok b1 b2, sb.sheetOk.get? e.2.id = some ok ∧ o.buffer ok (-(1 / 2)) = .ok b1 ∧
        o.buffer b1 (1 / 2) = .ok b2 ∧
        ∀ᶠ x in l, x ∈ dens den sb'.sheetOk e.2.id ↔ x ∈ den b2 ∨ x ∈ dens den sb.sheetChosen e.2.id := by
  refine ⟨c52_clean_only o sb sb' h, ?_⟩
  unfold cleanUp at h
  rw [bind_ok] at h; obtain ⟨m, a1, h⟩ := h
  cases h
  obtain ⟨i1, _, i3⟩ := cleanLoop_spec L B sb hg _ _ m hg.validO a1
  refine ⟨⟨hg.paired, hg.madeC, hg.madeO, hg.validC, i1⟩, fun e he => ?_⟩
  obtain ⟨ok, b1, b2, c1, c2, c3, c4⟩ := i3 e he
  refine ⟨?_, ok, b1, b2, c1, c2, c3, c4⟩
  filter_upwards [c4] with x hx hx'
  exact hx.2 (Or.inr hx')

end Ply
