import Verif.Props.Run
import Mathlib.Logic.Relation

/-!
# A run as a sequence of elementary changes

Every step of a run is made of choices, of taking back stretches, and of three ways of restricting what is allowed.
-/

namespace Ply

open MeasureTheory Geom1D Heu Relation

variable {G : Type}

/-- One elementary change. -/
inductive Prim (o : G2Ops G) (geoms : Name → SheetGeoms G) : SheetBuild G → SheetBuild G → Prop
  | choose {sb sb' : SheetBuild G} (id : Name × Name) (v : Geom1D) (hv : Made v)
      (h : sb.chooseInterside o id v false = .ok sb') : Prim o geoms sb sb'
  | unchoose {sb sb' : SheetBuild G} (id : Name × Name) (v : Geom1D) (hv : Made v)
      (h : sb.unchooseInterside id v = .ok sb') : Prim o geoms sb sb'
  | loose {sb sb' : SheetBuild G} (e : Name × Sheet) (h : looseSheet o geoms sb e = .ok sb') : Prim o geoms sb sb'
  | inter {sb sb' : SheetBuild G} (s : InterSide) (h : interOkAt o sb s = .ok sb') : Prim o geoms sb sb'
  | sheet {sb sb' : SheetBuild G} (e : Name × Sheet) (h : sheetOkAt o sb e = .ok sb') : Prim o geoms sb sb'

/-- Any number of elementary changes. -/
abbrev Trace (o : G2Ops G) (geoms : Name → SheetGeoms G) : SheetBuild G → SheetBuild G → Prop :=
  ReflTransGen (Prim o geoms)

theorem interOkAt_step {o : G2Ops G} (hpm : ProjectMade o) {s : InterSide} {a b : SheetBuild G} (ha : Excl a)
    (hs : interOkAt o a s = .ok b) : Step a b := by
  obtain ⟨h1, h2, _, _, _, _, _, _, _, B, _, _, _, _, _, _, _, _, h3⟩ := interOkAt_effect hpm a b ha.madeO s hs
  refine Step.shrink ha (by rw [h1]) (fun k => by rw [h1]) (by rw [h1]; exact ha.madeC) h2 fun k => ?_
  rw [h3]
  split_ifs
  · exact Set.sdiff_subset
  · exact subset_rfl

theorem looseSheet_only {o : G2Ops G} {geoms : Name → SheetGeoms G} {a b : SheetBuild G} {e : Name × Sheet}
    (hx : looseSheet o geoms a e = .ok b) : OnlySheetOk a b := by
  unfold looseSheet at hx
  rw [bind_ok] at hx; obtain ⟨_, _, hx⟩ := hx
  rw [bind_ok] at hx; obtain ⟨_, _, hx⟩ := hx
  rw [bind_ok] at hx; obtain ⟨_, _, hx⟩ := hx
  rw [bind_ok] at hx; obtain ⟨_, _, hx⟩ := hx
  rw [bind_ok] at hx; obtain ⟨_, _, hx⟩ := hx
  rw [bind_ok] at hx; obtain ⟨_, _, hx⟩ := hx
  cases hx
  rfl

theorem sheetOkAt_only {o : G2Ops G} {a b : SheetBuild G} {e : Name × Sheet}
    (hx : sheetOkAt o a e = .ok b) : OnlySheetOk a b := by
  unfold sheetOkAt at hx
  rw [bind_ok] at hx; obtain ⟨_, _, hx⟩ := hx
  rw [bind_ok] at hx; obtain ⟨_, _, hx⟩ := hx
  rw [bind_ok] at hx; obtain ⟨_, _, hx⟩ := hx
  rw [bind_ok] at hx; obtain ⟨_, _, hx⟩ := hx
  rw [bind_ok] at hx; obtain ⟨_, _, hx⟩ := hx
  obtain ⟨_, _, _, _, _, _, _, _, h6⟩ := unchooseArea_effect o a b _ _ hx
  exact h6

theorem Prim.step {o : G2Ops G} (hpm : ProjectMade o) {geoms : Name → SheetGeoms G} {a b : SheetBuild G} (ha : Excl a)
    (h : Prim o geoms a b) : Step a b := by
  cases h with
  | choose id v hv h => exact Step.choose ha hv h
  | unchoose id v hv h => exact Step.unchoose ha hv h
  | loose e h => exact (looseSheet_only h).step ha
  | inter s h => exact interOkAt_step hpm ha h
  | sheet e h => exact (sheetOkAt_only h).step ha

theorem Trace.step {o : G2Ops G} (hpm : ProjectMade o) {geoms : Name → SheetGeoms G} {a b : SheetBuild G} (ha : Excl a)
    (h : Trace o geoms a b) : Step a b := by
  induction h with
  | refl => exact Step.refl ha
  | tail _ h ih => exact ih.trans (h.step hpm ih.inv)

section

variable {o : G2Ops G} (hpm : ProjectMade o) (geoms : Name → SheetGeoms G)
include hpm

theorem fold_trace {α : Type} (f : SheetBuild G → α → Except PyErr (SheetBuild G)) : ∀ (l : List α)
    (sb sb' : SheetBuild G) (_ : ∀ x ∈ l, ∀ a b, Excl a → f a x = .ok b → Trace o geoms a b),
    Excl sb → fold f sb l = .ok sb' → Trace o geoms sb sb'
  | [], sb, sb', _, _, h => by
    cases h
    exact .refl
  | x :: l, sb, sb', hf, he, h => by
    rw [fold, bind_ok] at h
    obtain ⟨sb1, h1, h⟩ := h
    have t1 := hf x List.mem_cons_self sb sb1 he h1
    exact t1.trans (fold_trace f l sb1 sb' (fun y hy => hf y (List.mem_cons_of_mem _ hy)) (t1.step hpm he).inv h)

omit hpm in
theorem unchooseIntersides_trace : ∀ (m : PMap (Name × Name) Geom1D) (sb sb' : SheetBuild G), Excl sb →
    (∀ e ∈ m, Made e.2) → sb.unchooseIntersides m = .ok sb' → Trace o geoms sb sb'
  | [], sb, sb', he, _, h => by
    cases h
    exact .refl
  | (id, v) :: m, sb, sb', he, hm, h => by
    rw [SheetBuild.unchooseIntersides, bind_ok] at h
    obtain ⟨sb1, h1, h⟩ := h
    have hv := hm (id, v) List.mem_cons_self
    exact (ReflTransGen.single (Prim.unchoose id v hv h1)).trans
      (unchooseIntersides_trace m sb1 sb' (Step.unchoose he hv h1).inv (fun e he => hm e (List.mem_cons_of_mem _ he)) h)

theorem irrelevant_trace (el : ℕ → Bool) (sb sb' : SheetBuild G) (he : Excl sb)
    (h : chooseIrrelevant o geoms el sb = .ok sb') : Trace o geoms sb sb' := by
  unfold chooseIrrelevant at h
  rw [bind_ok] at h; obtain ⟨_, _, h⟩ := h
  rw [bind_ok] at h; obtain ⟨m, hm, h⟩ := h
  refine unchooseIntersides_trace geoms m sb sb' he ?_ h
  intro e hme
  obtain ⟨s, _, hs, _⟩ := dictOf_values _ _ _ _ hm e hme
  unfold irrelevantAt at hs
  rw [bind_ok] at hs; obtain ⟨ok, a1, hs⟩ := hs
  rw [bind_ok] at hs; obtain ⟨wide, _, hs⟩ := hs
  rw [bind_ok] at hs; obtain ⟨fing, _, hs⟩ := hs
  rw [bind_ok] at hs; obtain ⟨b1, _, hs⟩ := hs
  rw [bind_ok] at hs; obtain ⟨out1, _, hs⟩ := hs
  rw [bind_ok] at hs; obtain ⟨b2, _, hs⟩ := hs
  rw [bind_ok] at hs; obtain ⟨out2, _, hs⟩ := hs
  rw [bind_ok] at hs; obtain ⟨p, a8, hs⟩ := hs
  rw [bind_ok] at hs; obtain ⟨less, a9, hs⟩ := hs
  rw [bind_ok] at hs; obtain ⟨opp, _, hs⟩ := hs
  rw [bind_ok] at hs; obtain ⟨okOpp, a11, hs⟩ := hs
  rw [bind_ok] at hs; obtain ⟨r, a12, hs⟩ := hs
  have m1 := (and_ok (invert_ok (hpm _ _ _ a8) a9) (made_of_get he.madeO a1) a12).1
  exact (and_ok m1 (made_of_get he.madeO a11) hs).1

theorem loose_trace (el : ℕ → Bool) (sb sb' : SheetBuild G) (he : Excl sb)
    (h : removeLoose o geoms el sb = .ok sb') : Trace o geoms sb sb' := by
  unfold removeLoose at h
  rw [bind_ok] at h; obtain ⟨_, _, h⟩ := h
  exact fold_trace hpm geoms _ _ sb sb' (fun e _ a b _ hx => .single (.loose e hx)) he h

theorem interOk_trace (el : ℕ → Bool) (sb sb' : SheetBuild G) (he : Excl sb)
    (h : updateInterOk o el sb = .ok sb') : Trace o geoms sb sb' := by
  unfold updateInterOk at h
  rw [bind_ok] at h; obtain ⟨_, _, h⟩ := h
  exact fold_trace hpm geoms _ _ sb sb' (fun s _ a b _ hx => .single (.inter s hx)) he h

theorem sheetOk_trace (el : ℕ → Bool) (sb sb' : SheetBuild G) (he : Excl sb)
    (h : updateSheetOk o el sb = .ok sb') : Trace o geoms sb sb' := by
  unfold updateSheetOk at h
  rw [bind_ok] at h; obtain ⟨_, _, h⟩ := h
  exact fold_trace hpm geoms _ _ sb sb' (fun e _ a b _ hx => .single (.sheet e hx)) he h

theorem cluster_trace (el : ℕ → Bool) (order : List Name → List Name) (sb sb' : SheetBuild G)
    (he : Excl sb) (e : ℕ × Cluster) (hc : MadeMap e.2) (hd : (e.2.map Prod.fst).Nodup)
    (h : decideCluster o el order sb e = .ok sb') : Trace o geoms sb sb' := by
  unfold decideCluster at h
  rw [bind_ok] at h; obtain ⟨sides, a1, h⟩ := h
  rw [bind_ok] at h; obtain ⟨ds, a2, h⟩ := h
  rw [bind_ok] at h; obtain ⟨best, a3, h⟩ := h
  dsimp only at h
  rw [bind_ok] at h; obtain ⟨cluster, a4, h⟩ := h
  rw [bind_ok] at h; obtain ⟨u, a5, h⟩ := h
  rw [bind_ok] at h; obtain ⟨sb1, a6, h⟩ := h
  rw [bind_ok] at h; obtain ⟨sb2, a7, h⟩ := h
  rw [bind_ok] at h; obtain ⟨u', a8, h⟩ := h
  cases h
  have hm : MadeMap cluster ∧ (cluster.map Prod.fst).Nodup := by
    split_ifs at a4
    · exact ⟨findExtra_made sb he.madeO e.2 hc _ cluster a4, findExtra_nodup sb e.2 hd _ cluster a4⟩
    · cases a4
      exact ⟨hc, hd⟩
  have s1 : Trace o geoms sb sb1 := by
    refine fold_trace hpm geoms _ _ sb sb1 ?_ he a6
    intro s _ a b ha hs
    unfold chooseCluster at hs
    rw [bind_ok] at hs; obtain ⟨c, b1, hs⟩ := hs
    rw [bind_ok] at hs; obtain ⟨ok, b2, hs⟩ := hs
    rw [bind_ok] at hs; obtain ⟨v, b3, hs⟩ := hs
    exact .single (.choose _ v (and_ok (made_of_get hm.1 b1) (made_of_get ha.madeO b2) b3).1 hs)
  refine s1.trans (fold_trace hpm geoms _ _ sb1 sb' ?_ (s1.step hpm he).inv a7)
  intro x hx a b ha hs
  unfold unchooseCluster at hs
  rw [bind_ok] at hs; obtain ⟨i, b1, hs⟩ := hs
  refine fold_trace hpm geoms _ _ a b ?_ ha hs
  intro s _ a' b' ha' hs'
  split_ifs at hs'
  · exact .single (.unchoose _ x.2 (hm.1 x.1 x.2 (PMap.get?_of_mem _ hm.2 x hx)) hs')
  · cases hs'
    exact .refl

theorem multi_trace (el : ℕ → Bool) (order : List Name → List Name)
    (sb sb' : SheetBuild G) (he : Excl sb) (h : multiInter o el order sb = .ok sb') : Trace o geoms sb sb' := by
  unfold multiInter at h
  rw [bind_ok] at h; obtain ⟨xs, a1, h⟩ := h
  rw [bind_ok] at h; obtain ⟨m, a2, h⟩ := h
  rw [bind_ok] at h; obtain ⟨_, _, h⟩ := h
  obtain ⟨hx, _⟩ := c50_found hpm sb he.paired xs a1
  obtain ⟨m', _, e1, _, e3, _⟩ := c50_components sb.sheetplex xs hx
  rw [a2] at e1
  cases e1
  refine fold_trace hpm geoms _ _ sb sb' ?_ he h
  intro e hme a b ha hs
  exact cluster_trace hpm geoms el order a b ha e (e3 e hme).1 (e3 e hme).2 hs

theorem okSide_trace (el : ℕ → Bool) (sb sb' : SheetBuild G) (he : Excl sb)
    (h : chooseOkSide o el sb = .ok sb') : Trace o geoms sb sb' := by
  unfold chooseOkSide at h
  rw [bind_ok] at h; obtain ⟨_, _, h⟩ := h
  have key : ∀ (l : List InterSide) (n : ℕ) (a b : SheetBuild G), Excl a → okSides o el a l n = .ok b →
      Trace o geoms a b := by
    intro l
    induction l with
    | nil =>
      intro n a b ha h
      cases h
      exact .refl
    | cons s l ih =>
      intro n a b ha h
      rw [okSides, bind_ok] at h
      obtain ⟨a1, h1, h⟩ := h
      have s1 : Trace o geoms a a1 := by
        unfold okSideAt at h1
        rw [bind_ok] at h1; obtain ⟨ok, b1, h1⟩ := h1
        rw [bind_ok] at h1; obtain ⟨ch, b2, h1⟩ := h1
        rw [bind_ok] at h1; obtain ⟨v1, b3, h1⟩ := h1
        rw [bind_ok] at h1; obtain ⟨opp, b4, h1⟩ := h1
        rw [bind_ok] at h1; obtain ⟨oppOk, b5, h1⟩ := h1
        rw [bind_ok] at h1; obtain ⟨v2, b6, h1⟩ := h1
        rw [bind_ok] at h1; obtain ⟨oppCh, b7, h1⟩ := h1
        rw [bind_ok] at h1; obtain ⟨orig, b8, h1⟩ := h1
        rw [bind_ok] at h1; obtain ⟨e, b9, h1⟩ := h1
        rw [bind_ok] at h1; obtain ⟨only, b10, h1⟩ := h1
        rw [bind_ok] at h1; obtain ⟨small, b11, h1⟩ := h1
        rw [bind_ok] at h1; obtain ⟨sb1, b12, h1⟩ := h1
        rw [bind_ok] at h1; obtain ⟨sb2, b13, h1⟩ := h1
        rw [bind_ok] at h1; obtain ⟨_, _, h1⟩ := h1
        cases h1
        have m3 := (sub_ok (made_of_get ha.madeO b1) (made_of_get ha.madeC b2) b3).1
        have m6 := (sub_ok m3 (made_of_get ha.madeO b5) b6).1
        have m8 := (sub_ok m6 (made_of_get ha.madeC b7) b8).1
        have m10 := buffer_ok (buffer_ok m8 b9) b10
        have m11 := (sub_ok m8 m10 b11).1
        exact (ReflTransGen.single (Prim.choose _ _ m10 b12)).trans (.single (.unchoose _ _ m11 b13))
      exact s1.trans (ih (n + 1) a1 b (s1.step hpm ha).inv h)
  exact key _ 1 sb sb' he h

theorem fingers_trace (el : ℕ → Bool) (draws : Name → Ivl → Draws) (hd : ∀ k i, (draws k i).Valid)
    (minW maxW : ℚ) (h1 : 0 < minW) (h2 : 0 < maxW) (sb sb' : SheetBuild G) (he : Excl sb)
    (h : singleFingers o el draws minW maxW sb = .ok sb') : Trace o geoms sb sb' := by
  unfold singleFingers at h
  rw [bind_ok] at h; obtain ⟨_, _, h⟩ := h
  refine fold_trace hpm geoms _ _ sb sb' ?_ he h
  intro e _ a b ha hs
  unfold fingersJoint at hs
  split at hs
  · rename_i s0 s1 _
    rw [bind_ok] at hs; obtain ⟨ok0, b1, hs⟩ := hs
    rw [bind_ok] at hs; obtain ⟨ok1, b2, hs⟩ := hs
    rw [bind_ok] at hs; obtain ⟨ch0, b3, hs⟩ := hs
    rw [bind_ok] at hs; obtain ⟨ch1, b4, hs⟩ := hs
    rw [bind_ok] at hs; obtain ⟨a0, b5, hs⟩ := hs
    rw [bind_ok] at hs; obtain ⟨a1, b6, hs⟩ := hs
    rw [bind_ok] at hs; obtain ⟨x, b7, hs⟩ := hs
    rw [bind_ok] at hs; obtain ⟨u, b8, hs⟩ := hs
    have m0 := (sub_ok (made_of_get ha.madeO b1) (made_of_get ha.madeC b3) b5).1
    refine fold_trace hpm geoms _ _ a b ?_ ha hs
    intro i hi a' b' ha' hs'
    unfold fingersAt at hs'
    rw [bind_ok] at hs'; obtain ⟨start, c1, hs'⟩ := hs'
    rw [bind_ok] at hs'; obtain ⟨stop, c2, hs'⟩ := hs'
    rw [bind_ok] at hs'; obtain ⟨d0, c3, hs'⟩ := hs'
    rw [bind_ok] at hs'; obtain ⟨d1, c4, hs'⟩ := hs'
    rw [bind_ok] at hs'; obtain ⟨cs, c5, hs'⟩ := hs'
    have hss : start < stop := by
      have := m0.nf.1 i hi
      rw [asFraction_ok c1, asFraction_ok c2] at this
      exact Ext.fin_lt_fin.1 this
    have hcs : ∀ c ∈ cs, Made c.2 := by
      obtain ⟨_, _, _, _, hcase⟩ := c48_split (draws e.1 i) (hd e.1 i) minW maxW h1 h2 d0 d1
        (made_of_get ha'.madeC c3) (made_of_get ha'.madeC c4) start stop hss
      rcases hcase with ⟨g, g1, g2, _⟩ | ⟨g0, g1, _, _, _, k1, k2, k3, _⟩
      · rw [c5] at g1
        cases g1
        intro c hc
        rw [List.mem_singleton] at hc
        subst hc
        exact g2
      · rw [c5] at k1
        cases k1
        intro c hc
        rcases List.mem_cons.1 hc with rfl | hc
        · exact k2
        · rw [List.mem_singleton] at hc
          subst hc
          exact k3
    refine fold_trace hpm geoms _ _ a' b' ?_ ha' hs'
    intro c hc a2 b2 ha2 hs2
    exact .single (.choose _ _ (hcs c hc) hs2)
  · cases hs

end

namespace Canned

/-- A successful run is a fresh build, elementary changes, and a clean-up. -/
theorem run_trace (p : Params G) (hp : p.Valid) (sp : SheetPlex) (hsp : sp.Paired) (rof : Option Bool) (r : Result G)
    (h : run p sp none rof = .ok r) (hr : r.ok = true) :
    ∃ sb0 sb1, createSheetbuild p.o sp p.geoms p.supportRadius = .ok sb0 ∧ r.history[0]? = some sb0 ∧
      Excl sb0 ∧ sb0.sheetplex = sp ∧ Trace p.o p.geoms sb0 sb1 ∧ cleanUp p.o sb1 = .ok r.sheetbuild := by
  obtain ⟨sb0, hist, sb', ⟨h1, h2, h3, h4⟩, rfl⟩ := (c53_ok _ _ _ _ rof r).1 ⟨h, hr⟩
  obtain ⟨pl, fr⟩ := create_fresh1 hp.project sp hsp p.geoms p.supportRadius sb0 h1
  have e0 := Fresh1.start fr
  unfold steps at h3
  obtain ⟨b1, hist1, o1, q1, rfl⟩ := h3.cons_inv
  obtain ⟨b2, hist2, o2, q2, rfl⟩ := q1.cons_inv
  obtain ⟨b3, hist3, o3, q3, rfl⟩ := q2.cons_inv
  obtain ⟨b4, hist4, o4, q4, rfl⟩ := q3.cons_inv
  obtain ⟨b5, hist5, o5, q5, rfl⟩ := q4.cons_inv
  obtain ⟨b6, hist6, o6, q6, rfl⟩ := q5.cons_inv
  obtain ⟨b7, hist7, o7, q7, rfl⟩ := q6.cons_inv
  obtain ⟨b8, hist8, o8, q8, rfl⟩ := q7.cons_inv
  obtain ⟨b9, hist9, o9, q9, rfl⟩ := q8.cons_inv
  obtain ⟨b10, hist10, o10, q10, rfl⟩ := q9.cons_inv
  obtain ⟨b11, hist11, o11, q11, rfl⟩ := q10.cons_inv
  obtain ⟨b12, hist12, o12, q12, rfl⟩ := q11.cons_inv
  cases q12
  have hpm := hp.project
  have t1 : Trace p.o p.geoms sb0 b1 := irrelevant_trace hpm p.geoms _ sb0 b1 e0 o1
  have t2 : Trace p.o p.geoms sb0 b2 := t1.trans (loose_trace hpm p.geoms _ b1 b2 (t1.step hpm e0).inv o2)
  have t3 : Trace p.o p.geoms sb0 b3 := t2.trans (interOk_trace hpm p.geoms _ b2 b3 (t2.step hpm e0).inv o3)
  have t4 : Trace p.o p.geoms sb0 b4 := t3.trans (sheetOk_trace hpm p.geoms _ b3 b4 (t3.step hpm e0).inv o4)
  have t5 : Trace p.o p.geoms sb0 b5 := t4.trans (interOk_trace hpm p.geoms _ b4 b5 (t4.step hpm e0).inv o5)
  have t6 : Trace p.o p.geoms sb0 b6 := t5.trans (loose_trace hpm p.geoms _ b5 b6 (t5.step hpm e0).inv o6)
  have t7 : Trace p.o p.geoms sb0 b7 := t6.trans (interOk_trace hpm p.geoms _ b6 b7 (t6.step hpm e0).inv o7)
  have t8 : Trace p.o p.geoms sb0 b8 := t7.trans (multi_trace hpm p.geoms _ p.order b7 b8 (t7.step hpm e0).inv o8)
  have t9 : Trace p.o p.geoms sb0 b9 := t8.trans (interOk_trace hpm p.geoms _ b8 b9 (t8.step hpm e0).inv o9)
  have t10 : Trace p.o p.geoms sb0 b10 := t9.trans (okSide_trace hpm p.geoms _ b9 b10 (t9.step hpm e0).inv o10)
  have t11 : Trace p.o p.geoms sb0 b11 := t10.trans (fingers_trace hpm p.geoms _ p.draws hp.draws p.minW p.maxW hp.minW hp.maxW b10 b11
    (t10.step hpm e0).inv o11)
  exact ⟨sb0, b11, h1, rfl, e0, pl, t11, o12⟩

end Canned

end Ply
