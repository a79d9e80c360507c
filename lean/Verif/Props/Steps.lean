import Verif.Props.SingleFingers

/-!
# The steps of the heuristics and the joints (C52, C63)
-/

namespace Ply

open MeasureTheory Geom1D Heu

variable {G : Type}

/-- Nothing chosen on one side of a joint is allowed on the other. -/
structure Excl (sb : SheetBuild G) : Prop extends Base1 sb where
  excl : ∀ s t, Joint sb.sheetplex s t → pts sb.interChosen s.id ∩ pts sb.interOk t.id = ∅

/-- What a step may do to the joints: more is chosen and less is allowed. -/
structure Step (sb sb' : SheetBuild G) : Prop where
  plex : sb'.sheetplex = sb.sheetplex
  inv : Excl sb'
  chosen : ∀ k, pts sb.interChosen k ⊆ pts sb'.interChosen k
  ok : ∀ k, pts sb'.interOk k ⊆ pts sb.interOk k

theorem Step.refl {sb : SheetBuild G} (h : Excl sb) : Step sb sb := ⟨rfl, h, fun _ => subset_rfl, fun _ => subset_rfl⟩

theorem Step.trans {a b c : SheetBuild G} (h : Step a b) (h' : Step b c) : Step a c :=
  ⟨h'.plex.trans h.plex, h'.inv, fun k => (h.chosen k).trans (h'.chosen k), fun k => (h'.ok k).trans (h.ok k)⟩

theorem fold_step {α : Type} (f : SheetBuild G → α → Except PyErr (SheetBuild G)) : ∀ (l : List α)
    (P : SheetBuild G → Prop) (_ : ∀ a b : SheetBuild G, a.sheetplex = b.sheetplex → P a → P b)
    (sb sb' : SheetBuild G) (_ : P sb) (_ : ∀ x ∈ l, ∀ a b, P a → Excl a → f a x = .ok b → Step a b),
    Excl sb → fold f sb l = .ok sb' → Step sb sb'
  | [], _, _, sb, sb', _, _, he, h => by
    cases h
    exact Step.refl he
  | x :: l, P, hP, sb, sb', hp, hf, he, h => by
    rw [fold, bind_ok] at h
    obtain ⟨sb1, h1, h⟩ := h
    have s1 := hf x List.mem_cons_self sb sb1 hp he h1
    exact s1.trans (fold_step f l P hP sb1 sb' (hP sb sb1 s1.plex.symm hp)
      (fun y hy => hf y (List.mem_cons_of_mem _ hy)) s1.inv h)

theorem fold_step' {α : Type} (f : SheetBuild G → α → Except PyErr (SheetBuild G)) (l : List α)
    (sb sb' : SheetBuild G) (hf : ∀ x ∈ l, ∀ a b, Excl a → f a x = .ok b → Step a b)
    (he : Excl sb) (h : fold f sb l = .ok sb') : Step sb sb' :=
  fold_step f l (fun _ => True) (fun _ _ _ _ => trivial) sb sb' trivial (fun x hx a b _ => hf x hx a b) he h

theorem Step.choose {o : G2Ops G} {sb sb' : SheetBuild G} (he : Excl sb) {id : Name × Name} {v : Geom1D} (hv : Made v)
    {tentative : Bool} (h : sb.chooseInterside o id v tentative = .ok sb') : Step sb sb' := by
  obtain ⟨s, t, ef⟩ := choose_effect o sb sb' he.madeC he.madeO id v hv tentative h
  have hid := (interside_spec _ he.paired id s ef.here).1
  subst hid
  have hj : Joint sb.sheetplex s t := ⟨ef.here, ef.opp⟩
  refine ⟨ef.plex, ⟨⟨by rw [ef.plex]; exact he.paired, ef.madeC, ef.madeO⟩, ?_⟩, ?_, ?_⟩
  · intro a b hab
    rw [ef.plex] at hab
    rw [Set.eq_empty_iff_forall_notMem]
    rintro x ⟨x1, x2⟩
    rw [ef.chosen] at x1
    rw [ef.ok] at x2
    have old := Set.eq_empty_iff_forall_notMem.1 (he.excl a b hab) x
    split_ifs at x1 with c1
    · obtain ⟨rfl, rfl⟩ := hab.unique hj c1
      rw [if_pos rfl] at x2
      rcases x1 with x1 | x1
      · exact old ⟨x1, x2.1⟩
      · exact x2.2 x1
    · split_ifs at x2
      · exact old ⟨x1, x2.1⟩
      · exact old ⟨x1, x2⟩
  · intro k
    rw [ef.chosen]
    split_ifs
    · exact Set.subset_union_left
    · exact subset_rfl
  · intro k
    rw [ef.ok]
    split_ifs
    · exact Set.sdiff_subset
    · exact subset_rfl

/-- A step that changes only what is allowed on joints, to less. -/
theorem Step.shrink {sb sb' : SheetBuild G} (he : Excl sb) (hp : sb'.sheetplex = sb.sheetplex)
    (hc : ∀ k, pts sb'.interChosen k = pts sb.interChosen k) (hm : MadeMap sb'.interChosen)
    (ho : MadeMap sb'.interOk) (hs : ∀ k, pts sb'.interOk k ⊆ pts sb.interOk k) : Step sb sb' := by
  refine ⟨hp, ⟨⟨by rw [hp]; exact he.paired, hm, ho⟩, ?_⟩, fun k => by rw [hc], hs⟩
  intro a b hab
  rw [hp] at hab
  rw [hc, Set.eq_empty_iff_forall_notMem]
  rintro x ⟨x1, x2⟩
  exact Set.eq_empty_iff_forall_notMem.1 (he.excl a b hab) x ⟨x1, hs _ x2⟩

theorem Step.unchoose {sb sb' : SheetBuild G} (he : Excl sb) {id : Name × Name} {v : Geom1D} (hv : Made v)
    (h : sb.unchooseInterside id v = .ok sb') : Step sb sb' := by
  obtain ⟨h1, _, _, h4, h5, h6, _⟩ := unchoose_effect sb sb' he.paired he.madeC he.madeO id v hv h
  refine Step.shrink he h1 (fun k => by rw [h4]) (by rw [h4]; exact he.madeC) h5 fun k => ?_
  rw [h6]
  split_ifs
  · exact Set.sdiff_subset
  · exact subset_rfl

/-- Only the allowed areas of sheets differ. -/
def OnlySheetOk (sb sb' : SheetBuild G) : Prop := sb' = { sb with sheetOk := sb'.sheetOk }

theorem OnlySheetOk.refl (sb : SheetBuild G) : OnlySheetOk sb sb := rfl

theorem OnlySheetOk.trans {a b c : SheetBuild G} (h : OnlySheetOk a b) (h' : OnlySheetOk b c) : OnlySheetOk a c := by
  unfold OnlySheetOk at *
  rw [h', h]

theorem OnlySheetOk.step {sb sb' : SheetBuild G} (he : Excl sb) (h : OnlySheetOk sb sb') : Step sb sb' := by
  unfold OnlySheetOk at h
  exact Step.shrink he (by rw [h]) (fun k => by rw [h]) (by rw [h]; exact he.madeC) (by rw [h]; exact he.madeO)
    (fun k => by rw [h])

theorem fold_only {α : Type} (f : SheetBuild G → α → Except PyErr (SheetBuild G))
    (hf : ∀ x a b, f a x = .ok b → OnlySheetOk a b) : ∀ (l : List α) (sb sb' : SheetBuild G),
    fold f sb l = .ok sb' → OnlySheetOk sb sb'
  | [], sb, sb', h => by
    cases h
    rfl
  | x :: l, sb, sb', h => by
    rw [fold, bind_ok] at h
    obtain ⟨sb1, h1, h⟩ := h
    exact (hf x sb sb1 h1).trans (fold_only f hf l sb1 sb' h)

theorem and_ok {a b c : Geom1D} (ha : Made a) (hb : Made b) (h : a.and b = .ok c) :
    Made c ∧ pointsOf c.intervals = pointsOf a.intervals ∩ pointsOf b.intervals := by
  obtain ⟨c', h1, h2, h3⟩ := and_denotes ha.nf hb.nf
  rw [h] at h1
  cases h1
  exact ⟨(made_iff_nf _).2 h2, h3⟩

theorem invert_ok {a c : Geom1D} (ha : Made a) (h : a.invert = .ok c) : Made c := by
  obtain ⟨c', h1, h2, h3⟩ := invert_denotes ha.nf
  rw [h] at h1
  cases h1
  exact (made_iff_nf _).2 h2

theorem buffer_ok {a c : Geom1D} (ha : Made a) {r : ℚ} (h : a.buffer (.mpq r) = .ok c) : Made c := by
  obtain ⟨c', h1, h2, _⟩ := buffer_mpq a ha r
  rw [h] at h1
  cases h1
  exact h2

theorem unchooseIntersides_step : ∀ (m : PMap (Name × Name) Geom1D) (sb sb' : SheetBuild G), Excl sb →
    (∀ e ∈ m, Made e.2) → sb.unchooseIntersides m = .ok sb' → Step sb sb'
  | [], sb, sb', he, _, h => by
    cases h
    exact Step.refl he
  | (id, v) :: m, sb, sb', he, hm, h => by
    rw [SheetBuild.unchooseIntersides, bind_ok] at h
    obtain ⟨sb1, h1, h⟩ := h
    have s1 := Step.unchoose he (hm (id, v) List.mem_cons_self) h1
    exact s1.trans (unchooseIntersides_step m sb1 sb' s1.inv (fun e he => hm e (List.mem_cons_of_mem _ he)) h)

theorem dictOf_values {κ α β : Type} (key : α → κ) (f : α → Except PyErr β) : ∀ (l : List α) (r : PMap κ β),
    dictOf key f l = .ok r → ∀ e ∈ r, ∃ x ∈ l, f x = .ok e.2 ∧ key x = e.1
  | [], r, h, e, he => by
    cases h
    cases he
  | x :: l, r, h, e, he => by
    rw [dictOf, bind_ok] at h
    obtain ⟨v, h1, h⟩ := h
    rw [bind_ok] at h
    obtain ⟨tl, h2, h⟩ := h
    cases h
    rcases List.mem_cons.1 he with rfl | he
    · exact ⟨x, List.mem_cons_self, h1, rfl⟩
    · obtain ⟨y, hy, hy'⟩ := dictOf_values key f l tl h2 e he
      exact ⟨y, List.mem_cons_of_mem _ hy, hy'⟩

/-- `choose_obviously_irrelevant` only takes back allowed stretches. -/
theorem irrelevant_step {o : G2Ops G} (hpm : ProjectMade o) (geoms : Name → SheetGeoms G) (el : ℕ → Bool)
    (sb sb' : SheetBuild G) (he : Excl sb) (h : chooseIrrelevant o geoms el sb = .ok sb') : Step sb sb' := by
  unfold chooseIrrelevant at h
  rw [bind_ok] at h; obtain ⟨_, _, h⟩ := h
  rw [bind_ok] at h; obtain ⟨m, hm, h⟩ := h
  refine unchooseIntersides_step m sb sb' he ?_ h
  intro e hme
  obtain ⟨s, _, hs, _⟩ := dictOf_values _ _ _ _ hm e hme
  unfold irrelevantAt at hs
  rw [bind_ok] at hs; obtain ⟨ok, a1, hs⟩ := hs
  rw [bind_ok] at hs; obtain ⟨wide, _, hs⟩ := hs
  rw [bind_ok] at hs; obtain ⟨fing, _, hs⟩ := hs
  rw [bind_ok] at hs; obtain ⟨b1, _, hs⟩ := hs
  rw [bind_ok] at hs; obtain ⟨out1, _, hs⟩ := hs
  rw [bind_ok] at hs; obtain ⟨b2, _, hs⟩ := hs
  rw [bind_ok] at hs; obtain ⟨out2, _, hs⟩ := hs
  rw [bind_ok] at hs; obtain ⟨p, a8, hs⟩ := hs
  rw [bind_ok] at hs; obtain ⟨less, a9, hs⟩ := hs
  rw [bind_ok] at hs; obtain ⟨opp, _, hs⟩ := hs
  rw [bind_ok] at hs; obtain ⟨okOpp, a11, hs⟩ := hs
  rw [bind_ok] at hs; obtain ⟨r, a12, hs⟩ := hs
  have m1 := (and_ok (invert_ok (hpm _ _ _ a8) a9) (made_of_get he.madeO a1) a12).1
  exact (and_ok m1 (made_of_get he.madeO a11) hs).1

/-- C52: `remove_loose` changes only allowed areas. -/
theorem c52_loose_only (o : G2Ops G) (geoms : Name → SheetGeoms G) (el : ℕ → Bool) (sb sb' : SheetBuild G)
    (h : removeLoose o geoms el sb = .ok sb') : OnlySheetOk sb sb' := by
  unfold removeLoose at h
  rw [bind_ok] at h; obtain ⟨_, _, h⟩ := h
  refine fold_only _ ?_ _ sb sb' h
  intro x a b hx
  unfold looseSheet at hx
  rw [bind_ok] at hx; obtain ⟨_, _, hx⟩ := hx
  rw [bind_ok] at hx; obtain ⟨_, _, hx⟩ := hx
  rw [bind_ok] at hx; obtain ⟨_, _, hx⟩ := hx
  rw [bind_ok] at hx; obtain ⟨_, _, hx⟩ := hx
  rw [bind_ok] at hx; obtain ⟨_, _, hx⟩ := hx
  rw [bind_ok] at hx; obtain ⟨_, _, hx⟩ := hx
  cases hx
  rfl

/-- C52: `update_sheet_ok` changes only allowed areas. -/
theorem c52_sheet_only (o : G2Ops G) (el : ℕ → Bool) (sb sb' : SheetBuild G)
    (h : updateSheetOk o el sb = .ok sb') : OnlySheetOk sb sb' := by
  unfold updateSheetOk at h
  rw [bind_ok] at h; obtain ⟨_, _, h⟩ := h
  refine fold_only _ ?_ _ sb sb' h
  intro x a b hx
  unfold sheetOkAt at hx
  rw [bind_ok] at hx; obtain ⟨_, _, hx⟩ := hx
  rw [bind_ok] at hx; obtain ⟨_, _, hx⟩ := hx
  rw [bind_ok] at hx; obtain ⟨_, _, hx⟩ := hx
  rw [bind_ok] at hx; obtain ⟨_, _, hx⟩ := hx
  rw [bind_ok] at hx; obtain ⟨_, _, hx⟩ := hx
  obtain ⟨_, _, _, _, _, _, _, _, h6⟩ := unchooseArea_effect o a b _ _ hx
  exact h6

/-- C52: `clean_up_thin_ok_parts` changes only allowed areas. -/
theorem c52_clean_only (o : G2Ops G) (sb sb' : SheetBuild G) (h : cleanUp o sb = .ok sb') : OnlySheetOk sb sb' := by
  unfold cleanUp at h
  rw [bind_ok] at h; obtain ⟨_, _, h⟩ := h
  cases h
  rfl

/-- One side of `update_intersection_ok`. -/
theorem interOkAt_effect {o : G2Ops G} (hpm : ProjectMade o) (sb sb' : SheetBuild G) (ho : MadeMap sb.interOk)
    (s : InterSide) (h : interOkAt o sb s = .ok sb') :
    sb' = { sb with interOk := sb'.interOk } ∧ MadeMap sb'.interOk ∧
    ∃ ok wide f c m p q b, sb.interOk.get s.id = .ok ok ∧ ok.buffer (.mpq (1 / 10)) = .ok wide ∧
      o.fingers s wide = .ok f ∧ sb.sheetOk.get s.sheet = .ok c ∧ o.and f c = .ok m ∧ o.project s f = .ok p ∧
      o.project s m = .ok q ∧ b = dilate (pointsOf p.intervals \ pointsOf q.intervals) (1 / 1000) ∧
      ∀ k, pts sb'.interOk k = if k = s.id then pts sb.interOk k \ b else pts sb.interOk k := by
  unfold interOkAt at h
  rw [bind_ok] at h; obtain ⟨ok, a1, h⟩ := h
  rw [bind_ok] at h; obtain ⟨wide, a2, h⟩ := h
  rw [bind_ok] at h; obtain ⟨f, a3, h⟩ := h
  rw [bind_ok] at h; obtain ⟨c, a4, h⟩ := h
  rw [bind_ok] at h; obtain ⟨m, a5, h⟩ := h
  rw [bind_ok] at h; obtain ⟨p, a6, h⟩ := h
  rw [bind_ok] at h; obtain ⟨q, a7, h⟩ := h
  rw [bind_ok] at h; obtain ⟨u, a8, h⟩ := h
  rw [bind_ok] at h; obtain ⟨b, a9, h⟩ := h
  rw [bind_ok] at h; obtain ⟨r, a10, h⟩ := h
  cases h
  obtain ⟨m8, p8⟩ := sub_ok (hpm _ _ _ a6) (hpm _ _ _ a7) a8
  obtain ⟨b', b1, b2, b3, _⟩ := buffer_mpq u m8 (1 / 1000)
  rw [a9] at b1
  cases b1
  have b4 := b3 (by norm_num)
  obtain ⟨⟨w, v, c1, c2, c3⟩, c4⟩ := c57_op_geom Geom1D.sub sb.interOk r s.id b a10
  obtain ⟨v1, v2⟩ := sub_ok (ho _ _ c1) b2 c2
  refine ⟨rfl, ?_, ok, wide, f, c, m, p, q, _, a1, a2, a3, a4, a5, a6, a7, rfl, ?_⟩
  · intro k g hk
    by_cases e : k = s.id
    · subst e
      rw [c3] at hk
      cases hk
      exact v1
    · rw [c4 k e] at hk
      exact ho k g hk
  · intro k
    show pts r k = _
    unfold pts
    by_cases e : k = s.id
    · subst e
      rw [c3, c1, if_pos rfl]
      dsimp only
      rw [v2, b4, p8]
      norm_num
    · rw [c4 k e, if_neg e]

theorem interOk_step {o : G2Ops G} (hpm : ProjectMade o) (el : ℕ → Bool) (sb sb' : SheetBuild G) (he : Excl sb)
    (h : updateInterOk o el sb = .ok sb') : Step sb sb' := by
  unfold updateInterOk at h
  rw [bind_ok] at h; obtain ⟨_, _, h⟩ := h
  refine fold_step' _ _ sb sb' ?_ he h
  intro s _ a b ha hs
  obtain ⟨h1, h2, _, _, _, _, _, _, _, B, _, _, _, _, _, _, _, _, h3⟩ := interOkAt_effect hpm a b ha.madeO s hs
  refine Step.shrink ha (by rw [h1]) (fun k => by rw [h1]) (by rw [h1]; exact ha.madeC) h2 fun k => ?_
  rw [h3]
  split_ifs
  · exact Set.sdiff_subset
  · exact subset_rfl

/-- The stretches near which the fingers of a side, made a little wider, leave the allowed area. -/
def Unsupported (o : G2Ops G) (sb : SheetBuild G) (s : InterSide) (B : Set ℝ) : Prop :=
  ∃ ok wide f c m p q, sb.interOk.get s.id = .ok ok ∧ ok.buffer (.mpq (1 / 10)) = .ok wide ∧
    o.fingers s wide = .ok f ∧ sb.sheetOk.get s.sheet = .ok c ∧ o.and f c = .ok m ∧ o.project s f = .ok p ∧
    o.project s m = .ok q ∧ B = dilate (pointsOf p.intervals \ pointsOf q.intervals) (1 / 1000)

theorem interOk_fold {o : G2Ops G} (hpm : ProjectMade o) : ∀ (l : List InterSide) (sb sb' : SheetBuild G),
    MadeMap sb.interOk → (l.map InterSide.id).Nodup → fold (interOkAt o) sb l = .ok sb' →
    sb' = { sb with interOk := sb'.interOk } ∧
    (∀ s ∈ l, ∃ B, Unsupported o sb s B ∧ pts sb'.interOk s.id = pts sb.interOk s.id \ B) ∧
    (∀ k, k ∉ l.map InterSide.id → sb'.interOk.get? k = sb.interOk.get? k)
  | [], sb, sb', _, _, h => by
    cases h
    exact ⟨rfl, by simp, fun _ _ => rfl⟩
  | s :: l, sb, sb', hm, hn, h => by
    rw [fold, bind_ok] at h
    obtain ⟨sb1, h1, h⟩ := h
    have hn' := List.nodup_cons.1 (show (s.id :: l.map InterSide.id).Nodup from hn)
    obtain ⟨e1, m1, ok, wide, f, c, m, p, q, B, a1, a2, a3, a4, a5, a6, a7, a8, a9⟩ :=
      interOkAt_effect hpm sb sb1 hm s h1
    have other : ∀ k, k ≠ s.id → sb1.interOk.get? k = sb.interOk.get? k := by
      intro k hk
      unfold interOkAt at h1
      rw [bind_ok] at h1; obtain ⟨_, _, h1⟩ := h1
      rw [bind_ok] at h1; obtain ⟨_, _, h1⟩ := h1
      rw [bind_ok] at h1; obtain ⟨_, _, h1⟩ := h1
      rw [bind_ok] at h1; obtain ⟨_, _, h1⟩ := h1
      rw [bind_ok] at h1; obtain ⟨_, _, h1⟩ := h1
      rw [bind_ok] at h1; obtain ⟨_, _, h1⟩ := h1
      rw [bind_ok] at h1; obtain ⟨_, _, h1⟩ := h1
      rw [bind_ok] at h1; obtain ⟨_, _, h1⟩ := h1
      rw [bind_ok] at h1; obtain ⟨_, _, h1⟩ := h1
      rw [bind_ok] at h1; obtain ⟨_, h10, h1⟩ := h1
      cases h1
      exact (c57_op_geom Geom1D.sub sb.interOk _ s.id _ h10).2 k hk
    obtain ⟨r1, r2, r3⟩ := interOk_fold hpm l sb1 sb' m1 hn'.2 h
    refine ⟨?_, ?_, ?_⟩
    · rw [r1, e1]
    · intro x hx
      rcases List.mem_cons.1 hx with rfl | hx
      · refine ⟨B, ⟨ok, wide, f, c, m, p, q, a1, a2, a3, a4, a5, a6, a7, a8⟩, ?_⟩
        have := r3 x.id hn'.1
        have h2 := a9 x.id
        rw [if_pos rfl] at h2
        rw [← h2]
        unfold pts
        rw [this]
      · have hne : x.id ≠ s.id := fun (e : x.id = s.id) => hn'.1 (e ▸ List.mem_map_of_mem hx)
        obtain ⟨C, ⟨ok', wide', f', c', m', p', q', b1, b2, b3, b4, b5, b6, b7, b8⟩, hC⟩ := r2 x hx
        refine ⟨C, ⟨ok', wide', f', c', m', p', q', ?_, b2, b3, ?_, b5, b6, b7, b8⟩, ?_⟩
        · rw [PMap.get_ok] at b1 ⊢
          rw [← other x.id hne]
          exact b1
        · rw [e1] at b4
          exact b4
        · rw [hC, a9, if_neg hne]
    · intro k hk
      have hk' : k ≠ s.id ∧ k ∉ l.map InterSide.id := by simpa using hk
      rw [r3 k hk'.2, other k hk'.1]

/-- C52: `update_intersection_ok` changes only what is allowed on joints; from every side it takes the
stretches within 1/1000 of where the fingers of the allowed stretches, made wider by 1/10, do not meet
the allowed area of the sheet. -/
theorem c52_inter {o : G2Ops G} (hpm : ProjectMade o) (el : ℕ → Bool) (sb sb' : SheetBuild G) (hb : Base1 sb)
    (h : updateInterOk o el sb = .ok sb') :
    sb' = { sb with interOk := sb'.interOk } ∧
    ∀ s t, Joint sb.sheetplex s t → ∃ B, Unsupported o sb s B ∧ pts sb'.interOk s.id = pts sb.interOk s.id \ B := by
  unfold updateInterOk at h
  rw [bind_ok] at h; obtain ⟨_, _, h⟩ := h
  obtain ⟨_, p2, _, p4⟩ := paired_intersides _ hb.paired _ (List.Perm.refl _) []
  obtain ⟨h1, h2, _⟩ := interOk_fold hpm (allSides sb.sheetplex) sb sb' hb.madeO p4 h
  exact ⟨h1, fun s t hj => h2 s ((p2 s).2 hj.1)⟩

/-! ### The cluster step -/

theorem findExtra_made (sb : SheetBuild G) (ho : MadeMap sb.interOk) (cluster : Cluster) (hc : MadeMap cluster) :
    ∀ (l : List InterSide) (r : Cluster), findExtra sb cluster l = .ok r → MadeMap r
  | [], r, h => by cases h
  | s :: l, r, h => by
    rw [findExtra.eq_def] at h
    dsimp only at h
    rw [bind_ok] at h; obtain ⟨inter, a1, h⟩ := h
    rw [bind_ok] at h; obtain ⟨dflt, a2, h⟩ := h
    rw [bind_ok] at h; obtain ⟨b, a3, h⟩ := h
    rw [bind_ok] at h; obtain ⟨ok, a4, h⟩ := h
    rw [bind_ok] at h; obtain ⟨m1, a5, h⟩ := h
    rw [bind_ok] at h; obtain ⟨m2, a6, h⟩ := h
    split at h
    · exact findExtra_made sb ho cluster hc l r h
    · split_ifs at h
      · exact findExtra_made sb ho cluster hc l r h
      · rw [bind_ok] at h; obtain ⟨g, a7, h⟩ := h
        obtain ⟨⟨w, v, c1, c2, c3⟩, c4⟩ := c57_op_geom Geom1D.or cluster r s.intersection g h
        intro k g' hk
        by_cases e : k = s.intersection
        · subst e
          rw [c3] at hk
          cases hk
          exact ⟨_, c2⟩
        · rw [c4 k e] at hk
          exact hc k g' hk

theorem findExtra_nodup (sb : SheetBuild G) (cluster : Cluster) (hd : (cluster.map Prod.fst).Nodup) :
    ∀ (l : List InterSide) (r : Cluster), findExtra sb cluster l = .ok r → (r.map Prod.fst).Nodup
  | [], r, h => by cases h
  | s :: l, r, h => by
    rw [findExtra.eq_def] at h
    dsimp only at h
    rw [bind_ok] at h; obtain ⟨inter, a1, h⟩ := h
    rw [bind_ok] at h; obtain ⟨dflt, a2, h⟩ := h
    rw [bind_ok] at h; obtain ⟨b, a3, h⟩ := h
    rw [bind_ok] at h; obtain ⟨ok, a4, h⟩ := h
    rw [bind_ok] at h; obtain ⟨m1, a5, h⟩ := h
    rw [bind_ok] at h; obtain ⟨m2, a6, h⟩ := h
    split at h
    · exact findExtra_nodup sb cluster hd l r h
    · split_ifs at h
      · exact findExtra_nodup sb cluster hd l r h
      · rw [bind_ok] at h; obtain ⟨g, a7, h⟩ := h
        unfold mapOpGeom at h
        split at h
        · rw [bind_ok] at h; obtain ⟨v, _, h⟩ := h
          cases h
          exact PMap.nodup_set _ _ _ hd
        · cases h

theorem cluster_step (o : G2Ops G) (el : ℕ → Bool) (order : List Name → List Name) (sb sb' : SheetBuild G)
    (he : Excl sb) (e : ℕ × Cluster) (hc : MadeMap e.2) (hd : (e.2.map Prod.fst).Nodup)
    (h : decideCluster o el order sb e = .ok sb') : Step sb sb' := by
  unfold decideCluster at h
  rw [bind_ok] at h; obtain ⟨sides, a1, h⟩ := h
  rw [bind_ok] at h; obtain ⟨ds, a2, h⟩ := h
  rw [bind_ok] at h; obtain ⟨best, a3, h⟩ := h
  dsimp only at h
  rw [bind_ok] at h; obtain ⟨cluster, a4, h⟩ := h
  rw [bind_ok] at h; obtain ⟨u, a5, h⟩ := h
  rw [bind_ok] at h; obtain ⟨sb1, a6, h⟩ := h
  rw [bind_ok] at h; obtain ⟨sb2, a7, h⟩ := h
  rw [bind_ok] at h; obtain ⟨u', a8, h⟩ := h
  cases h
  have hm : MadeMap cluster ∧ (cluster.map Prod.fst).Nodup := by
    split_ifs at a4
    · exact ⟨findExtra_made sb he.madeO e.2 hc _ cluster a4, findExtra_nodup sb e.2 hd _ cluster a4⟩
    · cases a4
      exact ⟨hc, hd⟩
  have s1 : Step sb sb1 := by
    refine fold_step' _ _ sb sb1 ?_ he a6
    intro s _ a b ha hs
    unfold chooseCluster at hs
    rw [bind_ok] at hs; obtain ⟨c, b1, hs⟩ := hs
    rw [bind_ok] at hs; obtain ⟨ok, b2, hs⟩ := hs
    rw [bind_ok] at hs; obtain ⟨v, b3, hs⟩ := hs
    exact Step.choose ha (and_ok (made_of_get hm.1 b1) (made_of_get ha.madeO b2) b3).1 hs
  have s2 : Step sb1 sb' := by
    refine fold_step' _ _ sb1 sb' ?_ s1.inv a7
    intro x hx a b ha hs
    unfold unchooseCluster at hs
    rw [bind_ok] at hs; obtain ⟨i, b1, hs⟩ := hs
    refine fold_step' _ _ a b ?_ ha hs
    intro s _ a' b' ha' hs'
    split_ifs at hs'
    · exact Step.unchoose ha' (hm.1 x.1 x.2 (PMap.get?_of_mem _ hm.2 x hx)) hs'
    · cases hs'
      exact Step.refl ha'
  exact s1.trans s2

/-- `heuristic_multi_inter_single_decisions` chooses and takes back stretches only. -/
theorem multi_step {o : G2Ops G} (hpm : ProjectMade o) (el : ℕ → Bool) (order : List Name → List Name)
    (sb sb' : SheetBuild G) (he : Excl sb) (h : multiInter o el order sb = .ok sb') : Step sb sb' := by
  unfold multiInter at h
  rw [bind_ok] at h; obtain ⟨xs, a1, h⟩ := h
  rw [bind_ok] at h; obtain ⟨m, a2, h⟩ := h
  rw [bind_ok] at h; obtain ⟨_, _, h⟩ := h
  obtain ⟨hx, _⟩ := c50_found hpm sb he.paired xs a1
  obtain ⟨m', _, e1, _, e3, _⟩ := c50_components sb.sheetplex xs hx
  rw [a2] at e1
  cases e1
  refine fold_step' _ _ sb sb' ?_ he h
  intro e hme a b ha hs
  exact cluster_step o el order a b ha e (e3 e hme).1 (e3 e hme).2 hs

/-- `choose_the_ok_side` as a step. -/
theorem okSide_step (o : G2Ops G) (el : ℕ → Bool) (sb sb' : SheetBuild G) (he : Excl sb)
    (h : chooseOkSide o el sb = .ok sb') : Step sb sb' := by
  unfold chooseOkSide at h
  rw [bind_ok] at h; obtain ⟨_, _, h⟩ := h
  have key : ∀ (l : List InterSide) (n : ℕ) (a b : SheetBuild G), Excl a → okSides o el a l n = .ok b → Step a b := by
    intro l
    induction l with
    | nil =>
      intro n a b ha h
      cases h
      exact Step.refl ha
    | cons s l ih =>
      intro n a b ha h
      rw [okSides, bind_ok] at h
      obtain ⟨a1, h1, h⟩ := h
      have s1 : Step a a1 := by
        unfold okSideAt at h1
        rw [bind_ok] at h1; obtain ⟨ok, b1, h1⟩ := h1
        rw [bind_ok] at h1; obtain ⟨ch, b2, h1⟩ := h1
        rw [bind_ok] at h1; obtain ⟨v1, b3, h1⟩ := h1
        rw [bind_ok] at h1; obtain ⟨opp, b4, h1⟩ := h1
        rw [bind_ok] at h1; obtain ⟨oppOk, b5, h1⟩ := h1
        rw [bind_ok] at h1; obtain ⟨v2, b6, h1⟩ := h1
        rw [bind_ok] at h1; obtain ⟨oppCh, b7, h1⟩ := h1
        rw [bind_ok] at h1; obtain ⟨orig, b8, h1⟩ := h1
        rw [bind_ok] at h1; obtain ⟨e, b9, h1⟩ := h1
        rw [bind_ok] at h1; obtain ⟨only, b10, h1⟩ := h1
        rw [bind_ok] at h1; obtain ⟨small, b11, h1⟩ := h1
        rw [bind_ok] at h1; obtain ⟨sb1, b12, h1⟩ := h1
        rw [bind_ok] at h1; obtain ⟨sb2, b13, h1⟩ := h1
        rw [bind_ok] at h1; obtain ⟨_, _, h1⟩ := h1
        cases h1
        have m3 := (sub_ok (made_of_get ha.madeO b1) (made_of_get ha.madeC b2) b3).1
        have m6 := (sub_ok m3 (made_of_get ha.madeO b5) b6).1
        have m8 := (sub_ok m6 (made_of_get ha.madeC b7) b8).1
        have m10 := buffer_ok (buffer_ok m8 b9) b10
        have m11 := (sub_ok m8 m10 b11).1
        have t1 := Step.choose ha m10 b12
        exact t1.trans (Step.unchoose t1.inv m11 b13)
      exact s1.trans (ih (n + 1) a1 b s1.inv h)
  exact key _ 1 sb sb' he h

/-- `single_fingers_random` as a step. -/
theorem fingers_step (o : G2Ops G) (el : ℕ → Bool) (draws : Name → Ivl → Draws) (hd : ∀ k i, (draws k i).Valid)
    (minW maxW : ℚ) (h1 : 0 < minW) (h2 : 0 < maxW) (sb sb' : SheetBuild G) (he : Excl sb)
    (h : singleFingers o el draws minW maxW sb = .ok sb') : Step sb sb' := by
  unfold singleFingers at h
  rw [bind_ok] at h; obtain ⟨_, _, h⟩ := h
  refine fold_step' _ _ sb sb' ?_ he h
  intro e _ a b ha hs
  unfold fingersJoint at hs
  split at hs
  · rename_i s0 s1 _
    rw [bind_ok] at hs; obtain ⟨ok0, b1, hs⟩ := hs
    rw [bind_ok] at hs; obtain ⟨ok1, b2, hs⟩ := hs
    rw [bind_ok] at hs; obtain ⟨ch0, b3, hs⟩ := hs
    rw [bind_ok] at hs; obtain ⟨ch1, b4, hs⟩ := hs
    rw [bind_ok] at hs; obtain ⟨a0, b5, hs⟩ := hs
    rw [bind_ok] at hs; obtain ⟨a1, b6, hs⟩ := hs
    rw [bind_ok] at hs; obtain ⟨x, b7, hs⟩ := hs
    rw [bind_ok] at hs; obtain ⟨u, b8, hs⟩ := hs
    have m0 := (sub_ok (made_of_get ha.madeO b1) (made_of_get ha.madeC b3) b5).1
    refine fold_step' _ _ a b ?_ ha hs
    intro i hi a' b' ha' hs'
    unfold fingersAt at hs'
    rw [bind_ok] at hs'; obtain ⟨start, c1, hs'⟩ := hs'
    rw [bind_ok] at hs'; obtain ⟨stop, c2, hs'⟩ := hs'
    rw [bind_ok] at hs'; obtain ⟨d0, c3, hs'⟩ := hs'
    rw [bind_ok] at hs'; obtain ⟨d1, c4, hs'⟩ := hs'
    rw [bind_ok] at hs'; obtain ⟨cs, c5, hs'⟩ := hs'
    have hss : start < stop := by
      have := m0.nf.1 i hi
      rw [asFraction_ok c1, asFraction_ok c2] at this
      exact Ext.fin_lt_fin.1 this
    have hcs : ∀ c ∈ cs, Made c.2 := by
      obtain ⟨_, _, _, _, hcase⟩ := c48_split (draws e.1 i) (hd e.1 i) minW maxW h1 h2 d0 d1
        (made_of_get ha'.madeC c3) (made_of_get ha'.madeC c4) start stop hss
      rcases hcase with ⟨g, g1, g2, _⟩ | ⟨g0, g1, _, _, _, k1, k2, k3, _⟩
      · rw [c5] at g1
        cases g1
        intro c hc
        rw [List.mem_singleton] at hc
        subst hc
        exact g2
      · rw [c5] at k1
        cases k1
        intro c hc
        rcases List.mem_cons.1 hc with rfl | hc
        · exact k2
        · rw [List.mem_singleton] at hc
          subst hc
          exact k3
    refine fold_step' _ _ a' b' ?_ ha' hs'
    intro c hc a2 b2 ha2 hs2
    exact Step.choose ha2 (hcs c hc) hs2
  · cases hs

end Ply
