import Verif.Props.SheetBuild
import Verif.Props.Fingers

/-! # C62: which choices are accepted -/

namespace Ply

open MeasureTheory Geom1D

variable {G : Type}

/-- Every joint side and every sheet of a joint has its entries. -/
structure Full (sb : SheetBuild G) : Prop where
  ok : ∀ id s, sb.sheetplex.interside id = .ok s → ∃ g, sb.interOk.get? id = some g
  chosen : ∀ id s, sb.sheetplex.interside id = .ok s → ∃ g, sb.interChosen.get? id = some g
  sheetOk : ∀ id s, sb.sheetplex.interside id = .ok s → ∃ g, sb.sheetOk.get? s.sheet = some g
  sheetChosen : ∀ id s, sb.sheetplex.interside id = .ok s → ∃ g, sb.sheetChosen.get? s.sheet = some g

/-- The 2D operations do not raise. -/
structure Total (o : G2Ops G) (Valid : G → Prop) : Prop where
  or : ∀ a b, Valid a → Valid b → ∃ c, o.or a b = .ok c
  and : ∀ a b, Valid a → Valid b → ∃ c, o.and a b = .ok c
  sub : ∀ a b, Valid a → Valid b → ∃ c, o.sub a b = .ok c
  area : ∀ a, Valid a → ∃ q, o.area a = .ok q
  fingers : ∀ s v, Made v → v.isBounded = true → ∃ f, o.fingers s v = .ok f

/-- Almost contained sets. -/
theorem LawfulArea.ae_mono {X : Type} {o : G2Ops G} {l : Filter X} {Valid : G → Prop} {den : G → Set X}
    {μ : Set X → ENNReal} (A : LawfulArea o l Valid den μ) {S T : Set X} (h : ∀ᶠ x in l, x ∈ S → x ∈ T) : μ S ≤ μ T := by
  have h0 : μ (S \ T) = 0 := by
    apply A.null
    filter_upwards [h] with x hx hx'
    exact hx'.2 (hx hx'.1)
  refine le_trans (A.mono _ _ ?_) (le_trans (A.union T (S \ T)) (by rw [h0, add_zero]))
  intro x hx
  by_cases h : x ∈ T
  · exact Or.inl h
  · exact Or.inr ⟨hx, h⟩

/-- The calls of 2D operations made by `choose_interside` do not raise. -/
structure ChooseCalls (o : G2Ops G) (sb : SheetBuild G) (s t : InterSide) (v : Geom1D) (tentative : Bool) : Prop where
  opp : ∃ F c k, o.fingers t v = .ok F ∧ sb.sheetChosen.get? t.sheet = some c ∧ sb.sheetOk.get? t.sheet = some k ∧
    (∃ b, o.and F c = .ok b) ∧ ∃ d, o.sub k F = .ok d
  own : tentative = false → ∃ f c k fk, o.fingers s v = .ok f ∧ sb.sheetChosen.get? s.sheet = some c ∧
    sb.sheetOk.get? s.sheet = some k ∧ o.and f k = .ok fk ∧ ∃ u, o.or c fk = .ok u

/-- The area of a valid geom is always found. -/
def TotalArea (o : G2Ops G) (Valid : G → Prop) : Prop := ∀ a, Valid a → ∃ q, o.area a = .ok q

/-- C62: unless a 2D operation raises, a choice that leaves what is allowed by less than 1e-6 and meets what
is chosen on the opposite sheet in less than 1e-6 is accepted. -/
theorem c62_calls {X : Type} {o : G2Ops G} {l : Filter X} {Valid : G → Prop} {den : G → Set X}
    {μ : Set X → ENNReal} (L : Lawful o l Valid den) (A : LawfulArea o l Valid den μ) (T : TotalArea o Valid)
    (sb : SheetBuild G) (hg : Good Valid sb) (hf : Full sb) (id : Name × Name) (s t : InterSide)
    (hs : sb.sheetplex.interside id = .ok s) (ht : s.opposite sb.sheetplex = .ok t) (v : Geom1D) (hv : Made v)
    (hin : volume (pointsOf v.intervals \ pts sb.interOk id) < ENNReal.ofReal (tol6 : ℝ))
    (hopp : ∀ F, o.fingers t v = .ok F → μ (den F ∩ dens den sb.sheetChosen t.sheet) < ENNReal.ofReal (tol6 : ℝ))
    (tentative : Bool) (calls : ChooseCalls o sb s t v tentative) :
    ∃ sb', sb.chooseInterside o id v tentative = .ok sb' := by
  obtain ⟨hid, t', e1, e2, e3, e4, e5, _⟩ := interside_spec _ hg.paired id s hs
  rw [ht] at e1
  cases e1
  obtain ⟨okHere, a1⟩ := hf.ok id s hs
  obtain ⟨n, n1, n2, n3⟩ := invert_denotes (hg.madeO id okHere a1).nf
  obtain ⟨w, w1, w2, w3⟩ := and_denotes n2 hv.nf
  have h0 : measureLt w.measure1d tol6 = true := by
    rw [measureLt_iff ((made_iff_nf _).2 w2)]
    refine lt_of_le_of_lt (measure_mono ?_) hin
    rw [w3, n3]
    rintro x ⟨h1, h2⟩
    refine ⟨h2, fun h3 => h1 ?_⟩
    unfold pts at h3
    rw [a1] at h3
    exact h3
  obtain ⟨F, c, kt, hF, hc, hkt, ⟨both, hboth⟩, d, hd⟩ := calls.opp
  have vF := L.fingers t v F hv hF
  obtain ⟨vb, db⟩ := L.and F c both vF (hg.validC _ _ hc) hboth
  obtain ⟨a, ha⟩ := T both vb
  have hlt : a < tol6 := by
    have h1 := A.area both a vb ha
    have h2 : μ (den both) ≤ μ (den F ∩ dens den sb.sheetChosen t.sheet) := by
      have h0 : μ (den both \ (den F ∩ dens den sb.sheetChosen t.sheet)) = 0 := by
        apply A.null
        filter_upwards [db] with x h1 h3
        apply h3.2
        refine ⟨(h1.1 h3.1).1, ?_⟩
        unfold dens
        rw [hc]
        exact (h1.1 h3.1).2
      refine le_trans (A.mono _ _ ?_) (le_trans (A.union (den F ∩ dens den sb.sheetChosen t.sheet)
        (den both \ (den F ∩ dens den sb.sheetChosen t.sheet))) (by rw [h0, add_zero]))
      intro x hx
      by_cases h : x ∈ den F ∩ dens den sb.sheetChosen t.sheet
      · exact Or.inl h
      · exact Or.inr ⟨hx, h⟩
    have h3 := lt_of_le_of_lt h2 (hopp F hF)
    rw [h1, ENNReal.ofReal_lt_ofReal_iff (by unfold tol6; norm_num)] at h3
    exact_mod_cast h3
  obtain ⟨m1, m2, _⟩ := c57_or_geom_1d sb.interChosen hg.madeC id v hv
  obtain ⟨iot, hiot⟩ := hf.ok t.id t e5
  obtain ⟨d1, hd1, _⟩ := sub_denotes (hg.madeO _ _ hiot).nf hv.nf
  unfold SheetBuild.chooseInterside
  have g1 := (PMap.get_ok _ _ _).2 a1
  have g2 := (PMap.get_ok _ _ _).2 hc
  have ok_bind : ∀ {α β : Type} (a : α) (f : α → Except PyErr β), (Except.ok a >>= f) = f a := fun _ _ => rfl
  rw [g1, ok_bind, n1, ok_bind, w1, ok_bind, (assert_ok _ ()).2 h0, ok_bind, hs, ok_bind, ht, ok_bind, hF, ok_bind,
    g2, ok_bind, hboth, ok_bind, ha, ok_bind, (assert_ok _ ()).2 (decide_eq_true hlt), ok_bind, m2]
  have hsub : mapOpGeom o.sub sb.sheetOk t.sheet F = .ok (sb.sheetOk.set t.sheet d) := by
    unfold mapOpGeom
    rw [hkt]
    dsimp only
    rw [hd]
    rfl
  have hsub1 : mapOpGeom Geom1D.sub sb.interOk t.id v = .ok (sb.interOk.set t.id d1) := by
    unfold mapOpGeom
    rw [hiot]
    dsimp only
    rw [hd1]
    rfl
  cases tentative
  · obtain ⟨f, cs, k, fk, hfi, hcs, hk, hfk, u, hu⟩ := calls.own rfl
    have g3 := (PMap.get_ok _ _ _).2 hk
    have hor : mapOrGeom o.or (.ok o.empty) sb.sheetChosen s.sheet fk = .ok (sb.sheetChosen.set s.sheet u) := by
      unfold mapOrGeom
      rw [hcs]
      dsimp only
      rw [ok_bind, hu]
      rfl
    simp only [Bool.false_eq_true, if_false, hfi, g3, hfk, hor, ok_bind, hsub, hsub1]
    exact ⟨_, rfl⟩
  · simp only [if_true, ok_bind, hsub, hsub1]
    exact ⟨_, rfl⟩

/-- When no 2D operation raises, no call does. -/
theorem Total.chooseCalls {X : Type} {o : G2Ops G} {l : Filter X} {Valid : G → Prop} {den : G → Set X}
    (L : Lawful o l Valid den) (T : Total o Valid) (sb : SheetBuild G) (hg : Good Valid sb) (hf : Full sb)
    (id : Name × Name) (s t : InterSide) (hs : sb.sheetplex.interside id = .ok s)
    (ht : s.opposite sb.sheetplex = .ok t) (v : Geom1D) (hv : Made v) (hb : v.isBounded = true) (tentative : Bool) :
    ChooseCalls o sb s t v tentative := by
  obtain ⟨hid, t', e1, e2, e3, e4, e5, _⟩ := interside_spec _ hg.paired id s hs
  rw [ht] at e1
  cases e1
  obtain ⟨F, hF⟩ := T.fingers t v hv hb
  have vF := L.fingers t v F hv hF
  obtain ⟨c, hc⟩ := hf.sheetChosen t.id t e5
  obtain ⟨kt, hkt⟩ := hf.sheetOk t.id t e5
  obtain ⟨f, hfi⟩ := T.fingers s v hv hb
  have vf := L.fingers s v f hv hfi
  obtain ⟨k, hk⟩ := hf.sheetOk id s hs
  obtain ⟨fk, hfk⟩ := T.and f k vf (hg.validO _ _ hk)
  have vfk := (L.and f k fk vf (hg.validO _ _ hk) hfk).1
  obtain ⟨cs, hcs⟩ := hf.sheetChosen id s hs
  exact ⟨⟨F, c, kt, hF, hc, hkt, T.and F c vF (hg.validC _ _ hc), T.sub kt F (hg.validO _ _ hkt) vF⟩,
    fun _ => ⟨f, cs, k, fk, hfi, hcs, hk, hfk, T.or cs fk (hg.validC _ _ hcs) vfk⟩⟩

/-- C62: a bounded choice that leaves what is allowed by less than 1e-6 and meets what is chosen on the
opposite sheet in less than 1e-6 is accepted. -/
theorem c62_accept {X : Type} {o : G2Ops G} {l : Filter X} {Valid : G → Prop} {den : G → Set X}
    {μ : Set X → ENNReal} (L : Lawful o l Valid den) (A : LawfulArea o l Valid den μ) (T : Total o Valid)
    (sb : SheetBuild G) (hg : Good Valid sb) (hf : Full sb) (id : Name × Name) (s t : InterSide)
    (hs : sb.sheetplex.interside id = .ok s) (ht : s.opposite sb.sheetplex = .ok t) (v : Geom1D) (hv : Made v)
    (hb : v.isBounded = true)
    (hin : volume (pointsOf v.intervals \ pts sb.interOk id) < ENNReal.ofReal (tol6 : ℝ))
    (hopp : ∀ F, o.fingers t v = .ok F → μ (den F ∩ dens den sb.sheetChosen t.sheet) < ENNReal.ofReal (tol6 : ℝ))
    (tentative : Bool) : ∃ sb', sb.chooseInterside o id v tentative = .ok sb' := by
  exact c62_calls L A T.area sb hg hf id s t hs ht v hv hin hopp tentative
    (T.chooseCalls L sb hg hf id s t hs ht v hv hb tentative)

/-- C62: which choices are accepted, exactly. -/
theorem c62_exact {X : Type} {o : G2Ops G} {l : Filter X} {Valid : G → Prop} {den : G → Set X}
    {μ : Set X → ENNReal} (L : Lawful o l Valid den) (A : LawfulArea o l Valid den μ) (T : TotalArea o Valid)
    (sb : SheetBuild G) (hg : Good Valid sb) (hf : Full sb) (id : Name × Name) (s t : InterSide)
    (hs : sb.sheetplex.interside id = .ok s) (ht : s.opposite sb.sheetplex = .ok t) (v : Geom1D) (hv : Made v)
    (tentative : Bool) :
    (∃ sb', sb.chooseInterside o id v tentative = .ok sb') ↔
      volume (pointsOf v.intervals \ pts sb.interOk id) < ENNReal.ofReal (tol6 : ℝ) ∧
      (∀ F, o.fingers t v = .ok F → μ (den F ∩ dens den sb.sheetChosen t.sheet) < ENNReal.ofReal (tol6 : ℝ)) ∧
      ChooseCalls o sb s t v tentative := by
  constructor
  · rintro ⟨sb', h⟩
    obtain ⟨s', t', ef⟩ := choose_effect o sb sb' hg.madeC hg.madeO id v hv tentative h
    have e1 := ef.here
    rw [hs] at e1
    cases e1
    have e2 := ef.opp
    rw [ht] at e2
    cases e2
    obtain ⟨F, c, both, a, f1, f2, f3, f4, f5, f6⟩ := ef.sheetOk
    obtain ⟨⟨k, d, hk, hd, _⟩, _⟩ := c57_op_geom _ _ _ _ _ f6
    have vF := L.fingers t v F hv f1
    obtain ⟨vb, db⟩ := L.and F c both vF (hg.validC _ _ f2) f3
    refine ⟨ef.slack, ?_, ⟨F, c, k, f1, f2, hk, ⟨both, f3⟩, d, hd⟩, ?_⟩
    · intro F' h'
      rw [f1] at h'
      cases h'
      have e := A.area both a vb f4
      have e' : μ (den F ∩ dens den sb.sheetChosen t.sheet) ≤ μ (den both) := by
        refine A.ae_mono ?_
        filter_upwards [db] with x hx hx'
        rw [hx]
        refine ⟨hx'.1, ?_⟩
        have := hx'.2
        unfold dens at this
        rw [f2] at this
        exact this
      refine lt_of_le_of_lt e' ?_
      rw [e, ENNReal.ofReal_lt_ofReal_iff (by unfold tol6; norm_num)]
      exact_mod_cast f5
    · intro ht'
      rcases ef.sheetChosen with ⟨h', _⟩ | ⟨f, k', fk, g1, g2, g3, g4⟩
      · rw [ht'] at h'
        cases h'
      · obtain ⟨cs, hcs⟩ := hf.sheetChosen id s hs
        obtain ⟨⟨w, u, hw, hu, _⟩, _⟩ := c57_or_geom _ _ _ _ _ _ g4
        refine ⟨f, cs, k', fk, g1, hcs, g2, g3, u, ?_⟩
        rcases hw with hw | ⟨hw, _⟩
        · rw [hcs] at hw
          cases hw
          exact hu
        · rw [hcs] at hw
          cases hw
  · rintro ⟨h1, h2, h3⟩
    exact c62_calls L A T sb hg hf id s t hs ht v hv h1 h2 tentative h3

/-- C62: a choice that leaves what is allowed by 1e-6 or more is rejected. -/
theorem c62_reject (o : G2Ops G) (sb : SheetBuild G) (ho : MadeMap sb.interOk) (id : Name × Name) (g : Geom1D)
    (hk : sb.interOk.get? id = some g) (v : Geom1D) (hv : Made v)
    (hout : ENNReal.ofReal (tol6 : ℝ) ≤ volume (pointsOf v.intervals \ pts sb.interOk id)) (tentative : Bool) :
    sb.chooseInterside o id v tentative = .error .assertion := by
  obtain ⟨n, n1, n2, n3⟩ := invert_denotes (ho id g hk).nf
  obtain ⟨w, w1, w2, w3⟩ := and_denotes n2 hv.nf
  have h0 : measureLt w.measure1d tol6 = false := by
    rw [Bool.eq_false_iff]
    intro h
    rw [measureLt_iff ((made_iff_nf _).2 w2), w3, n3] at h
    refine absurd h (not_lt.2 (le_trans hout (measure_mono ?_)))
    rintro x ⟨h1, h2⟩
    refine ⟨fun h3 => h2 ?_, h1⟩
    unfold pts
    rw [hk]
    exact h3
  have ok_bind : ∀ {α β : Type} (a : α) (f : α → Except PyErr β), (Except.ok a >>= f) = f a := fun _ _ => rfl
  unfold SheetBuild.chooseInterside
  rw [(PMap.get_ok _ _ _).2 hk, ok_bind, n1, ok_bind, w1, ok_bind, h0]
  rfl

/-- The entries stay complete. -/
theorem Full.run (o : G2Ops G) (sb sb' : SheetBuild G) (hsp : sb.sheetplex.Paired) (hc : MadeMap sb.interChosen)
    (ho : MadeMap sb.interOk) (hf : Full sb) (op : SbOp G) (hop : op.Made1) (h : op.run o sb = .ok sb') :
    Full sb' := by
  have keep : ∀ {κ α : Type} [DecidableEq κ] (m r : PMap κ α) (key : κ), (∃ v, r.get? key = some v) →
      (∀ k, k ≠ key → r.get? k = m.get? k) → ∀ k, (∃ g, m.get? k = some g) → ∃ g, r.get? k = some g := by
    intro κ α _ m r key h1 h2 k hk
    by_cases hkk : k = key
    · rw [hkk]; exact h1
    · rw [h2 k hkk]; exact hk
  have op' : ∀ {κ α : Type} [DecidableEq κ] (f : α → α → Except PyErr α) (m r : PMap κ α) (key : κ) (g : α),
      mapOpGeom f m key g = .ok r → ∀ k, (∃ g, m.get? k = some g) → ∃ g, r.get? k = some g := by
    intro κ α _ f m r key g h
    obtain ⟨⟨w, v, _, _, hk⟩, h2⟩ := c57_op_geom f m r key g h
    exact keep m r key ⟨v, hk⟩ h2
  have or' : ∀ {κ α : Type} [DecidableEq κ] (f : α → α → Except PyErr α) (e) (m r : PMap κ α) (key : κ) (g : α),
      mapOrGeom f e m key g = .ok r → ∀ k, (∃ g, m.get? k = some g) → ∃ g, r.get? k = some g := by
    intro κ α _ f e m r key g h
    obtain ⟨⟨w, v, _, _, hk⟩, h2⟩ := c57_or_geom f e m r key g h
    exact keep m r key ⟨v, hk⟩ h2
  cases op with
  | choose id v tentative =>
    obtain ⟨s, t, hef⟩ := choose_effect o sb sb' hc ho id v hop tentative h
    obtain ⟨F, c, both, a, f1, f2, f3, f4, f5, f6⟩ := hef.sheetOk
    refine ⟨?_, ?_, ?_, ?_⟩
    · intro k s' hs'
      rw [hef.plex] at hs'
      exact op' _ _ _ _ _ hef.okEq k (hf.ok k s' hs')
    · intro k s' hs'
      rw [hef.plex] at hs'
      exact or' _ _ _ _ _ _ hef.chosenEq k (hf.chosen k s' hs')
    · intro k s' hs'
      rw [hef.plex] at hs'
      exact op' _ _ _ _ _ f6 s'.sheet (hf.sheetOk k s' hs')
    · intro k s' hs'
      rw [hef.plex] at hs'
      rcases hef.sheetChosen with ⟨_, h⟩ | ⟨f, k', fk, e1, e2, e3, h⟩
      · rw [h]
        exact hf.sheetChosen k s' hs'
      · exact or' _ _ _ _ _ _ h s'.sheet (hf.sheetChosen k s' hs')
  | unchoose id v =>
    obtain ⟨h1, h2, h3, h4, _, _, _, h8⟩ := unchoose_effect sb sb' hsp hc ho id v hop h
    refine ⟨?_, ?_, ?_, ?_⟩ <;> rw [h1]
    · exact fun k s' hs' => op' _ _ _ _ _ h8 k (hf.ok k s' hs')
    · rw [h4]; exact hf.chosen
    · rw [h3]; exact hf.sheetOk
    · rw [h2]; exact hf.sheetChosen
  | unchooseArea sheet g =>
    obtain ⟨c, both, a, _, _, _, _, h5, h6⟩ := unchooseArea_effect o sb sb' sheet g h
    rw [h6]
    exact ⟨hf.ok, hf.chosen, fun k s' hs' => op' _ _ _ _ _ h5 s'.sheet (hf.sheetOk k s' hs'), hf.sheetChosen⟩

/-! ### An instance: sheets that are lines -/

/-- The area of a 1D geom, if finite. -/
def lineArea (g : Geom1D) : Except PyErr ℚ :=
  match g.measure1d with
  | some (some (some q)) => .ok q
  | _ => .error .typeError

/-- 1D geoms in the place of 2D geoms. -/
def lineOps : G2Ops Geom1D where
  empty := ⟨[]⟩
  or := Geom1D.or
  and := Geom1D.and
  sub := Geom1D.sub
  isEmpty := Geom1D.isEmpty
  area := lineArea
  buffer g a := g.buffer (.mpq a)
  polygons g := [g]
  fingers _ v := if v.isBounded then .ok v else .error .assertion
  project _ g := .ok g

/-- A bounded geom. -/
def LineValid (g : Geom1D) : Prop := Made g ∧ g.isBounded = true

theorem LineValid.mk' {g : Geom1D} (h : NormalForm g.intervals) (hb : Bornology.IsBounded (pointsOf g.intervals)) :
    LineValid g := ⟨(made_iff_nf _).2 h, (c10_isBounded g ((made_iff_nf _).2 h)).2 hb⟩

theorem LineValid.bounded {g : Geom1D} (h : LineValid g) : Bornology.IsBounded (pointsOf g.intervals) :=
  (c10_isBounded g h.1).1 h.2

theorem line_lawful : Lawful lineOps (⊤ : Filter ℝ) LineValid (fun g => pointsOf g.intervals) where
  empty := by
    refine ⟨LineValid.mk' ⟨by simp [lineOps], by simp [lineOps]⟩ ?_, ?_⟩
    · show Bornology.IsBounded (pointsOf [])
      rw [pointsOf_nil]
      exact Bornology.isBounded_empty
    · refine Filter.eventually_top.2 fun x => ?_
      show x ∉ pointsOf []
      rw [pointsOf_nil]
      simp
  or a b c ha hb h := by
    obtain ⟨u, u1, u2, u3⟩ := or_denotes ha.1.nf hb.1.nf
    have h' : a.or b = .ok c := h
    rw [u1] at h'
    cases h'
    exact ⟨LineValid.mk' u2 (by rw [u3]; exact ha.bounded.union hb.bounded),
      Filter.eventually_top.2 fun x => by rw [u3]; rfl⟩
  and a b c ha hb h := by
    obtain ⟨u, u1, u2, u3⟩ := and_denotes ha.1.nf hb.1.nf
    have h' : a.and b = .ok c := h
    rw [u1] at h'
    cases h'
    exact ⟨LineValid.mk' u2 (by rw [u3]; exact ha.bounded.subset Set.inter_subset_left),
      Filter.eventually_top.2 fun x => by rw [u3]; rfl⟩
  sub a b c ha hb h := by
    obtain ⟨u, u1, u2, u3⟩ := sub_denotes ha.1.nf hb.1.nf
    have h' : a.sub b = .ok c := h
    rw [u1] at h'
    cases h'
    exact ⟨LineValid.mk' u2 (by rw [u3]; exact ha.bounded.subset Set.sdiff_subset),
      Filter.eventually_top.2 fun x => by rw [u3]; rfl⟩
  fingers s v f hv h := by
    have h' : (if v.isBounded then .ok v else .error .assertion : Except PyErr Geom1D) = .ok f := h
    split_ifs at h' with hb
    cases h'
    exact ⟨hv, hb⟩
  project s g v hg h := by
    have h' : (.ok g : Except PyErr Geom1D) = .ok v := h
    cases h'
    exact hg.1
  isEmpty a ha h := Filter.eventually_top.2 ((c10_isEmpty a ha.1).1 h)

theorem lineArea_spec {g : Geom1D} (hg : LineValid g) :
    ∃ q : ℚ, lineArea g = .ok q ∧ volume (pointsOf g.intervals) = ENNReal.ofReal (q : ℝ) := by
  obtain ⟨v, h1, h2⟩ := c09_measure g hg.1
  have hb := hg.2
  unfold isBounded at hb
  unfold lineArea
  rw [h1] at hb ⊢
  match v, h2, hb with
  | some (some q), h2, _ =>
    refine ⟨q, rfl, ?_⟩
    have h3 : ((q : ℝ) : EReal) = ((volume (pointsOf g.intervals) : ENNReal) : EReal) := by
      rw [← h2]
      exact (Ext.toE_fin q).symm
    have hn : volume (pointsOf g.intervals) ≠ ⊤ := by
      intro ht
      rw [ht] at h3
      exact absurd h3 (by simp)
    rw [← ENNReal.ofReal_toReal hn] at h3 ⊢
    rw [EReal.coe_ennreal_ofReal, max_eq_left ENNReal.toReal_nonneg] at h3
    rw [EReal.coe_eq_coe_iff.1 h3]

theorem line_area : LawfulArea lineOps (⊤ : Filter ℝ) LineValid (fun g => pointsOf g.intervals)
    (fun S => volume S) where
  mono S T h := measure_mono h
  union S T := measure_union_le S T
  area a q ha h := by
    obtain ⟨q', h1, h2⟩ := lineArea_spec ha
    have h' : lineArea a = .ok q := h
    rw [h1] at h'
    cases h'
    exact h2
  null S h := by
    have : S = ∅ := Set.eq_empty_iff_forall_notMem.2 (Filter.eventually_top.1 h)
    rw [this]
    exact measure_empty

theorem line_total : Total lineOps LineValid where
  or a b ha hb := by
    obtain ⟨u, u1, _⟩ := or_denotes ha.1.nf hb.1.nf
    exact ⟨u, u1⟩
  and a b ha hb := by
    obtain ⟨u, u1, _⟩ := and_denotes ha.1.nf hb.1.nf
    exact ⟨u, u1⟩
  sub a b ha hb := by
    obtain ⟨u, u1, _⟩ := sub_denotes ha.1.nf hb.1.nf
    exact ⟨u, u1⟩
  area a ha := by
    obtain ⟨q, h, _⟩ := lineArea_spec ha
    exact ⟨q, h⟩
  fingers s v hv hb := ⟨v, by simp [lineOps, hb]⟩

/-- An interval with rational ends. -/
def ivl (a b : ℚ) : Geom1D := ⟨[(Ext.fin a, Ext.fin b)]⟩

theorem ivl_points (a b : ℚ) : pointsOf (ivl a b).intervals = {x | (a : ℝ) ≤ x ∧ x < (b : ℝ)} := by
  unfold ivl
  rw [pointsOf_cons, pointsOf_nil, Set.union_empty]
  exact icoSet_fin a b

theorem ivl_valid (a b : ℚ) (h : a < b) : LineValid (ivl a b) := by
  refine LineValid.mk' (nf_singleton (Ext.toE_lt.1 ?_)) ?_
  · show (Ext.fin a).toE < (Ext.fin b).toE
    rw [Ext.toE_fin, Ext.toE_fin]
    exact_mod_cast h
  · rw [ivl_points]
    exact Metric.isBounded_Ico (a : ℝ) b

theorem none_valid : LineValid ⟨[]⟩ := line_lawful.empty.1

/-- Two sheets with one joint. -/
def plex2 : SheetPlex := createSheetplex geo3 [⟨"s0".toList⟩, ⟨"s2".toList⟩]

/-- The joint side on `s0`. -/
def id0 : Name × Name := ("s0,s2".toList, "s0".toList)

/-- The joint side on `s2`. -/
def id2 : Name × Name := ("s0,s2".toList, "s2".toList)

/-- Nothing chosen, the interval from 0 to 10 allowed everywhere. -/
def build2 : SheetBuild Geom1D where
  sheetplex := plex2
  sheetChosen := [("s0".toList, ⟨[]⟩), ("s2".toList, ⟨[]⟩)]
  sheetOk := [("s0".toList, ivl 0 10), ("s2".toList, ivl 0 10)]
  interChosen := [(id0, ⟨[]⟩), (id2, ⟨[]⟩)]
  interOk := [(id0, ivl 0 10), (id2, ivl 0 10)]

theorem plex2_paired : plex2.Paired :=
  (create_paired geo3 [⟨"s0".toList⟩, ⟨"s2".toList⟩] (by decide)).2

/-- The two sides of the joint. -/
def side2 (i : ℕ) : InterSide :=
  createInterSide ⟨fun _ => (1, 0), fun _ => ((0, 0), (0, 3), (0, 3), (0, 0))⟩ "s0,s2".toList
    (if i = 0 then ⟨"s0".toList⟩ else ⟨"s2".toList⟩) i

theorem plex2_inter : plex2.intersections = [("s0,s2".toList, ⟨"s0,s2".toList, [side2 0, side2 1]⟩)] := rfl

theorem plex2_side0 : plex2.interside id0 = .ok (side2 0) := rfl

theorem plex2_side1 : plex2.interside id2 = .ok (side2 1) := rfl

theorem plex2_sides (id : Name × Name) (s : InterSide) (h : plex2.interside id = .ok s) :
    (id = id0 ∧ s = side2 0) ∨ (id = id2 ∧ s = side2 1) := by
  unfold SheetPlex.interside at h
  rw [bind_ok] at h
  obtain ⟨inter, h1, h⟩ := h
  have h2 := PMap.mem_of_get _ _ _ h1
  rw [plex2_inter, List.mem_singleton] at h2
  obtain ⟨i1, i2⟩ := id
  obtain ⟨e1, e2⟩ := Prod.mk.inj h2
  dsimp only at e1 h
  subst e1 e2
  dsimp only at h
  rw [(pyIndex_two _ _).1, (pyIndex_two _ _).2] at h
  have ok_bind : ∀ {α β : Type} (a : α) (f : α → Except PyErr β), (Except.ok a >>= f) = f a := fun _ _ => rfl
  rw [ok_bind, ok_bind] at h
  split_ifs at h with c1 c2
  · cases h
    left
    rw [← c1]
    exact ⟨rfl, rfl⟩
  · cases h
    right
    rw [← c2]
    exact ⟨rfl, rfl⟩

theorem build2_good : Good LineValid build2 where
  paired := plex2_paired
  madeC k g h := by
    have := PMap.mem_of_get? _ _ _ h
    simp only [build2, List.mem_cons, List.not_mem_nil, or_false, Prod.mk.injEq] at this
    rcases this with ⟨_, rfl⟩ | ⟨_, rfl⟩ <;> exact none_valid.1
  madeO k g h := by
    have := PMap.mem_of_get? _ _ _ h
    simp only [build2, List.mem_cons, List.not_mem_nil, or_false, Prod.mk.injEq] at this
    rcases this with ⟨_, rfl⟩ | ⟨_, rfl⟩ <;> exact (ivl_valid 0 10 (by norm_num)).1
  validC k g h := by
    have := PMap.mem_of_get? _ _ _ h
    simp only [build2, List.mem_cons, List.not_mem_nil, or_false, Prod.mk.injEq] at this
    rcases this with ⟨_, rfl⟩ | ⟨_, rfl⟩ <;> exact none_valid
  validO k g h := by
    have := PMap.mem_of_get? _ _ _ h
    simp only [build2, List.mem_cons, List.not_mem_nil, or_false, Prod.mk.injEq] at this
    rcases this with ⟨_, rfl⟩ | ⟨_, rfl⟩ <;> exact ivl_valid 0 10 (by norm_num)

theorem build2_fresh : Fresh1 build2 where
  paired := plex2_paired
  made := build2_good.madeO
  nothing k g h := by
    have := PMap.mem_of_get? _ _ _ h
    simp only [build2, List.mem_cons, List.not_mem_nil, or_false, Prod.mk.injEq] at this
    rcases this with ⟨_, rfl⟩ | ⟨_, rfl⟩ <;> exact ⟨none_valid.1, rfl⟩

theorem build2_full : Full build2 where
  ok id s h := by
    rcases plex2_sides id s h with ⟨rfl, _⟩ | ⟨rfl, _⟩ <;> exact ⟨_, rfl⟩
  chosen id s h := by
    rcases plex2_sides id s h with ⟨rfl, _⟩ | ⟨rfl, _⟩ <;> exact ⟨_, rfl⟩
  sheetOk id s h := by
    rcases plex2_sides id s h with ⟨rfl, rfl⟩ | ⟨rfl, rfl⟩ <;> exact ⟨_, rfl⟩
  sheetChosen id s h := by
    rcases plex2_sides id s h with ⟨rfl, rfl⟩ | ⟨rfl, rfl⟩ <;> exact ⟨_, rfl⟩

/-- First the part from 0 to 4 for `s0`, then the rest for `s2`. -/
def ops2 : List (SbOp Geom1D) := [.choose id0 (ivl 0 4) false, .choose id2 (ivl 4 10) false]

theorem ops2_made : ∀ op ∈ ops2, op.Made1 ∧ op.Valid2 LineValid := by
  intro op h
  simp only [ops2, List.mem_cons, List.not_mem_nil, or_false] at h
  rcases h with rfl | rfl
  · exact ⟨(ivl_valid 0 4 (by norm_num)).1, (ivl_valid 0 4 (by norm_num)).1⟩
  · exact ⟨(ivl_valid 4 10 (by norm_num)).1, (ivl_valid 4 10 (by norm_num)).1⟩

theorem tol6_pos : 0 < ENNReal.ofReal (tol6 : ℝ) := by
  rw [ENNReal.ofReal_pos]
  unfold tol6
  norm_num

/-- Both choices are accepted. -/
theorem ops2_accepted : ∃ sb', runOps lineOps ops2 build2 = .ok sb' ∧
    pts sb'.interChosen id0 = {x | (0 : ℝ) ≤ x ∧ x < 4} ∧ pts sb'.interChosen id2 = {x | (4 : ℝ) ≤ x ∧ x < 10} ∧
    dens (fun g => pointsOf g.intervals) sb'.sheetChosen "s0".toList = {x | (0 : ℝ) ≤ x ∧ x < 4} := by
  have p04 : pointsOf (ivl 0 4).intervals = {x | (0 : ℝ) ≤ x ∧ x < 4} := by
    rw [ivl_points]; norm_num
  have p410 : pointsOf (ivl 4 10).intervals = {x | (4 : ℝ) ≤ x ∧ x < 10} := by
    rw [ivl_points]; norm_num
  have p010 : pointsOf (ivl 0 10).intervals = {x | (0 : ℝ) ≤ x ∧ x < 10} := by
    rw [ivl_points]; norm_num
  have v04 := ivl_valid 0 4 (by norm_num)
  have v410 := ivl_valid 4 10 (by norm_num)
  have c0 : ∀ k, pts build2.interChosen k = ∅ := by
    intro k
    unfold pts
    cases h : build2.interChosen.get? k with
    | none => rfl
    | some g =>
      dsimp only
      rw [(build2_fresh.nothing k g h).2, pointsOf_nil]
  have k0 : pts build2.interOk id0 = {x | (0 : ℝ) ≤ x ∧ x < 10} := p010
  have k2 : pts build2.interOk id2 = {x | (0 : ℝ) ≤ x ∧ x < 10} := p010
  have d2 : dens (fun g => pointsOf g.intervals) build2.sheetChosen "s2".toList = ∅ := by
    show pointsOf [] = ∅
    exact pointsOf_nil
  have d0 : dens (fun g => pointsOf g.intervals) build2.sheetChosen "s0".toList = ∅ := by
    show pointsOf [] = ∅
    exact pointsOf_nil
  obtain ⟨sb1, h1⟩ := c62_accept line_lawful line_area line_total build2 build2_good build2_full id0 (side2 0) (side2 1)
    plex2_side0 rfl (ivl 0 4) v04.1 v04.2 (by
      rw [k0, p04, Set.sdiff_eq_empty.2 (by
        rintro x ⟨a, b⟩
        exact ⟨a, by linarith⟩), measure_empty]
      exact tol6_pos) (by
      intro F _
      have : dens (fun g => pointsOf g.intervals) build2.sheetChosen (side2 1).sheet = ∅ := d2
      rw [this, Set.inter_empty, measure_empty]
      exact tol6_pos) false
  have g1 := op_2d line_lawful build2 sb1 build2_good (.choose id0 (ivl 0 4) false) v04.1 v04.1 h1
  have f1 := Full.run lineOps build2 sb1 plex2_paired build2_good.madeC build2_good.madeO build2_full
    (.choose id0 (ivl 0 4) false) v04.1 h1
  obtain ⟨s, t, e⟩ := choose_effect lineOps build2 sb1 build2_good.madeC build2_good.madeO id0 (ivl 0 4) v04.1 false h1
  have hs := e.here
  rw [show build2.sheetplex = plex2 from rfl, plex2_side0] at hs
  cases hs
  have ht : (side2 0).opposite build2.sheetplex = .ok (side2 1) := rfl
  have ht' := e.opp
  rw [ht] at ht'
  cases ht'
  have ds0 : dens (fun g => pointsOf g.intervals) sb1.sheetChosen "s0".toList = {x | (0 : ℝ) ≤ x ∧ x < 4} := by
    rcases e.sheetChosen with ⟨h, _⟩ | ⟨f, k, fk, q1, q2, q3, q4⟩
    · cases h
    · have hf : f = ivl 0 4 := by
        have : lineOps.fingers (side2 0) (ivl 0 4) = .ok (ivl 0 4) := by simp [lineOps, v04.2]
        rw [this] at q1
        cases q1
        rfl
      have hk : k = ivl 0 10 := by
        have : build2.sheetOk.get? (side2 0).sheet = some (ivl 0 10) := rfl
        rw [this] at q2
        cases q2
        rfl
      subst hf hk
      obtain ⟨w1, w2⟩ := line_lawful.and _ _ _ v04 (ivl_valid 0 10 (by norm_num)) q3
      obtain ⟨_, w3, _⟩ := orGeom_2d line_lawful build2.sheetChosen sb1.sheetChosen build2_good.validC _ fk w1 q4
      rw [Filter.eventually_top] at w2 w3
      ext x
      have : x ∈ dens (fun g => pointsOf g.intervals) sb1.sheetChosen "s0".toList ↔ _ := w3 x
      rw [this, w2 x]
      have : dens (fun g => pointsOf g.intervals) build2.sheetChosen (side2 0).sheet = ∅ := d0
      rw [this, p04, p010]
      simp only [Set.mem_empty_iff_false, Set.mem_ofPred_eq, false_or]
      constructor
      · exact fun h => h.1
      · exact fun h => ⟨h, h.1, by linarith [h.2]⟩
  have hne : id0 ≠ id2 := by decide
  have ok2 : pts sb1.interOk id2 = {x | (4 : ℝ) ≤ x ∧ x < 10} := by
    rw [e.ok, if_pos (by rfl), k2, p04]
    ext x
    simp only [Set.mem_sdiff, Set.mem_ofPred_eq, not_and, not_lt]
    constructor
    · exact fun h => ⟨h.2 h.1.1, h.1.2⟩
    · exact fun h => ⟨⟨by linarith [h.1], h.2⟩, fun _ => h.1⟩
  have pl : sb1.sheetplex = plex2 := e.plex
  obtain ⟨sb2, h2⟩ := c62_accept line_lawful line_area line_total sb1 g1.1 f1 id2 (side2 1) (side2 0)
    (by rw [pl]; exact plex2_side1) (by rw [pl]; rfl) (ivl 4 10) v410.1 v410.2 (by
      rw [ok2, p410, Set.sdiff_self, measure_empty]
      exact tol6_pos) (by
      intro F hF
      have : lineOps.fingers (side2 0) (ivl 4 10) = .ok (ivl 4 10) := by simp [lineOps, v410.2]
      rw [this] at hF
      cases hF
      have h3 : dens (fun g => pointsOf g.intervals) sb1.sheetChosen (side2 0).sheet = _ := ds0
      have h4 : {x : ℝ | 4 ≤ x ∧ x < 10} ∩ {x | 0 ≤ x ∧ x < 4} = ∅ := by
        rw [Set.eq_empty_iff_forall_notMem]
        rintro x ⟨⟨a, _⟩, ⟨_, b⟩⟩
        linarith
      rw [h3, p410, h4, measure_empty]
      exact tol6_pos) false
  obtain ⟨s', t', e'⟩ := choose_effect lineOps sb1 sb2 g1.1.madeC g1.1.madeO id2 (ivl 4 10) v410.1 false h2
  have hs' := e'.here
  rw [pl, plex2_side1] at hs'
  cases hs'
  refine ⟨sb2, ?_, ?_, ?_, ?_⟩
  · unfold ops2 runOps runOps runOps
    show (build2.chooseInterside lineOps id0 (ivl 0 4) false >>= fun sb' =>
      sb'.chooseInterside lineOps id2 (ivl 4 10) false >>= fun sb' => .ok sb') = _
    rw [h1]
    show (sb1.chooseInterside lineOps id2 (ivl 4 10) false >>= fun sb' => .ok sb') = _
    rw [h2]
    rfl
  · rw [e'.chosen, if_neg hne, e.chosen, if_pos rfl, c0, Set.empty_union, p04]
  · rw [e'.chosen, if_pos rfl, e.chosen, if_neg (Ne.symm hne), c0, Set.empty_union, p410]
  · rw [← ds0]
    unfold dens
    rcases e'.sheetChosen with ⟨_, h⟩ | ⟨f, k, fk, q1, q2, q3, q4⟩
    · rw [h]
    · rw [(c57_or_geom _ _ _ _ _ _ q4).2 _ (by decide)]

example := fun sb' h => c43_exclusive lineOps build2 sb' build2_fresh ops2 (fun op ho => (ops2_made op ho).1) h
example := fun sb' h => c45_joint lineOps build2 sb' build2_fresh ops2 (fun op ho => (ops2_made op ho).1) h
example := fun sb' h => c44_monotone line_lawful build2 sb' build2_good ops2 (fun op ho => (ops2_made op ho).1)
  (fun op ho => (ops2_made op ho).2) h
example := fun sb' h => c45_sheet line_lawful line_area build2 sb' build2_good ops2 (fun op ho => (ops2_made op ho).1)
  (fun op ho => (ops2_made op ho).2) h

/-- A choice that sticks out by 2 is rejected. -/
example : build2.chooseInterside lineOps id0 (ivl 8 12) false = .error .assertion := by
  refine c62_reject lineOps build2 build2_good.madeO id0 (ivl 0 10) rfl (ivl 8 12) (ivl_valid 8 12 (by norm_num)).1 ?_ false
  refine le_trans ?_ (measure_mono (s := Set.Ico 10 12) ?_)
  · rw [Real.volume_Ico]
    apply ENNReal.ofReal_le_ofReal
    unfold tol6
    norm_num
  · rintro x ⟨h1, h2⟩
    have hp : pts build2.interOk id0 = pointsOf (ivl 0 10).intervals := rfl
    rw [hp, ivl_points, ivl_points]
    refine ⟨⟨?_, ?_⟩, fun h3 => ?_⟩
    · push_cast; linarith
    · push_cast; linarith
    · have := h3.2
      push_cast at this
      linarith

/-- The checks of `_check` are stricter than those of `choose_interside`: a choice that sticks out by 5e-7
is accepted and fails the check. -/
theorem c45_check_gap : ∃ sb', build2.chooseInterside lineOps id0 (ivl 9 (10 + 1 / 2000000)) true = .ok sb' ∧
    sb'.check lineOps = .error .assertion := by
  have v := ivl_valid 9 (10 + 1 / 2000000) (by norm_num)
  have v10 := ivl_valid 0 10 (by norm_num)
  have hout : pointsOf (ivl 9 (10 + 1 / 2000000)).intervals \ pointsOf (ivl 0 10).intervals =
      Set.Ico (10 : ℝ) (10 + 1 / 2000000) := by
    rw [ivl_points, ivl_points]
    ext x
    simp only [Set.mem_sdiff, Set.mem_ofPred_eq, not_and, not_lt, Set.mem_Ico]
    push_cast
    constructor
    · exact fun h => ⟨h.2 (by linarith [h.1.1]), h.1.2⟩
    · exact fun h => ⟨⟨by linarith [h.1], h.2⟩, fun _ => h.1⟩
  have hvol : volume (Set.Ico (10 : ℝ) (10 + 1 / 2000000)) = ENNReal.ofReal (1 / 2000000) := by
    rw [Real.volume_Ico]
    congr 1
    ring
  obtain ⟨sb1, h1⟩ := c62_accept line_lawful line_area line_total build2 build2_good build2_full id0 (side2 0) (side2 1)
    plex2_side0 rfl (ivl 9 (10 + 1 / 2000000)) v.1 v.2 (by
      show volume (_ \ pointsOf (ivl 0 10).intervals) < _
      rw [hout, hvol, ENNReal.ofReal_lt_ofReal_iff (by unfold tol6; norm_num)]
      unfold tol6
      norm_num) (by
      intro F _
      have : dens (fun g => pointsOf g.intervals) build2.sheetChosen (side2 1).sheet = ∅ := pointsOf_nil
      rw [this, Set.inter_empty, measure_empty]
      exact tol6_pos) true
  refine ⟨sb1, h1, ?_⟩
  obtain ⟨s, t, e⟩ := choose_effect lineOps build2 sb1 build2_good.madeC build2_good.madeO id0 _ v.1 true h1
  have hs := e.here
  rw [show build2.sheetplex = plex2 from rfl, plex2_side0] at hs
  cases hs
  have g1 := (op_2d line_lawful build2 sb1 build2_good (.choose id0 _ true) v.1 v.1 h1).1
  have hch : sb1.sheetChosen = build2.sheetChosen := by
    have h2 := h1
    unfold SheetBuild.chooseInterside at h2
    iterate 11 (rw [bind_ok] at h2; obtain ⟨_, _, h2⟩ := h2)
    rw [bind_ok] at h2
    obtain ⟨_, q, h2⟩ := h2
    cases q
    iterate 4 (rw [bind_ok] at h2; obtain ⟨_, _, h2⟩ := h2)
    cases h2
    rfl
  have f1 := Full.run lineOps build2 sb1 plex2_paired build2_good.madeC build2_good.madeO build2_full
    (.choose id0 _ true) v.1 h1
  have pl : sb1.sheetplex = plex2 := e.plex
  have ok_bind : ∀ {α β : Type} (a : α) (f : α → Except PyErr β), (Except.ok a >>= f) = f a := fun _ _ => rfl
  -- the sheets pass
  have hsheet : ∀ id g, build2.sheetChosen.get? id = some g → (∃ k, sb1.sheetOk.get? id = some k) →
      sb1.checkSheet lineOps id = .ok () := by
    rintro id g hg ⟨k, hk⟩
    have hg0 : pointsOf g.intervals = ∅ := by
      have := PMap.mem_of_get? _ _ _ hg
      simp only [build2, List.mem_cons, List.not_mem_nil, or_false, Prod.mk.injEq] at this
      rcases this with ⟨_, rfl⟩ | ⟨_, rfl⟩ <;> exact pointsOf_nil
    have hgv : LineValid g := build2_good.validC id g hg
    obtain ⟨d, d1⟩ := line_total.sub g k hgv (g1.validO id k hk)
    obtain ⟨d2, d3⟩ := line_lawful.sub g k d hgv (g1.validO id k hk) d1
    obtain ⟨q, q1, q2⟩ := lineArea_spec d2
    have : pointsOf d.intervals = ∅ := by
      rw [Set.eq_empty_iff_forall_notMem]
      intro x hx
      have := ((Filter.eventually_top.1 d3 x).1 hx).1
      rw [hg0] at this
      exact this
    rw [this, measure_empty] at q2
    have q3 := ENNReal.ofReal_eq_zero.1 q2.symm
    have q4 : q ≤ 0 := by exact_mod_cast q3
    unfold SheetBuild.checkSheet
    rw [hch, (PMap.get_ok _ _ _).2 hg, ok_bind, (PMap.get_ok _ _ _).2 hk, ok_bind, d1, ok_bind]
    show (lineArea d >>= _) = _
    rw [q1, ok_bind, assert_ok, decide_eq_true_iff]
    refine lt_of_le_of_lt q4 ?_
    unfold tol7
    norm_num
  -- the first side fails
  have hside : sb1.checkInterside lineOps (side2 0) = .error .assertion := by
    obtain ⟨ch, hc⟩ := f1.chosen id0 (side2 0) (by rw [pl]; exact plex2_side0)
    obtain ⟨ok, ho⟩ := f1.ok id0 (side2 0) (by rw [pl]; exact plex2_side0)
    obtain ⟨d, d1, d2, d3⟩ := sub_denotes (g1.madeC _ _ hc).nf (g1.madeO _ _ ho).nf
    unfold SheetBuild.checkInterside
    have ho0 : (side2 0).opposite plex2 = .ok (side2 1) := rfl
    rw [pl, ho0, ok_bind, show (side2 0).id = id0 from rfl, (PMap.get_ok _ _ _).2 hc, ok_bind,
      (PMap.get_ok _ _ _).2 ho, ok_bind, d1, ok_bind]
    have hp : pts sb1.interChosen id0 = pointsOf ch.intervals := by unfold pts; rw [hc]
    have hp' : pts sb1.interOk id0 = pointsOf ok.intervals := by unfold pts; rw [ho]
    have ht : (side2 0).opposite build2.sheetplex = .ok (side2 1) := rfl
    have ht' := e.opp
    rw [ht] at ht'
    cases ht'
    rw [e.chosen, if_pos rfl] at hp
    rw [e.ok, if_neg (by decide)] at hp'
    have : measureLt d.measure1d tol7 = false := by
      rw [Bool.eq_false_iff]
      intro h
      rw [measureLt_iff ((made_iff_nf _).2 d2), d3, ← hp, ← hp'] at h
      refine absurd h (not_lt.2 (le_trans ?_ (measure_mono (Set.sdiff_subset_sdiff_left Set.subset_union_right))))
      show _ ≤ volume (_ \ pointsOf (ivl 0 10).intervals)
      rw [hout, hvol]
      apply ENNReal.ofReal_le_ofReal
      unfold tol7
      norm_num
    rw [this]
    rfl
  unfold SheetBuild.check
  rw [pl]
  have hsh : plex2.sheets = [("s0".toList, ⟨"s0".toList⟩), ("s2".toList, ⟨"s2".toList⟩)] := rfl
  have hin : intersides (plex2.intersections.map Prod.snd) none = [side2 0, side2 1] := rfl
  rw [hsh, hin]
  unfold SheetBuild.each SheetBuild.each SheetBuild.each
  dsimp only
  rw [hsheet "s0".toList _ rfl (f1.sheetOk id0 (side2 0) (by rw [pl]; exact plex2_side0)), ok_bind,
    hsheet "s2".toList _ rfl (f1.sheetOk id2 (side2 1) (by rw [pl]; exact plex2_side1)), ok_bind, ok_bind, hside]
  rfl

/-- Choices within what is allowed. -/
example : ExactRun lineOps [.choose id0 (ivl 0 4) false] build2 := by
  refine ⟨fun id v tentative h => ?_, fun _ _ => trivial⟩
  cases h
  show pointsOf (ivl 0 4).intervals ⊆ pointsOf (ivl 0 10).intervals
  rw [ivl_points, ivl_points]
  rintro x ⟨a, b⟩
  refine ⟨a, lt_trans b ?_⟩
  norm_num

end Ply
