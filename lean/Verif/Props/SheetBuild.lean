import Verif.Proofs.SheetBuild

/-! # C43–C45: choices in a sheet build -/

namespace Ply

open MeasureTheory Geom1D

/-- The operations that evolve a sheet build. -/
inductive SbOp (G : Type) where
  | choose (id : Name × Name) (v : Geom1D) (tentative : Bool)
  | unchoose (id : Name × Name) (v : Geom1D)
  | unchooseArea (sheet : Name) (g : G)

variable {G : Type}

/-- One operation. -/
def SbOp.run (o : G2Ops G) (sb : SheetBuild G) : SbOp G → Except PyErr (SheetBuild G)
  | .choose id v tentative => sb.chooseInterside o id v tentative
  | .unchoose id v => sb.unchooseInterside id v
  | .unchooseArea sheet g => sb.unchooseSheetArea o sheet g

/-- A sequence of operations. -/
def runOps (o : G2Ops G) : List (SbOp G) → SheetBuild G → Except PyErr (SheetBuild G)
  | [], sb => .ok sb
  | op :: ops, sb => do
    let sb' ← op.run o sb
    runOps o ops sb'

/-- 1D arguments are made by the constructor. -/
def SbOp.Made1 : SbOp G → Prop
  | .choose _ v _ => Made v
  | .unchoose _ v => Made v
  | .unchooseArea _ _ => True

/-- Number of choices in a sequence. -/
def nChoose : List (SbOp G) → ℕ
  | [] => 0
  | .choose _ _ _ :: ops => nChoose ops + 1
  | .unchoose _ _ :: ops => nChoose ops
  | .unchooseArea _ _ :: ops => nChoose ops

/-- Number of sheet areas unchosen in a sequence. -/
def nAreas : List (SbOp G) → ℕ
  | [] => 0
  | .choose _ _ _ :: ops => nAreas ops
  | .unchoose _ _ :: ops => nAreas ops
  | .unchooseArea _ _ :: ops => nAreas ops + 1

/-- A build on which no joint side is chosen yet. -/
structure Fresh1 (sb : SheetBuild G) : Prop where
  paired : sb.sheetplex.Paired
  made : MadeMap sb.interOk
  nothing : ∀ k g, sb.interChosen.get? k = some g → Made g ∧ g.intervals = []

/-- Two sides of a joint of the sheetplex. -/
def Joint (sp : SheetPlex) (s t : InterSide) : Prop :=
  sp.interside s.id = .ok s ∧ s.opposite sp = .ok t

theorem Joint.symm {sp : SheetPlex} (hsp : sp.Paired) {s t : InterSide} (h : Joint sp s t) :
    Joint sp t s ∧ t.id ≠ s.id ∧ t.sheet ≠ s.sheet := by
  obtain ⟨_, t', h1, h2, h3, h4, h5, _⟩ := interside_spec sp hsp s.id s h.1
  have : t' = t := by
    have := h.2
    rw [h1] at this
    exact Except.ok.inj this
  subst this
  exact ⟨⟨h5, h2⟩, h4, h3⟩

theorem Joint.unique {sp : SheetPlex} {s t s' t' : InterSide} (h : Joint sp s t) (h' : Joint sp s' t')
    (he : s.id = s'.id) : s = s' ∧ t = t' := by
  have h1 := h.1
  rw [he, h'.1] at h1
  cases h1
  have h2 := h.2
  rw [h'.2] at h2
  cases h2
  exact ⟨rfl, rfl⟩

/-- What holds on every joint after choices with total slack `e`. -/
structure Inv1 (e : ENNReal) (sb : SheetBuild G) : Prop where
  paired : sb.sheetplex.Paired
  madeC : MadeMap sb.interChosen
  madeO : MadeMap sb.interOk
  excl : ∀ s t, Joint sb.sheetplex s t → pts sb.interChosen s.id ∩ pts sb.interOk t.id = ∅
  both : ∀ s t, Joint sb.sheetplex s t → volume (pts sb.interChosen s.id ∩ pts sb.interChosen t.id) ≤ e
  within : ∀ s t, Joint sb.sheetplex s t → volume (pts sb.interChosen s.id \ pts sb.interOk s.id) ≤ e

theorem Fresh1.inv {sb : SheetBuild G} (h : Fresh1 sb) : Inv1 0 sb := by
  have hp : ∀ k, pts sb.interChosen k = ∅ := by
    intro k
    unfold pts
    cases hk : sb.interChosen.get? k with
    | none => rfl
    | some g =>
      dsimp only
      rw [(h.nothing k g hk).2, pointsOf_nil]
  exact ⟨h.paired, fun k g hk => (h.nothing k g hk).1, h.made, fun s t _ => by simp [hp], fun s t _ => by simp [hp],
    fun s t _ => by simp [hp]⟩

theorem Inv1.choose {o : G2Ops G} {e d : ENNReal} {sb sb' : SheetBuild G} (hi : Inv1 e sb) {id : Name × Name}
    {v : Geom1D} {tentative : Bool} {s t : InterSide} (hef : ChooseEffect o sb sb' id v tentative s t)
    (hd : volume (pointsOf v.intervals \ pts sb.interOk id) ≤ d) : Inv1 (e + d) sb' := by
  have hid := (interside_spec _ hi.paired id s hef.here).1
  have hj : Joint sb.sheetplex s t := ⟨by rw [hid]; exact hef.here, hef.opp⟩
  obtain ⟨hj', hne, _⟩ := hj.symm hi.paired
  have hst : id ≠ t.id := by rw [← hid]; exact Ne.symm hne
  -- how the opposite side sees the choice
  have hopp : volume (pts sb.interChosen t.id ∩ pointsOf v.intervals) ≤ d := by
    refine le_trans (measure_mono ?_) hd
    rintro x ⟨h1, h2⟩
    refine ⟨h2, fun h3 => ?_⟩
    have := hi.excl t s hj'
    rw [hid] at this
    exact (Set.eq_empty_iff_forall_notMem.1 this x) ⟨h1, h3⟩
  refine ⟨by rw [hef.plex]; exact hi.paired, hef.madeC, hef.madeO, ?_, ?_, ?_⟩
  · intro a b hab
    rw [hef.plex] at hab
    rw [hef.chosen, hef.ok]
    have h0 := hi.excl a b hab
    by_cases ha : a.id = id
    · obtain ⟨rfl, rfl⟩ := hab.unique hj (by rw [ha, hid])
      rw [if_pos ha, if_pos rfl, Set.eq_empty_iff_forall_notMem]
      rw [Set.eq_empty_iff_forall_notMem] at h0
      rintro x ⟨h1 | h1, h2, h3⟩
      · exact h0 x ⟨h1, h2⟩
      · exact h3 h1
    · rw [if_neg ha]
      refine Set.eq_empty_of_subset_empty (le_trans ?_ h0.le)
      refine Set.inter_subset_inter_right _ ?_
      split_ifs
      · exact Set.sdiff_subset
      · exact le_refl _
  · intro a b hab
    rw [hef.plex] at hab
    rw [hef.chosen, hef.chosen]
    have h0 := hi.both a b hab
    have hba := (hab.symm hi.paired)
    by_cases ha : a.id = id
    · obtain ⟨rfl, rfl⟩ := hab.unique hj (by rw [ha, hid])
      rw [if_pos ha, if_neg (Ne.symm hst), Set.union_inter_distrib_right]
      refine le_trans (measure_union_le _ _) (add_le_add h0 ?_)
      rw [Set.inter_comm]
      exact hopp
    · rw [if_neg ha]
      by_cases hb : b.id = id
      · obtain ⟨rfl, rfl⟩ := hba.1.unique hj (by rw [hb, hid])
        rw [if_pos hb, Set.inter_union_distrib_left]
        exact le_trans (measure_union_le _ _) (add_le_add h0 hopp)
      · rw [if_neg hb]
        exact le_trans h0 le_self_add
  · intro a b hab
    rw [hef.plex] at hab
    rw [hef.chosen, hef.ok]
    have h0 := hi.within a b hab
    by_cases ha : a.id = id
    · rw [if_pos ha, if_neg (by rw [ha]; exact hst), ha]
      rw [ha] at h0
      rw [Set.union_sdiff_distrib]
      exact le_trans (measure_union_le _ _) (add_le_add h0 hd)
    · rw [if_neg ha]
      by_cases hb : a.id = t.id
      · rw [if_pos hb, hb]
        rw [hb] at h0
        have : pts sb.interChosen t.id \ (pts sb.interOk t.id \ pointsOf v.intervals) ⊆
            (pts sb.interChosen t.id \ pts sb.interOk t.id) ∪
              (pts sb.interChosen t.id ∩ pointsOf v.intervals) := by
          rintro x ⟨h1, h2⟩
          by_cases h3 : x ∈ pts sb.interOk t.id
          · right
            refine ⟨h1, ?_⟩
            by_contra h4
            exact h2 ⟨h3, h4⟩
          · exact Or.inl ⟨h1, h3⟩
        exact le_trans (measure_mono this) (le_trans (measure_union_le _ _) (add_le_add h0 hopp))
      · rw [if_neg hb]
        exact le_trans h0 le_self_add

theorem Inv1.unchoose {e : ENNReal} {sb sb' : SheetBuild G} (hi : Inv1 e sb) {id : Name × Name}
    {v : Geom1D} (hv : Made v) (h : sb.unchooseInterside id v = .ok sb') : Inv1 e sb' := by
  obtain ⟨h1, h2, h3, h4, h5, h6, h7, _⟩ := unchoose_effect sb sb' hi.paired hi.madeC hi.madeO id v hv h
  refine ⟨by rw [h1]; exact hi.paired, by rw [h4]; exact hi.madeC, h5, ?_, ?_, ?_⟩
  · intro a b hab
    rw [h1] at hab
    rw [h4, h6]
    refine Set.eq_empty_of_subset_empty (le_trans ?_ (hi.excl a b hab).le)
    refine Set.inter_subset_inter_right _ ?_
    split_ifs
    · exact Set.sdiff_subset
    · exact le_refl _
  · intro a b hab
    rw [h1] at hab
    rw [h4]
    exact hi.both a b hab
  · intro a b hab
    rw [h1] at hab
    rw [h4, h6]
    refine le_trans (measure_mono ?_) (hi.within a b hab)
    split_ifs with ha
    · rintro x ⟨k1, k2⟩
      refine ⟨k1, fun k3 => k2 ⟨k3, fun k4 => ?_⟩⟩
      rw [← ha] at h7
      exact Set.eq_empty_iff_forall_notMem.1 h7 x ⟨k1, k4⟩
    · exact le_refl _

theorem Inv1.area {o : G2Ops G} {e : ENNReal} {sb sb' : SheetBuild G} (hi : Inv1 e sb) {sheet : Name}
    {g : G} (h : sb.unchooseSheetArea o sheet g = .ok sb') : Inv1 e sb' := by
  obtain ⟨c, both, a, _, _, _, _, _, h6⟩ := unchooseArea_effect o sb sb' sheet g h
  rw [h6]
  exact ⟨hi.paired, hi.madeC, hi.madeO, hi.excl, hi.both, hi.within⟩

theorem Inv1.run {o : G2Ops G} {e : ENNReal} {sb sb' : SheetBuild G} (hi : Inv1 e sb) (ops : List (SbOp G))
    (hm : ∀ op ∈ ops, op.Made1) (h : runOps o ops sb = .ok sb') :
    Inv1 (e + nChoose ops * ENNReal.ofReal (tol6 : ℝ)) sb' ∧ sb'.sheetplex = sb.sheetplex := by
  induction ops generalizing sb e with
  | nil =>
    cases h
    simpa [nChoose] using hi
  | cons op ops ih =>
    rw [runOps, bind_ok] at h
    obtain ⟨sb1, h1, h⟩ := h
    have hm' := hm op (by simp)
    have hms : ∀ op ∈ ops, op.Made1 := fun op' h' => hm op' (by simp [h'])
    cases op with
    | choose id v tentative =>
      obtain ⟨s, t, hef⟩ := choose_effect o sb sb1 hi.madeC hi.madeO id v hm' tentative h1
      obtain ⟨k1, k2⟩ := ih (hi.choose hef hef.slack.le) hms h
      refine ⟨?_, k2.trans hef.plex⟩
      rw [nChoose]
      rw [add_assoc] at k1
      convert k1 using 2
      push_cast
      ring
    | unchoose id v =>
      obtain ⟨h1', _⟩ := unchoose_effect sb sb1 hi.paired hi.madeC hi.madeO id v hm' h1
      obtain ⟨k1, k2⟩ := ih (hi.unchoose hm' h1) hms h
      exact ⟨k1, k2.trans h1'⟩
    | unchooseArea sheet g =>
      obtain ⟨c, both, a, _, _, _, _, _, h6⟩ := unchooseArea_effect o sb sb1 sheet g h1
      obtain ⟨k1, k2⟩ := ih (hi.area h1) hms h
      refine ⟨k1, k2.trans ?_⟩
      rw [h6]

/-- C43: after any accepted sequence of operations nothing chosen for one side of a joint is allowed for
the other, and the overlap of the two chosen parts is at most 1e-6 per choice. -/
theorem c43_exclusive (o : G2Ops G) (sb sb' : SheetBuild G) (hf : Fresh1 sb) (ops : List (SbOp G))
    (hm : ∀ op ∈ ops, op.Made1) (h : runOps o ops sb = .ok sb') (s t : InterSide)
    (hj : Joint sb.sheetplex s t) :
    pts sb'.interChosen s.id ∩ pts sb'.interOk t.id = ∅ ∧
    volume (pts sb'.interChosen s.id ∩ pts sb'.interChosen t.id) ≤ nChoose ops * ENNReal.ofReal (tol6 : ℝ) := by
  obtain ⟨hi, hp⟩ := hf.inv.run ops hm h
  rw [zero_add] at hi
  rw [← hp] at hj
  exact ⟨hi.excl s t hj, hi.both s t hj⟩

/-- C45 for joints: the chosen part exceeds the allowed part by at most 1e-6 per choice. -/
theorem c45_joint (o : G2Ops G) (sb sb' : SheetBuild G) (hf : Fresh1 sb) (ops : List (SbOp G))
    (hm : ∀ op ∈ ops, op.Made1) (h : runOps o ops sb = .ok sb') (s t : InterSide)
    (hj : Joint sb.sheetplex s t) :
    volume (pts sb'.interChosen s.id \ pts sb'.interOk s.id) ≤ nChoose ops * ENNReal.ofReal (tol6 : ℝ) := by
  obtain ⟨hi, hp⟩ := hf.inv.run ops hm h
  rw [zero_add] at hi
  rw [← hp] at hj
  exact hi.within s t hj

/-- All choices of the sequence stay within what is allowed when they are made. -/
def ExactRun (o : G2Ops G) : List (SbOp G) → SheetBuild G → Prop
  | [], _ => True
  | op :: ops, sb => (∀ id v tentative, op = .choose id v tentative →
      pointsOf v.intervals ⊆ pts sb.interOk id) ∧ ∀ sb', op.run o sb = .ok sb' → ExactRun o ops sb'

theorem Inv1.exactRun {o : G2Ops G} {sb sb' : SheetBuild G} (hi : Inv1 0 sb) (ops : List (SbOp G))
    (hm : ∀ op ∈ ops, op.Made1) (he : ExactRun o ops sb) (h : runOps o ops sb = .ok sb') :
    Inv1 0 sb' ∧ sb'.sheetplex = sb.sheetplex := by
  induction ops generalizing sb with
  | nil =>
    cases h
    exact ⟨hi, rfl⟩
  | cons op ops ih =>
    rw [runOps, bind_ok] at h
    obtain ⟨sb1, h1, h⟩ := h
    have hm' := hm op (by simp)
    have hms : ∀ op ∈ ops, op.Made1 := fun op' h' => hm op' (by simp [h'])
    have he' := he.2 sb1 h1
    cases op with
    | choose id v tentative =>
      obtain ⟨s, t, hef⟩ := choose_effect o sb sb1 hi.madeC hi.madeO id v hm' tentative h1
      have := hi.choose hef (d := 0) (by
        rw [Set.sdiff_eq_empty.2 (he.1 id v tentative rfl)]
        simp)
      rw [zero_add] at this
      obtain ⟨k1, k2⟩ := ih this hms he' h
      exact ⟨k1, k2.trans hef.plex⟩
    | unchoose id v =>
      obtain ⟨h1', _⟩ := unchoose_effect sb sb1 hi.paired hi.madeC hi.madeO id v hm' h1
      obtain ⟨k1, k2⟩ := ih (hi.unchoose hm' h1) hms he' h
      exact ⟨k1, k2.trans h1'⟩
    | unchooseArea sheet g =>
      obtain ⟨c, both, a, _, _, _, _, _, h6⟩ := unchooseArea_effect o sb sb1 sheet g h1
      obtain ⟨k1, k2⟩ := ih (hi.area h1) hms he' h
      refine ⟨k1, k2.trans ?_⟩
      rw [h6]

theorem pts_points {κ : Type} [DecidableEq κ] (m : PMap κ Geom1D) (hm : MadeMap m) (k : κ) :
    ∃ g, Made g ∧ pointsOf g.intervals = pts m k := by
  unfold pts
  cases h : m.get? k with
  | none =>
    obtain ⟨e, _, e2, e3⟩ := empty_denotes
    exact ⟨e, (made_iff_nf _).2 e2, e3⟩
  | some g => exact ⟨g, hm k g h, rfl⟩

theorem null_empty {g : Geom1D} (hg : Made g) (h : volume (pointsOf g.intervals) = 0) :
    pointsOf g.intervals = ∅ := by
  obtain ⟨v, h1, h2⟩ := c09_measure g hg
  rw [h] at h2
  have : v = Ext.fin 0 := Ext.toE_inj.1 (by rw [h2, Ext.toE_fin]; simp)
  rw [this] at h1
  rw [(c09_zero_iff g hg).1 h1, pointsOf_nil]

/-- C43, C45: when every choice stays within what is allowed, the two chosen parts of a joint are disjoint
and each is contained in its allowed part. -/
theorem c43_exact (o : G2Ops G) (sb sb' : SheetBuild G) (hf : Fresh1 sb) (ops : List (SbOp G))
    (hm : ∀ op ∈ ops, op.Made1) (he : ExactRun o ops sb) (h : runOps o ops sb = .ok sb') (s t : InterSide)
    (hj : Joint sb.sheetplex s t) :
    pts sb'.interChosen s.id ∩ pts sb'.interChosen t.id = ∅ ∧
    pts sb'.interChosen s.id ⊆ pts sb'.interOk s.id := by
  obtain ⟨hi, hp⟩ := hf.inv.exactRun ops hm he h
  rw [← hp] at hj
  obtain ⟨a, ha, ea⟩ := pts_points _ hi.madeC s.id
  obtain ⟨b, hb, eb⟩ := pts_points _ hi.madeC t.id
  obtain ⟨c, hc, ec⟩ := pts_points _ hi.madeO s.id
  have h1 := hi.both s t hj
  have h2 := hi.within s t hj
  rw [← ea, ← eb] at h1
  rw [← ea, ← ec] at h2
  rw [← ea, ← eb, ← ec]
  obtain ⟨u, _, u2, u3⟩ := and_denotes ha.nf hb.nf
  obtain ⟨w, _, w2, w3⟩ := sub_denotes ha.nf hc.nf
  rw [← u3] at h1 ⊢
  rw [← w3] at h2
  refine ⟨null_empty ((made_iff_nf _).2 u2) (le_antisymm h1 bot_le), ?_⟩
  have := null_empty ((made_iff_nf _).2 w2) (le_antisymm h2 bot_le)
  rw [w3] at this
  exact Set.sdiff_eq_empty.1 this

/-! ### 2D -/

/-- Laws of a 2D implementation: `den` gives the points of a valid geom, and the operations are right at
all points up to the exceptions allowed by the filter `l` (such as points on edges). -/
structure Lawful {X : Type} (o : G2Ops G) (l : Filter X) (Valid : G → Prop) (den : G → Set X) : Prop where
  empty : Valid o.empty ∧ ∀ᶠ x in l, x ∉ den o.empty
  or : ∀ a b c, Valid a → Valid b → o.or a b = .ok c → Valid c ∧ ∀ᶠ x in l, x ∈ den c ↔ x ∈ den a ∨ x ∈ den b
  and : ∀ a b c, Valid a → Valid b → o.and a b = .ok c → Valid c ∧ ∀ᶠ x in l, x ∈ den c ↔ x ∈ den a ∧ x ∈ den b
  sub : ∀ a b c, Valid a → Valid b → o.sub a b = .ok c → Valid c ∧ ∀ᶠ x in l, x ∈ den c ↔ x ∈ den a ∧ x ∉ den b
  fingers : ∀ s v f, Made v → o.fingers s v = .ok f → Valid f
  project : ∀ s g v, Valid g → o.project s g = .ok v → Made v
  isEmpty : ∀ a, Valid a → o.isEmpty a = true → ∀ᶠ x in l, x ∉ den a

/-- Laws of the area: it is the content of the points, and exceptional sets have content zero. -/
structure LawfulArea {X : Type} (o : G2Ops G) (l : Filter X) (Valid : G → Prop) (den : G → Set X)
    (μ : Set X → ENNReal) : Prop where
  mono : ∀ S T : Set X, S ⊆ T → μ S ≤ μ T
  union : ∀ S T : Set X, μ (S ∪ T) ≤ μ S + μ T
  area : ∀ a q, Valid a → o.area a = .ok q → μ (den a) = ENNReal.ofReal (q : ℝ)
  null : ∀ S : Set X, (∀ᶠ x in l, x ∉ S) → μ S = 0

/-- The points stored under a sheet. -/
def dens {X : Type} (den : G → Set X) (m : PMap Name G) (k : Name) : Set X :=
  match m.get? k with
  | some g => den g
  | none => ∅

/-- All values are valid. -/
def ValidMap (Valid : G → Prop) (m : PMap Name G) : Prop := ∀ k g, m.get? k = some g → Valid g

/-- 2D arguments are valid. -/
def SbOp.Valid2 (Valid : G → Prop) : SbOp G → Prop
  | .unchooseArea _ g => Valid g
  | .choose _ v _ => Made v
  | .unchoose _ _ => True

theorem subGeom_2d {X : Type} {o : G2Ops G} {l : Filter X} {Valid : G → Prop} {den : G → Set X}
    (L : Lawful o l Valid den) (m r : PMap Name G) (hm : ValidMap Valid m) (key : Name) (g : G) (hg : Valid g)
    (h : mapOpGeom o.sub m key g = .ok r) :
    ValidMap Valid r ∧ (∀ᶠ x in l, x ∈ dens den r key ↔ x ∈ dens den m key ∧ x ∉ den g) ∧
      ∀ k, k ≠ key → r.get? k = m.get? k := by
  obtain ⟨⟨w, v, hw, hv, hk⟩, ho⟩ := c57_op_geom o.sub m r key g h
  obtain ⟨h1, h2⟩ := L.sub w g v (hm key w hw) hg hv
  refine ⟨?_, ?_, ho⟩
  · intro k g' hg'
    by_cases hkk : k = key
    · subst hkk
      rw [hk] at hg'; cases hg'
      exact h1
    · exact hm k g' (by rw [← ho k hkk]; exact hg')
  · unfold dens
    rw [hk, hw]
    exact h2

theorem orGeom_2d {X : Type} {o : G2Ops G} {l : Filter X} {Valid : G → Prop} {den : G → Set X}
    (L : Lawful o l Valid den) (m r : PMap Name G) (hm : ValidMap Valid m) (key : Name) (g : G) (hg : Valid g)
    (h : mapOrGeom o.or (.ok o.empty) m key g = .ok r) :
    ValidMap Valid r ∧ (∀ᶠ x in l, x ∈ dens den r key ↔ x ∈ dens den m key ∨ x ∈ den g) ∧
      ∀ k, k ≠ key → r.get? k = m.get? k := by
  obtain ⟨⟨base, v, hb, hv, hk⟩, ho⟩ := c57_or_geom o.or (.ok o.empty) m r key g h
  have hbv : Valid base ∧ ∀ᶠ x in l, x ∈ den base ↔ x ∈ dens den m key := by
    unfold dens
    rcases hb with hb | ⟨hb, he⟩
    · rw [hb]
      exact ⟨hm key base hb, Filter.Eventually.of_forall fun x => Iff.rfl⟩
    · cases he
      rw [hb]
      refine ⟨L.empty.1, L.empty.2.mono fun x hx => ?_⟩
      simpa using hx
  obtain ⟨h1, h2⟩ := L.or base g v hbv.1 hg hv
  refine ⟨?_, ?_, ho⟩
  · intro k g' hg'
    by_cases hkk : k = key
    · subst hkk
      rw [hk] at hg'; cases hg'
      exact h1
    · exact hm k g' (by rw [← ho k hkk]; exact hg')
  · have hd : dens den r key = den v := by unfold dens; rw [hk]
    rw [hd]
    filter_upwards [h2, hbv.2] with x hx hx'
    rw [hx, hx']

/-- C44, locality: an operation changes only data of the joint side and sheets it is about. -/
theorem c44_local (o : G2Ops G) (sb sb' : SheetBuild G) (hsp : sb.sheetplex.Paired)
    (hc : MadeMap sb.interChosen) (ho : MadeMap sb.interOk) :
    (∀ id v tentative, Made v → sb.chooseInterside o id v tentative = .ok sb' →
      ∃ s t, Joint sb.sheetplex s t ∧ s.id = id ∧ sb'.sheetplex = sb.sheetplex ∧
        (∀ k, k ≠ s.id → sb'.interChosen.get? k = sb.interChosen.get? k) ∧
        (∀ k, k ≠ t.id → sb'.interOk.get? k = sb.interOk.get? k) ∧
        (∀ k, k ≠ s.sheet → sb'.sheetChosen.get? k = sb.sheetChosen.get? k) ∧
        (∀ k, k ≠ t.sheet → sb'.sheetOk.get? k = sb.sheetOk.get? k)) ∧
    (∀ id v, Made v → sb.unchooseInterside id v = .ok sb' →
      sb' = { sb with interOk := sb'.interOk } ∧
        ∀ k, k ≠ id → sb'.interOk.get? k = sb.interOk.get? k) ∧
    (∀ sheet g, sb.unchooseSheetArea o sheet g = .ok sb' →
      sb' = { sb with sheetOk := sb'.sheetOk } ∧
        ∀ k, k ≠ sheet → sb'.sheetOk.get? k = sb.sheetOk.get? k) := by
  refine ⟨fun id v tentative hv h => ?_, fun id v hv h => ?_, fun sheet g h => ?_⟩
  · obtain ⟨s, t, hef⟩ := choose_effect o sb sb' hc ho id v hv tentative h
    have hid := (interside_spec _ hsp id s hef.here).1
    refine ⟨s, t, ⟨by rw [hid]; exact hef.here, hef.opp⟩, hid, hef.plex, ?_, ?_, ?_, ?_⟩
    · rw [hid]
      exact (c57_or_geom _ _ _ _ _ _ hef.chosenEq).2
    · exact (c57_op_geom _ _ _ _ _ hef.okEq).2
    · rcases hef.sheetChosen with ⟨_, h⟩ | ⟨f, k, fk, _, _, _, h⟩
      · intro k _
        rw [h]
      · exact (c57_or_geom _ _ _ _ _ _ h).2
    · obtain ⟨F, c, both, a, _, _, _, _, _, h⟩ := hef.sheetOk
      exact (c57_op_geom _ _ _ _ _ h).2
  · obtain ⟨h1, h2, h3, h4, _, _, _, h8⟩ := unchoose_effect sb sb' hsp hc ho id v hv h
    refine ⟨?_, (c57_op_geom _ _ _ _ _ h8).2⟩
    cases sb'
    cases sb
    simp_all
  · obtain ⟨c, both, a, _, _, _, _, h5, h6⟩ := unchooseArea_effect o sb sb' sheet g h
    exact ⟨h6, (c57_op_geom _ _ _ _ _ h5).2⟩

/-- Everything in a build is well made. -/
structure Good (Valid : G → Prop) (sb : SheetBuild G) : Prop where
  paired : sb.sheetplex.Paired
  madeC : MadeMap sb.interChosen
  madeO : MadeMap sb.interOk
  validC : ValidMap Valid sb.sheetChosen
  validO : ValidMap Valid sb.sheetOk

/-- What one accepted operation does to the sheets: chosen areas grow, allowed areas shrink, and the
excess of chosen over allowed areas grows at most by a part `D` of the chosen area. -/
theorem op_2d {X : Type} {o : G2Ops G} {l : Filter X} {Valid : G → Prop} {den : G → Set X}
    (L : Lawful o l Valid den) (sb sb' : SheetBuild G) (hg : Good Valid sb) (op : SbOp G) (hop : op.Valid2 Valid)
    (hop1 : op.Made1) (h : op.run o sb = .ok sb') :
    Good Valid sb' ∧ sb'.sheetplex = sb.sheetplex ∧
    (∀ k, pts sb.interChosen k ⊆ pts sb'.interChosen k) ∧ (∀ k, pts sb'.interOk k ⊆ pts sb.interOk k) ∧
    (∀ k, ∀ᶠ x in l, x ∈ dens den sb.sheetChosen k → x ∈ dens den sb'.sheetChosen k) ∧
    (∀ k, ∀ᶠ x in l, x ∈ dens den sb'.sheetOk k → x ∈ dens den sb.sheetOk k) := by
  cases op with
  | choose id v tentative =>
    obtain ⟨s, t, hef⟩ := choose_effect o sb sb' hg.madeC hg.madeO id v hop1 tentative h
    obtain ⟨F, c, both, a, f1, f2, f3, f4, f5, f6⟩ := hef.sheetOk
    obtain ⟨k1, k2, k3⟩ := subGeom_2d L sb.sheetOk sb'.sheetOk hg.validO t.sheet F (L.fingers t v F hop1 f1) f6
    have hch : ValidMap Valid sb'.sheetChosen ∧
        ∀ k, ∀ᶠ x in l, x ∈ dens den sb.sheetChosen k → x ∈ dens den sb'.sheetChosen k := by
      rcases hef.sheetChosen with ⟨_, h⟩ | ⟨f, k, fk, e1, e2, e3, h⟩
      · rw [h]
        exact ⟨hg.validC, fun k => Filter.Eventually.of_forall fun x hx => hx⟩
      · obtain ⟨d1, _⟩ := L.and f k fk (L.fingers s v f hop1 e1) (hg.validO _ _ e2) e3
        obtain ⟨j1, j2, j3⟩ := orGeom_2d L sb.sheetChosen sb'.sheetChosen hg.validC s.sheet fk d1 h
        refine ⟨j1, fun k' => ?_⟩
        by_cases hk : k' = s.sheet
        · subst hk
          exact j2.mono fun x hx hx' => hx.2 (Or.inl hx')
        · unfold dens
          rw [j3 k' hk]
          exact Filter.Eventually.of_forall fun x hx => hx
    refine ⟨⟨by rw [hef.plex]; exact hg.paired, hef.madeC, hef.madeO, hch.1, k1⟩, hef.plex, ?_, ?_, hch.2, ?_⟩
    · intro k
      rw [hef.chosen]
      split_ifs
      · exact Set.subset_union_left
      · exact le_refl _
    · intro k
      rw [hef.ok]
      split_ifs
      · exact Set.sdiff_subset
      · exact le_refl _
    · intro k'
      by_cases hk : k' = t.sheet
      · subst hk
        exact k2.mono fun x hx hx' => (hx.1 hx').1
      · unfold dens
        rw [k3 k' hk]
        exact Filter.Eventually.of_forall fun x hx => hx
  | unchoose id v =>
    obtain ⟨h1, h2, h3, h4, h5, h6, h7, _⟩ := unchoose_effect sb sb' hg.paired hg.madeC hg.madeO id v hop1 h
    refine ⟨⟨by rw [h1]; exact hg.paired, by rw [h4]; exact hg.madeC, h5, by rw [h2]; exact hg.validC,
      by rw [h3]; exact hg.validO⟩, h1, ?_, ?_, ?_, ?_⟩
    · intro k; rw [h4]
    · intro k
      rw [h6]
      split_ifs
      · exact Set.sdiff_subset
      · exact le_refl _
    · intro k; rw [h2]; exact Filter.Eventually.of_forall fun x hx => hx
    · intro k; rw [h3]; exact Filter.Eventually.of_forall fun x hx => hx
  | unchooseArea sheet g =>
    obtain ⟨c, both, a, _, _, _, _, h5, h6⟩ := unchooseArea_effect o sb sb' sheet g h
    obtain ⟨k1, k2, k3⟩ := subGeom_2d L sb.sheetOk sb'.sheetOk hg.validO sheet g hop h5
    rw [h6]
    refine ⟨⟨hg.paired, hg.madeC, hg.madeO, hg.validC, k1⟩, rfl, fun k => le_refl _, fun k => le_refl _,
      fun k => Filter.Eventually.of_forall fun x hx => hx, ?_⟩
    intro k'
    by_cases hk : k' = sheet
    · subst hk
      exact k2.mono fun x hx hx' => (hx.1 hx').1
    · unfold dens
      dsimp only
      rw [k3 k' hk]
      exact Filter.Eventually.of_forall fun x hx => hx

/-- C44: along any accepted sequence of operations what is chosen only grows and what is allowed only
shrinks, on joints and on sheets. -/
theorem c44_monotone {X : Type} {o : G2Ops G} {l : Filter X} {Valid : G → Prop} {den : G → Set X}
    (L : Lawful o l Valid den) (sb sb' : SheetBuild G) (hg : Good Valid sb) (ops : List (SbOp G))
    (hm : ∀ op ∈ ops, op.Made1) (hv : ∀ op ∈ ops, op.Valid2 Valid) (h : runOps o ops sb = .ok sb') :
    Good Valid sb' ∧
    (∀ k, pts sb.interChosen k ⊆ pts sb'.interChosen k) ∧ (∀ k, pts sb'.interOk k ⊆ pts sb.interOk k) ∧
    (∀ k, ∀ᶠ x in l, x ∈ dens den sb.sheetChosen k → x ∈ dens den sb'.sheetChosen k) ∧
    (∀ k, ∀ᶠ x in l, x ∈ dens den sb'.sheetOk k → x ∈ dens den sb.sheetOk k) := by
  induction ops generalizing sb with
  | nil =>
    cases h
    exact ⟨hg, fun k => le_refl _, fun k => le_refl _, fun k => Filter.Eventually.of_forall fun x hx => hx,
      fun k => Filter.Eventually.of_forall fun x hx => hx⟩
  | cons op ops ih =>
    rw [runOps, bind_ok] at h
    obtain ⟨sb1, h1, h⟩ := h
    obtain ⟨a1, _, a2, a3, a4, a5⟩ := op_2d L sb sb1 hg op (hv op (by simp)) (hm op (by simp)) h1
    obtain ⟨b1, b2, b3, b4, b5⟩ := ih sb1 a1 (fun op' h' => hm op' (by simp [h'])) (fun op' h' => hv op' (by simp [h'])) h
    refine ⟨b1, fun k => (a2 k).trans (b2 k), fun k => (b3 k).trans (a3 k), fun k => ?_, fun k => ?_⟩
    · filter_upwards [a4 k, b4 k] with x h1 h2 h3 using h2 (h1 h3)
    · filter_upwards [a5 k, b5 k] with x h1 h2 h3 using h1 (h2 h3)

/-- What one accepted operation does to the excess of chosen over allowed areas. -/
theorem op_excess {X : Type} {o : G2Ops G} {l : Filter X} {Valid : G → Prop} {den : G → Set X} {μ : Set X → ENNReal}
    (L : Lawful o l Valid den) (A : LawfulArea o l Valid den μ) (sb sb' : SheetBuild G) (hg : Good Valid sb)
    (op : SbOp G) (hop : op.Valid2 Valid) (hop1 : op.Made1) (h : op.run o sb = .ok sb') (k : Name) (e : ENNReal)
    (he : μ (dens den sb.sheetChosen k \ dens den sb.sheetOk k) ≤ e) :
    μ (dens den sb'.sheetChosen k \ dens den sb'.sheetOk k) ≤
      e + (nChoose [op] * ENNReal.ofReal (tol6 : ℝ) + nAreas [op] * ENNReal.ofReal (tol5 : ℝ)) := by
  -- sets that differ only in exceptional points have the same measure bounds
  have hle : ∀ S T : Set X, (∀ᶠ x in l, x ∈ S → x ∈ T) → μ S ≤ μ T := by
    intro S T hST
    have h0 : μ (S \ T) = 0 := A.null _ (hST.mono fun x hx hx' => hx'.2 (hx hx'.1))
    calc μ S ≤ μ (T ∪ (S \ T)) := A.mono _ _ (by intro x hx; by_cases h : x ∈ T <;> simp [h, hx])
      _ ≤ μ T + μ (S \ T) := A.union _ _
      _ = μ T := by rw [h0, add_zero]
  -- taking `D` away from the allowed area
  have hsub : ∀ (m r : PMap Name G) (D : Set X) (d : ENNReal), (∀ᶠ x in l, x ∈ dens den r k ↔ x ∈ dens den m k ∧ x ∉ D) →
      μ (dens den sb.sheetChosen k ∩ D) ≤ d → μ (dens den sb.sheetChosen k \ dens den m k) ≤ e →
      μ (dens den sb.sheetChosen k \ dens den r k) ≤ e + d := by
    intro m r D d hr hd he
    refine le_trans (hle _ ((dens den sb.sheetChosen k \ dens den m k) ∪ (dens den sb.sheetChosen k ∩ D)) ?_)
      (le_trans (A.union _ _) (add_le_add he hd))
    refine hr.mono fun x hx hx' => ?_
    by_cases h1 : x ∈ dens den m k
    · right
      refine ⟨hx'.1, ?_⟩
      by_contra h2
      exact hx'.2 (hx.2 ⟨h1, h2⟩)
    · exact Or.inl ⟨hx'.1, h1⟩
  cases op with
  | choose id v tentative =>
    obtain ⟨s, t, hef⟩ := choose_effect o sb sb' hg.madeC hg.madeO id v hop1 tentative h
    have hid := (interside_spec _ hg.paired id s hef.here).1
    obtain ⟨_, _, hst⟩ := Joint.symm hg.paired (s := s) (t := t) ⟨by rw [hid]; exact hef.here, hef.opp⟩
    obtain ⟨F, c, both, a, f1, f2, f3, f4, f5, f6⟩ := hef.sheetOk
    have hF := L.fingers t v F hop1 f1
    obtain ⟨k1, k2, k3⟩ := subGeom_2d L sb.sheetOk sb'.sheetOk hg.validO t.sheet F hF f6
    obtain ⟨g1, g2⟩ := L.and F c both hF (hg.validC _ _ f2) f3
    have hd : μ (dens den sb.sheetChosen t.sheet ∩ den F) ≤ ENNReal.ofReal (tol6 : ℝ) := by
      have : dens den sb.sheetChosen t.sheet = den c := by unfold dens; rw [f2]
      rw [this]
      refine le_trans (hle _ (den both) (g2.mono fun x hx hx' => hx.2 ⟨hx'.2, hx'.1⟩)) ?_
      rw [A.area both a g1 f4]
      exact ENNReal.ofReal_le_ofReal (by exact_mod_cast f5.le)
    simp only [nChoose, nAreas, Nat.cast_zero, zero_mul, add_zero, zero_add, Nat.cast_one, one_mul]
    -- the allowed area of sheet `k`
    have hok : ∀ᶠ x in l, x ∈ dens den sb'.sheetOk k ↔
        x ∈ dens den sb.sheetOk k ∧ (k = t.sheet → x ∉ den F) := by
      by_cases hk : k = t.sheet
      · subst hk
        exact k2.mono fun x hx => by rw [hx]; simp
      · unfold dens
        rw [k3 k hk]
        exact Filter.Eventually.of_forall fun x => by simp [hk]
    by_cases hk : k = t.sheet
    · subst hk
      have hch : dens den sb'.sheetChosen t.sheet = dens den sb.sheetChosen t.sheet := by
        rcases hef.sheetChosen with ⟨_, h⟩ | ⟨f, k, fk, e1, e2, e3, h⟩
        · rw [h]
        · unfold dens
          rw [(c57_or_geom _ _ _ _ _ _ h).2 t.sheet hst]
      rw [hch]
      exact hsub sb.sheetOk sb'.sheetOk (den F) _ k2 hd he
    · refine le_trans (le_trans (hle _ (dens den sb.sheetChosen k \ dens den sb.sheetOk k) ?_) he) le_self_add
      have hoke : dens den sb'.sheetOk k = dens den sb.sheetOk k := by
        unfold dens
        rw [k3 k hk]
      rw [hoke]
      rcases hef.sheetChosen with ⟨_, h⟩ | ⟨f, k', fk, e1, e2, e3, h⟩
      · rw [h]
        exact Filter.Eventually.of_forall fun x hx => hx
      · obtain ⟨d1, d2⟩ := L.and f k' fk (L.fingers s v f hop1 e1) (hg.validO _ _ e2) e3
        obtain ⟨j1, j2, j3⟩ := orGeom_2d L sb.sheetChosen sb'.sheetChosen hg.validC s.sheet fk d1 h
        by_cases hks : k = s.sheet
        · subst hks
          have : dens den sb.sheetOk s.sheet = den k' := by unfold dens; rw [e2]
          rw [this]
          filter_upwards [d2, j2] with x h1 h2 h3
          rcases h2.1 h3.1 with h4 | h4
          · exact ⟨h4, h3.2⟩
          · exact absurd (h1.1 h4).2 h3.2
        · have : dens den sb'.sheetChosen k = dens den sb.sheetChosen k := by
            unfold dens
            rw [j3 k hks]
          rw [this]
          exact Filter.Eventually.of_forall fun x hx => hx
  | unchoose id v =>
    obtain ⟨h1, h2, h3, _⟩ := unchoose_effect sb sb' hg.paired hg.madeC hg.madeO id v hop1 h
    rw [h2, h3]
    exact le_trans he le_self_add
  | unchooseArea sheet g =>
    obtain ⟨c, both, a, f2, f3, f4, f5, h5, h6⟩ := unchooseArea_effect o sb sb' sheet g h
    obtain ⟨k1, k2, k3⟩ := subGeom_2d L sb.sheetOk sb'.sheetOk hg.validO sheet g hop h5
    obtain ⟨g1, g2⟩ := L.and c g both (hg.validC _ _ f2) hop f3
    simp only [nChoose, nAreas, Nat.cast_zero, zero_mul, zero_add, Nat.cast_one, one_mul]
    have hch : sb'.sheetChosen = sb.sheetChosen := by rw [h6]
    rw [hch]
    by_cases hk : k = sheet
    · subst hk
      refine hsub sb.sheetOk sb'.sheetOk (den g) _ k2 ?_ he
      have : dens den sb.sheetChosen k = den c := by unfold dens; rw [f2]
      rw [this]
      refine le_trans (hle _ (den both) (g2.mono fun x hx hx' => hx.2 hx')) ?_
      rw [A.area both a g1 f4]
      exact ENNReal.ofReal_le_ofReal (by exact_mod_cast f5.le)
    · have hoke : dens den sb'.sheetOk k = dens den sb.sheetOk k := by
        unfold dens
        rw [k3 k hk]
      rw [hoke]
      exact le_trans he le_self_add

/-- C45 for sheets: after any accepted sequence of operations the chosen area exceeds the allowed area by
at most the initial excess plus 1e-6 per choice and 1e-5 per unchosen area. -/
theorem c45_sheet {X : Type} {o : G2Ops G} {l : Filter X} {Valid : G → Prop} {den : G → Set X} {μ : Set X → ENNReal}
    (L : Lawful o l Valid den) (A : LawfulArea o l Valid den μ) (sb sb' : SheetBuild G) (hg : Good Valid sb)
    (ops : List (SbOp G)) (hm : ∀ op ∈ ops, op.Made1) (hv : ∀ op ∈ ops, op.Valid2 Valid)
    (h : runOps o ops sb = .ok sb') (k : Name) :
    μ (dens den sb'.sheetChosen k \ dens den sb'.sheetOk k) ≤
      μ (dens den sb.sheetChosen k \ dens den sb.sheetOk k) +
        (nChoose ops * ENNReal.ofReal (tol6 : ℝ) + nAreas ops * ENNReal.ofReal (tol5 : ℝ)) := by
  induction ops generalizing sb with
  | nil =>
    cases h
    exact le_self_add
  | cons op ops ih =>
    rw [runOps, bind_ok] at h
    obtain ⟨sb1, h1, h⟩ := h
    have hg1 := (op_2d L sb sb1 hg op (hv op (by simp)) (hm op (by simp)) h1).1
    have hx := op_excess L A sb sb1 hg op (hv op (by simp)) (hm op (by simp)) h1 k _ le_rfl
    have hi := ih sb1 hg1 (fun op' h' => hm op' (by simp [h'])) (fun op' h' => hv op' (by simp [h'])) h
    have e1 : (nChoose (op :: ops) : ENNReal) = nChoose [op] + nChoose ops := by
      cases op <;> simp [nChoose, add_comm]
    have e2 : (nAreas (op :: ops) : ENNReal) = nAreas [op] + nAreas ops := by
      cases op <;> simp [nAreas, add_comm]
    refine le_trans hi (le_trans (add_le_add hx le_rfl) (le_of_eq ?_))
    rw [e1, e2]
    ring

end Ply
