import Verif.Props.Steps

/-! # C63: what a passing check guarantees -/

namespace Ply

open MeasureTheory Geom1D SheetBuild

variable {G : Type}

theorem each_iff {α : Type} (f : α → Except PyErr Unit) (l : List α) :
    SheetBuild.each f l = .ok () ↔ ∀ x ∈ l, f x = .ok () := by
  refine ⟨fun h => ?_, each_ok f l⟩
  induction l with
  | nil => simp
  | cons a l ih =>
    rw [SheetBuild.each, bind_ok] at h
    obtain ⟨u, h1, h2⟩ := h
    intro x hx
    rcases List.mem_cons.1 hx with rfl | hx
    · exact h1
    · exact ih h2 x hx

theorem check_iff (o : G2Ops G) (sb : SheetBuild G) : sb.check o = .ok () ↔
    (∀ e ∈ sb.sheetplex.sheets, sb.checkSheet o e.2.id = .ok ()) ∧
    ∀ s ∈ intersides (sb.sheetplex.intersections.map Prod.snd) none, sb.checkInterside o s = .ok () := by
  unfold SheetBuild.check
  rw [bind_ok]
  constructor
  · rintro ⟨u, h1, h2⟩
    exact ⟨(each_iff _ _).1 h1, (each_iff _ _).1 h2⟩
  · rintro ⟨h1, h2⟩
    exact ⟨(), (each_iff _ _).2 h1, (each_iff _ _).2 h2⟩

/-- C63: a build that passes the check has both maps on every joint, less than 1e-7 chosen beyond what is
allowed, nothing chosen that is allowed on the other side, and less than 1e-7 chosen on both sides. -/
theorem c63_joint (o : G2Ops G) (sb : SheetBuild G) (hb : Base1 sb) (h : sb.check o = .ok ()) (s t : InterSide)
    (hj : Joint sb.sheetplex s t) :
    (∃ ch ok, sb.interChosen.get? s.id = some ch ∧ sb.interOk.get? s.id = some ok) ∧
    volume (pts sb.interChosen s.id \ pts sb.interOk s.id) < ENNReal.ofReal (tol7 : ℝ) ∧
    pts sb.interChosen s.id ∩ pts sb.interOk t.id = ∅ ∧
    volume (pts sb.interChosen s.id ∩ pts sb.interChosen t.id) < ENNReal.ofReal (tol7 : ℝ) := by
  have hp := hb.paired
  have key : ∀ s t, Joint sb.sheetplex s t →
      (∃ ch ok, sb.interChosen.get? s.id = some ch ∧ sb.interOk.get? s.id = some ok) ∧
      volume (pts sb.interChosen s.id \ pts sb.interOk s.id) < ENNReal.ofReal (tol7 : ℝ) ∧
      pts sb.interChosen s.id ∩ pts sb.interOk t.id = ∅ := by
    intro s t hj
    have hs := ((check_iff o sb).1 h).2 s (((paired_intersides _ hp _ (List.Perm.refl _) []).2.1 s).2 hj.1)
    unfold SheetBuild.checkInterside at hs
    rw [bind_ok] at hs; obtain ⟨t', a1, hs⟩ := hs
    rw [hj.2] at a1
    cases a1
    rw [bind_ok] at hs; obtain ⟨ch, a2, hs⟩ := hs
    rw [bind_ok] at hs; obtain ⟨ok, a3, hs⟩ := hs
    rw [bind_ok] at hs; obtain ⟨d, a4, hs⟩ := hs
    rw [bind_ok] at hs; obtain ⟨_, a5, hs⟩ := hs
    rw [bind_ok] at hs; obtain ⟨okt, a6, hs⟩ := hs
    rw [bind_ok] at hs; obtain ⟨both, a7, hs⟩ := hs
    rw [bind_ok] at hs; obtain ⟨_, a8, hs⟩ := hs
    have mc := made_of_get hb.madeC a2
    have mo := made_of_get hb.madeO a3
    have mt := made_of_get hb.madeO a6
    obtain ⟨md, pd⟩ := sub_ok mc mo a4
    obtain ⟨mb, pb⟩ := and_ok mc mt a7
    rw [assert_ok] at a5 a8
    rw [measureLt_iff md, pd] at a5
    have hbe := (c10_isEmpty _ mb).1 a8
    rw [pts_of_get a2, pts_of_get a3, pts_of_get a6]
    refine ⟨⟨ch, ok, (PMap.get_ok _ _ _).1 a2, (PMap.get_ok _ _ _).1 a3⟩, a5, ?_⟩
    rw [← pb]
    ext x
    simpa using hbe x
  obtain ⟨k1, k2, k3⟩ := key s t hj
  obtain ⟨_, l2, _⟩ := key t s (hj.symm hp).1
  refine ⟨k1, k2, k3, lt_of_le_of_lt (measure_mono ?_) l2⟩
  rintro x ⟨hx, hx'⟩
  exact ⟨hx', fun hc => (Set.ext_iff.1 k3 x).1 ⟨hx, hc⟩⟩

theorem area_congr {X : Type} {o : G2Ops G} {l : Filter X} {Valid : G → Prop} {den : G → Set X}
    {μ : Set X → ENNReal} (A : LawfulArea o l Valid den μ) (S T : Set X) (h : ∀ᶠ x in l, x ∈ S ↔ x ∈ T) : μ S = μ T := by
  have key : ∀ S T : Set X, (∀ᶠ x in l, x ∈ S ↔ x ∈ T) → μ S ≤ μ T := by
    intro S T h
    have h0 : μ (S \ T) = 0 := A.null _ (h.mono fun x hx hx' => hx'.2 (hx.1 hx'.1))
    refine le_trans (A.mono _ _ ?_) (le_trans (A.union T (S \ T)) (by rw [h0, add_zero]))
    intro x hx
    by_cases h : x ∈ T
    · exact Or.inl h
    · exact Or.inr ⟨hx, h⟩
  exact le_antisymm (key S T h) (key T S (h.mono fun x hx => hx.symm))

theorem area_lt {X : Type} {o : G2Ops G} {l : Filter X} {Valid : G → Prop} {den : G → Set X}
    {μ : Set X → ENNReal} (A : LawfulArea o l Valid den μ) (T : TotalArea o Valid) (tol : ℚ) (htol : 0 < tol) (d : G)
    (vd : Valid d) (S : Set X) (h : ∀ᶠ x in l, x ∈ den d ↔ x ∈ S) :
    (o.area d >>= fun a => assert (decide (a < tol))) = .ok () ↔ μ S < ENNReal.ofReal (tol : ℝ) := by
  obtain ⟨q, hq⟩ := T d vd
  rw [hq, bind_okC, assert_ok, ← area_congr A _ _ h, A.area d q vd hq,
    ENNReal.ofReal_lt_ofReal_iff (by exact_mod_cast htol)]
  simp

/-- The calls of 2D operations made by `check` do not raise. -/
structure CheckCalls (o : G2Ops G) (sb : SheetBuild G) : Prop where
  sheet : ∀ e ∈ sb.sheetplex.sheets, ∀ c k, sb.sheetChosen.get? e.2.id = some c → sb.sheetOk.get? e.2.id = some k →
    ∃ d, o.sub c k = .ok d
  side : ∀ s t, Joint sb.sheetplex s t → ∀ c v, sb.sheetChosen.get? s.sheet = some c → sb.interOk.get? t.id = some v →
    ∃ f d, o.fingers s v = .ok f ∧ o.and c f = .ok d

theorem check_calls (o : G2Ops G) (sb : SheetBuild G) (hp : sb.sheetplex.Paired) (h : sb.check o = .ok ()) :
    CheckCalls o sb := by
  rw [check_iff] at h
  have hall := (paired_intersides _ hp _ (List.Perm.refl _) []).2.1
  constructor
  · intro e he c k hc hk
    have := h.1 e he
    unfold SheetBuild.checkSheet at this
    rw [(PMap.get_ok _ _ _).2 hc, bind_okC, (PMap.get_ok _ _ _).2 hk, bind_okC, bind_ok] at this
    obtain ⟨d, h1, _⟩ := this
    exact ⟨d, h1⟩
  · intro s t hj c v hc hv
    have := h.2 s ((hall s).2 hj.1)
    unfold SheetBuild.checkInterside at this
    rw [hj.2, bind_okC, bind_ok] at this; obtain ⟨ch, a1, this⟩ := this
    rw [bind_ok] at this; obtain ⟨ok, a2, this⟩ := this
    rw [bind_ok] at this; obtain ⟨d, a3, this⟩ := this
    rw [bind_ok] at this; obtain ⟨_, a4, this⟩ := this
    rw [(PMap.get_ok _ _ _).2 hv, bind_okC, bind_ok] at this; obtain ⟨both, a5, this⟩ := this
    rw [bind_ok] at this; obtain ⟨_, a6, this⟩ := this
    rw [(PMap.get_ok _ _ _).2 hc, bind_okC, bind_ok] at this; obtain ⟨f, a7, this⟩ := this
    rw [bind_ok] at this; obtain ⟨cb, a8, this⟩ := this
    exact ⟨f, cb, a7, a8⟩

/-- C63: if no 2D operation called raises, a complete build passes the check if and only if on
every sheet less than 1e-7 is chosen beyond what is allowed, and on every joint the same holds, nothing chosen
is allowed on the other side, and the chosen area meets the fingers of what is allowed on the other side in
less than 1e-3. -/
theorem c63_calls {X : Type} {o : G2Ops G} {l : Filter X} {Valid : G → Prop} {den : G → Set X}
    {μ : Set X → ENNReal} (L : Lawful o l Valid den) (A : LawfulArea o l Valid den μ) (T : TotalArea o Valid)
    (sb : SheetBuild G) (hg : Good Valid sb) (hf : Full sb)
    (hs : ∀ e ∈ sb.sheetplex.sheets, (∃ g, sb.sheetChosen.get? e.2.id = some g) ∧ ∃ g, sb.sheetOk.get? e.2.id = some g)
    (calls : CheckCalls o sb) :
    sb.check o = .ok () ↔
    (∀ e ∈ sb.sheetplex.sheets,
      μ (dens den sb.sheetChosen e.2.id \ dens den sb.sheetOk e.2.id) < ENNReal.ofReal (tol7 : ℝ)) ∧
    ∀ s t, Joint sb.sheetplex s t →
      volume (pts sb.interChosen s.id \ pts sb.interOk s.id) < ENNReal.ofReal (tol7 : ℝ) ∧
      pts sb.interChosen s.id ∩ pts sb.interOk t.id = ∅ ∧
      ∀ v f, sb.interOk.get? t.id = some v → o.fingers s v = .ok f →
        μ (dens den sb.sheetChosen s.sheet ∩ den f) < ENNReal.ofReal (tol3 : ℝ) := by
  rw [check_iff]
  refine and_congr (forall_congr' fun e => forall_congr' fun he => ?_) ?_
  · obtain ⟨⟨c, hc⟩, k, hk⟩ := hs e he
    obtain ⟨d, hd⟩ := calls.sheet e he c k hc hk
    obtain ⟨vd, dd⟩ := L.sub c k d (hg.validC _ _ hc) (hg.validO _ _ hk) hd
    unfold SheetBuild.checkSheet
    rw [(PMap.get_ok _ _ _).2 hc, bind_okC, (PMap.get_ok _ _ _).2 hk, bind_okC, hd, bind_okC]
    refine area_lt A T tol7 (by unfold tol7; norm_num) d vd _ ?_
    filter_upwards [dd] with x hx
    rw [hx]
    unfold dens
    rw [hc, hk]
    rfl
  · have hall := (paired_intersides _ hg.paired _ (List.Perm.refl _) []).2.1
    have key : ∀ s t, Joint sb.sheetplex s t → (sb.checkInterside o s = .ok () ↔
        volume (pts sb.interChosen s.id \ pts sb.interOk s.id) < ENNReal.ofReal (tol7 : ℝ) ∧
        pts sb.interChosen s.id ∩ pts sb.interOk t.id = ∅ ∧
        ∀ v f, sb.interOk.get? t.id = some v → o.fingers s v = .ok f →
          μ (dens den sb.sheetChosen s.sheet ∩ den f) < ENNReal.ofReal (tol3 : ℝ)) := by
      intro s t hj
      have hj' := (hj.symm hg.paired).1
      obtain ⟨ch, a2⟩ := hf.chosen _ _ hj.1
      obtain ⟨ok, a3⟩ := hf.ok _ _ hj.1
      obtain ⟨okt, a6⟩ := hf.ok _ _ hj'.1
      obtain ⟨sch, a9⟩ := hf.sheetChosen _ _ hj.1
      have mc := hg.madeC _ _ a2
      have mo := hg.madeO _ _ a3
      have mt := hg.madeO _ _ a6
      obtain ⟨d, a4, nd, pd⟩ := sub_denotes mc.nf mo.nf
      obtain ⟨both, a7, nb, pb⟩ := and_denotes mc.nf mt.nf
      obtain ⟨f, cb, a10, a11⟩ := calls.side s t hj sch okt a9 a6
      have vf := L.fingers s okt f mt a10
      obtain ⟨vcb, dcb⟩ := L.and sch f cb (hg.validC _ _ a9) vf a11
      have ar := area_lt A T tol3 (by unfold tol3; norm_num) cb vcb (dens den sb.sheetChosen s.sheet ∩ den f) (by
        filter_upwards [dcb] with x hx
        rw [hx]
        unfold dens
        rw [a9]
        rfl)
      have p1 : pts sb.interChosen s.id = pointsOf ch.intervals := by unfold pts; rw [a2]
      have p2 : pts sb.interOk s.id = pointsOf ok.intervals := by unfold pts; rw [a3]
      have p3 : pts sb.interOk t.id = pointsOf okt.intervals := by unfold pts; rw [a6]
      unfold SheetBuild.checkInterside
      rw [hj.2, bind_okC, (PMap.get_ok _ _ _).2 a2, bind_okC, (PMap.get_ok _ _ _).2 a3, bind_okC, a4, bind_okC, bind_ok]
      have m1 : (∃ u, assert (measureLt d.measure1d tol7) = .ok u) ↔
          volume (pts sb.interChosen s.id \ pts sb.interOk s.id) < ENNReal.ofReal (tol7 : ℝ) := by
        rw [p1, p2, ← pd, ← measureLt_iff ((made_iff_nf _).2 nd)]
        constructor
        · rintro ⟨u, hu⟩
          exact (assert_ok _ u).1 hu
        · intro h
          exact ⟨(), (assert_ok _ ()).2 h⟩
      have m2 : assert both.isEmpty = .ok () ↔ pts sb.interChosen s.id ∩ pts sb.interOk t.id = ∅ := by
        rw [assert_ok, p1, p3, ← pb, c10_isEmpty _ ((made_iff_nf _).2 nb), Set.eq_empty_iff_forall_notMem]
      rw [← m1, ← m2]
      rw [(PMap.get_ok _ _ _).2 a6, bind_okC, a7, bind_okC]
      constructor
      · rintro ⟨u, h1, h2⟩
        rw [bind_ok] at h2
        obtain ⟨u', h2, h3⟩ := h2
        rw [(PMap.get_ok _ _ _).2 a9, bind_okC, a10, bind_okC, a11, bind_okC] at h3
        refine ⟨⟨u, h1⟩, h2, ?_⟩
        intro v f' e1 e2
        rw [a6] at e1
        cases e1
        rw [a10] at e2
        cases e2
        exact ar.1 h3
      · rintro ⟨⟨u, h1⟩, h2, h3⟩
        refine ⟨u, h1, ?_⟩
        rw [h2, bind_okC, (PMap.get_ok _ _ _).2 a9, bind_okC, a10, bind_okC, a11, bind_okC]
        exact ar.2 (h3 _ _ a6 a10)
    constructor
    · intro h s t hj
      exact (key s t hj).1 (h s ((hall s).2 hj.1))
    · intro h s hs'
      obtain ⟨t, hj⟩ := Joint.of hg.paired ((hall s).1 hs')
      exact (key s t hj).2 (h s t hj)

/-- C63: a complete build passes the check if and only if no 2D operation called raises and, on
every sheet, less than 1e-7 is chosen beyond what is allowed, and on every joint the same holds, nothing chosen
is allowed on the other side, and the chosen area meets the fingers of what is allowed on the other side in
less than 1e-3. -/
theorem c63_exact {X : Type} {o : G2Ops G} {l : Filter X} {Valid : G → Prop} {den : G → Set X}
    {μ : Set X → ENNReal} (L : Lawful o l Valid den) (A : LawfulArea o l Valid den μ) (T : TotalArea o Valid)
    (sb : SheetBuild G) (hg : Good Valid sb) (hf : Full sb)
    (hs : ∀ e ∈ sb.sheetplex.sheets, (∃ g, sb.sheetChosen.get? e.2.id = some g) ∧ ∃ g, sb.sheetOk.get? e.2.id = some g) :
    sb.check o = .ok () ↔ CheckCalls o sb ∧
    (∀ e ∈ sb.sheetplex.sheets,
      μ (dens den sb.sheetChosen e.2.id \ dens den sb.sheetOk e.2.id) < ENNReal.ofReal (tol7 : ℝ)) ∧
    ∀ s t, Joint sb.sheetplex s t →
      volume (pts sb.interChosen s.id \ pts sb.interOk s.id) < ENNReal.ofReal (tol7 : ℝ) ∧
      pts sb.interChosen s.id ∩ pts sb.interOk t.id = ∅ ∧
      ∀ v f, sb.interOk.get? t.id = some v → o.fingers s v = .ok f →
        μ (dens den sb.sheetChosen s.sheet ∩ den f) < ENNReal.ofReal (tol3 : ℝ) := by
  constructor
  · intro h
    have calls := check_calls o sb hg.paired h
    exact ⟨calls, (c63_calls L A T sb hg hf hs calls).1 h⟩
  · rintro ⟨calls, h⟩
    exact (c63_calls L A T sb hg hf hs calls).2 h

/-- C63: with lawful 2D operations that do not raise, a complete build passes the check if and only if on
every sheet less than 1e-7 is chosen beyond what is allowed, and on every joint the same holds, nothing chosen
is allowed on the other side, and the chosen area meets the fingers of what is allowed on the other side in
less than 1e-3. -/
theorem c63_iff {X : Type} {o : G2Ops G} {l : Filter X} {Valid : G → Prop} {den : G → Set X}
    {μ : Set X → ENNReal} (L : Lawful o l Valid den) (A : LawfulArea o l Valid den μ) (T : Total o Valid)
    (sb : SheetBuild G) (hg : Good Valid sb) (hf : Full sb)
    (hs : ∀ e ∈ sb.sheetplex.sheets, (∃ g, sb.sheetChosen.get? e.2.id = some g) ∧ ∃ g, sb.sheetOk.get? e.2.id = some g)
    (hbd : ∀ k g, sb.interOk.get? k = some g → g.isBounded = true) :
    sb.check o = .ok () ↔
    (∀ e ∈ sb.sheetplex.sheets,
      μ (dens den sb.sheetChosen e.2.id \ dens den sb.sheetOk e.2.id) < ENNReal.ofReal (tol7 : ℝ)) ∧
    ∀ s t, Joint sb.sheetplex s t →
      volume (pts sb.interChosen s.id \ pts sb.interOk s.id) < ENNReal.ofReal (tol7 : ℝ) ∧
      pts sb.interChosen s.id ∩ pts sb.interOk t.id = ∅ ∧
      ∀ v f, sb.interOk.get? t.id = some v → o.fingers s v = .ok f →
        μ (dens den sb.sheetChosen s.sheet ∩ den f) < ENNReal.ofReal (tol3 : ℝ) := by
  refine c63_calls L A T.area sb hg hf hs ⟨?_, ?_⟩
  · intro e _ c k hc hk
    exact T.sub c k (hg.validC _ _ hc) (hg.validO _ _ hk)
  · intro s t hj c v hc hv
    have mt := hg.madeO _ _ hv
    obtain ⟨f, h1⟩ := T.fingers s v mt (hbd _ _ hv)
    obtain ⟨d, h2⟩ := T.and c f (hg.validC _ _ hc) (L.fingers s v f mt h1)
    exact ⟨f, d, h1, h2⟩

/-- Both sides decided: `s0` has the joint from 0 to 4, `s2` from 4 to 10. -/
def build4 : SheetBuild Geom1D where
  sheetplex := plex2
  sheetChosen := [("s0".toList, ivl 0 4), ("s2".toList, ivl 4 10)]
  sheetOk := [("s0".toList, ivl 0 4), ("s2".toList, ivl 4 10)]
  interChosen := [(id0, ivl 0 4), (id2, ivl 4 10)]
  interOk := [(id0, ivl 0 4), (id2, ivl 4 10)]

theorem build4_good : Good LineValid build4 where
  paired := plex2_paired
  madeC k g h := by
    have := PMap.mem_of_get? _ _ _ h
    simp only [build4, List.mem_cons, List.not_mem_nil, or_false, Prod.mk.injEq] at this
    rcases this with ⟨_, rfl⟩ | ⟨_, rfl⟩ <;> exact (ivl_valid _ _ (by norm_num)).1
  madeO k g h := by
    have := PMap.mem_of_get? _ _ _ h
    simp only [build4, List.mem_cons, List.not_mem_nil, or_false, Prod.mk.injEq] at this
    rcases this with ⟨_, rfl⟩ | ⟨_, rfl⟩ <;> exact (ivl_valid _ _ (by norm_num)).1
  validC k g h := by
    have := PMap.mem_of_get? _ _ _ h
    simp only [build4, List.mem_cons, List.not_mem_nil, or_false, Prod.mk.injEq] at this
    rcases this with ⟨_, rfl⟩ | ⟨_, rfl⟩ <;> exact ivl_valid _ _ (by norm_num)
  validO k g h := by
    have := PMap.mem_of_get? _ _ _ h
    simp only [build4, List.mem_cons, List.not_mem_nil, or_false, Prod.mk.injEq] at this
    rcases this with ⟨_, rfl⟩ | ⟨_, rfl⟩ <;> exact ivl_valid _ _ (by norm_num)

theorem build4_full : Full build4 where
  ok id s h := by
    rcases plex2_sides id s h with ⟨rfl, _⟩ | ⟨rfl, _⟩ <;> exact ⟨_, rfl⟩
  chosen id s h := by
    rcases plex2_sides id s h with ⟨rfl, _⟩ | ⟨rfl, _⟩ <;> exact ⟨_, rfl⟩
  sheetOk id s h := by
    rcases plex2_sides id s h with ⟨rfl, rfl⟩ | ⟨rfl, rfl⟩ <;> exact ⟨_, rfl⟩
  sheetChosen id s h := by
    rcases plex2_sides id s h with ⟨rfl, rfl⟩ | ⟨rfl, rfl⟩ <;> exact ⟨_, rfl⟩

/-- `build4` passes the check. -/
theorem build4_check : build4.check lineOps = .ok () := by
  rw [c63_iff line_lawful line_area line_total build4 build4_good build4_full]
  · have hd : ∀ a b : ℚ, a < b → (pointsOf (ivl a b).intervals ∩ pointsOf (ivl b 10).intervals : Set ℝ) = ∅ := by
      intro a b _
      rw [ivl_points, ivl_points]
      ext x
      simp only [Set.mem_inter_iff, Set.mem_ofPred_eq, Set.mem_empty_iff_false, iff_false]
      rintro ⟨⟨_, h1⟩, h2, _⟩
      linarith
    have h04 := hd 0 4 (by norm_num)
    have h40 := h04
    rw [Set.inter_comm] at h40
    constructor
    · intro e he
      have : e = ("s0".toList, ⟨"s0".toList⟩) ∨ e = ("s2".toList, ⟨"s2".toList⟩) := by
        have : e ∈ [(("s0".toList, ⟨"s0".toList⟩) : Name × Sheet), ("s2".toList, ⟨"s2".toList⟩)] := he
        simpa using this
      have z : volume (∅ : Set ℝ) < ENNReal.ofReal (tol7 : ℝ) := by
        rw [measure_empty, ENNReal.ofReal_pos]
        unfold tol7
        norm_num
      rcases this with rfl | rfl
      · show volume (pointsOf (ivl 0 4).intervals \ pointsOf (ivl 0 4).intervals) < _
        rwa [Set.sdiff_self]
      · show volume (pointsOf (ivl 4 10).intervals \ pointsOf (ivl 4 10).intervals) < _
        rwa [Set.sdiff_self]
    · intro s t hj
      have z : volume (∅ : Set ℝ) < ENNReal.ofReal (tol7 : ℝ) := by
        rw [measure_empty, ENNReal.ofReal_pos]
        unfold tol7
        norm_num
      have z3 : volume (∅ : Set ℝ) < ENNReal.ofReal (tol3 : ℝ) := by
        rw [measure_empty, ENNReal.ofReal_pos]
        unfold tol3
        norm_num
      rcases plex2_sides _ s hj.1 with ⟨_, rfl⟩ | ⟨_, rfl⟩
      · obtain rfl : side2 1 = t := Except.ok.inj hj.2
        refine ⟨?_, h04, ?_⟩
        · show volume (pointsOf (ivl 0 4).intervals \ pointsOf (ivl 0 4).intervals) < _
          rwa [Set.sdiff_self]
        · intro v f hv hf
          obtain rfl : ivl 4 10 = v := Option.some.inj hv
          obtain rfl : ivl 4 10 = f := Except.ok.inj hf
          show volume (pointsOf (ivl 0 4).intervals ∩ pointsOf (ivl 4 10).intervals) < _
          rwa [h04]
      · obtain rfl : side2 0 = t := Except.ok.inj hj.2
        refine ⟨?_, h40, ?_⟩
        · show volume (pointsOf (ivl 4 10).intervals \ pointsOf (ivl 4 10).intervals) < _
          rwa [Set.sdiff_self]
        · intro v f hv hf
          obtain rfl : ivl 0 4 = v := Option.some.inj hv
          obtain rfl : ivl 0 4 = f := Except.ok.inj hf
          show volume (pointsOf (ivl 4 10).intervals ∩ pointsOf (ivl 0 4).intervals) < _
          rwa [h40]
  · intro e he
    have : e = ("s0".toList, ⟨"s0".toList⟩) ∨ e = ("s2".toList, ⟨"s2".toList⟩) := by
      have : e ∈ [(("s0".toList, ⟨"s0".toList⟩) : Name × Sheet), ("s2".toList, ⟨"s2".toList⟩)] := he
      simpa using this
    rcases this with rfl | rfl <;> exact ⟨⟨_, rfl⟩, _, rfl⟩
  · intro k g h
    have := PMap.mem_of_get? _ _ _ h
    simp only [build4, List.mem_cons, List.not_mem_nil, or_false, Prod.mk.injEq] at this
    rcases this with ⟨_, rfl⟩ | ⟨_, rfl⟩ <;> exact (ivl_valid _ _ (by norm_num)).2

end Ply
