import Verif.Props.FingerArea
import Verif.Props.Buffer2D
import Verif.Props.SingleFingers
import Verif.Props.Check

/-!
# Sheet builds with the 2D operations of the code: which calls raise

Intersections, differences and fingers never raise (C85, C37), so the outcome of the check and of a choice is
decided by the tolerances alone, except for the union that adds the fingers to the chosen area.
-/

namespace Ply

open MeasureTheory Geom1D Arr

/-- All joint sides are as created. -/
def SheetPlex.SidesProper (sp : SheetPlex) : Prop := ∀ id s, sp.interside id = .ok s → s.Proper

/-- No joint side allows an unbounded stretch. -/
def OkBounded {G : Type} (sb : SheetBuild G) : Prop :=
  ∀ id s, sb.sheetplex.interside id = .ok s → Bornology.IsBounded (pts sb.interOk id)

/-- A geom of finite length is bounded. -/
theorem bounded_of_volume {v : Geom1D} (hv : Made v) (h : volume (pointsOf v.intervals) ≠ ⊤) :
    Bornology.IsBounded (pointsOf v.intervals) := by
  have : pointsOf v.intervals = ⋃ i ∈ {i | i ∈ v.intervals}, icoSet i.1 i.2 := by
    ext x
    simp [pointsOf]
  rw [this, Bornology.isBounded_biUnion (List.finite_toSet v.intervals)]
  intro i hi
  obtain ⟨p, q, rfl, -⟩ := finite_ivl i (hv.nf.1 i hi) (ne_top_of_le_ne_top h (measure_mono fun x hx => ⟨i, hi, hx⟩))
  rw [icoSet_fin]
  exact Metric.isBounded_Ico (p : ℝ) q

theorem bounded_of_slack {v : Geom1D} (hv : Made v) {O : Set ℝ} (hO : Bornology.IsBounded O) {q : ℝ}
    (h : volume (pointsOf v.intervals \ O) < ENNReal.ofReal q) : Bornology.IsBounded (pointsOf v.intervals) := by
  refine bounded_of_volume hv (ne_of_lt (lt_of_le_of_lt (measure_mono (t := (pointsOf v.intervals \ O) ∪ O) ?_) ?_))
  · intro x hx
    by_cases h : x ∈ O
    · exact Or.inr h
    · exact Or.inl ⟨hx, h⟩
  · exact lt_of_le_of_lt (measure_union_le _ _) (ENNReal.add_lt_top.2 ⟨h.trans ENNReal.ofReal_lt_top, hO.measure_lt_top⟩)

section

variable {ch : Choices} (hch : ch.Valid) {buffer : Geom2D → ℚ → Except PyErr Geom2D}
include hch

omit hch in
theorem fine_totalArea : TotalArea (geom2dOps (arrangementOp ch) buffer) Geom2D.Fine :=
  fun a ha => geom2d_totalArea _ buffer a ha.proper

theorem strip_volume_eq {s : InterSide} (hs : s.Proper) {v : Geom1D} (hv : Made v) {f : Geom2D}
    (hf : s.makeFingers (arrangementOp ch) v 0 1 = .ok f) (S : Set (ℝ × ℝ)) :
    volume (f.region ∩ S) = volume (s.strip (pointsOf v.intervals) ∩ S) := by
  refine measure_congr ?_
  filter_upwards [c37_area ch hch s hs v hv f hf] with z hz
  exact propext (and_congr_left fun _ => hz)

/-- C63 with the 2D operations of the code: no operation called by the check raises, and it passes if and only
if on every sheet less than 1e-7 is chosen beyond what is allowed, and on every joint the same holds, nothing
chosen is allowed on the other side, and the chosen area covers less than 1e-3 of the joint where the other side
is allowed. -/
theorem c63_fine (sb : SheetBuild Geom2D) (hg : Good Geom2D.Fine sb) (hf : Full sb)
    (hs : ∀ e ∈ sb.sheetplex.sheets, (∃ g, sb.sheetChosen.get? e.2.id = some g) ∧ ∃ g, sb.sheetOk.get? e.2.id = some g)
    (hp : sb.sheetplex.SidesProper) (hb : OkBounded sb) :
    sb.check (geom2dOps (arrangementOp ch) buffer) = .ok () ↔
    (∀ e ∈ sb.sheetplex.sheets,
      volume (dens Geom2D.region sb.sheetChosen e.2.id \ dens Geom2D.region sb.sheetOk e.2.id) <
        ENNReal.ofReal (tol7 : ℝ)) ∧
    ∀ s t, Joint sb.sheetplex s t →
      volume (pts sb.interChosen s.id \ pts sb.interOk s.id) < ENNReal.ofReal (tol7 : ℝ) ∧
      pts sb.interChosen s.id ∩ pts sb.interOk t.id = ∅ ∧
      volume (s.strip (pts sb.interOk t.id) ∩ dens Geom2D.region sb.sheetChosen s.sheet) < ENNReal.ofReal (tol3 : ℝ) := by
  have fing : ∀ s t, Joint sb.sheetplex s t → ∀ v, sb.interOk.get? t.id = some v →
      ∃ f, s.makeFingers (arrangementOp ch) v 0 1 = .ok f ∧ f.Fine := by
    intro s t hj v hv
    have hbt := hb _ _ (hj.symm hg.paired).1.1
    unfold pts at hbt
    rw [hv] at hbt
    obtain ⟨f, h1, h2, -⟩ := c37_fingers ch hch s (hp _ _ hj.1) 0 1 one_pos v (hg.madeO _ _ hv) hbt
    exact ⟨f, h1, h2⟩
  rw [c63_calls (fine_lawful ch hch buffer) (fine_area _ buffer) fine_totalArea sb hg hf hs ⟨?_, ?_⟩]
  · refine and_congr Iff.rfl (forall_congr' fun s => forall_congr' fun t => forall_congr' fun hj => ?_)
    refine and_congr Iff.rfl (and_congr Iff.rfl ?_)
    obtain ⟨v, hv⟩ := hf.ok _ _ (hj.symm hg.paired).1.1
    obtain ⟨f, h1, -⟩ := fing s t hj v hv
    have e : pts sb.interOk t.id = pointsOf v.intervals := by unfold pts; rw [hv]
    rw [e, ← strip_volume_eq hch (hp _ _ hj.1) (hg.madeO _ _ hv) h1, Set.inter_comm]
    constructor
    · exact fun h => h v f hv h1
    · intro h v' f' hv' hf'
      rw [hv] at hv'
      cases hv'
      have hf' : s.makeFingers (arrangementOp ch) v 0 1 = .ok f' := hf'
      rw [h1] at hf'
      cases hf'
      exact h
  · intro e _ c k hc hk
    obtain ⟨d, hd, -⟩ := c85_sub ch hch c k (hg.validC _ _ hc) (hg.validO _ _ hk)
    exact ⟨d, hd⟩
  · intro s t hj c v hc hv
    obtain ⟨f, h1, h2⟩ := fing s t hj v hv
    obtain ⟨d, hd, -⟩ := c85_and ch hch c f (hg.validC _ _ hc) h2
    exact ⟨f, d, h1, hd⟩

/-- C62 with the 2D operations of the code: a choice is accepted if and only if it leaves what is allowed by less
than 1e-6, its part of the opposite side of the joint meets what is chosen there in less than 1e-6, and, when it
is not tentative, the union of the chosen area and the allowed part of its fingers does not raise. -/
theorem c62_fine (sb : SheetBuild Geom2D) (hg : Good Geom2D.Fine sb) (hf : Full sb) (hp : sb.sheetplex.SidesProper)
    (hb : OkBounded sb) (id : Name × Name) (s t : InterSide) (hs : sb.sheetplex.interside id = .ok s)
    (ht : s.opposite sb.sheetplex = .ok t) (v : Geom1D) (hv : Made v) (tentative : Bool) :
    (∃ sb', sb.chooseInterside (geom2dOps (arrangementOp ch) buffer) id v tentative = .ok sb') ↔
      volume (pointsOf v.intervals \ pts sb.interOk id) < ENNReal.ofReal (tol6 : ℝ) ∧
      volume (t.strip (pointsOf v.intervals) ∩ dens Geom2D.region sb.sheetChosen t.sheet) < ENNReal.ofReal (tol6 : ℝ) ∧
      (tentative = false → ∀ f c k fk, s.makeFingers (arrangementOp ch) v 0 1 = .ok f →
        sb.sheetChosen.get? s.sheet = some c → sb.sheetOk.get? s.sheet = some k →
        Geom2D.and (arrangementOp ch) f k = .ok fk → ∃ u, Geom2D.or (arrangementOp ch) c fk = .ok u) := by
  obtain ⟨hid, t', e1, e2, e3, e4, e5, _⟩ := interside_spec _ hg.paired id s hs
  rw [ht] at e1
  cases e1
  have ps := hp _ _ hs
  have pt := hp _ _ e5
  rw [c62_exact (fine_lawful ch hch buffer) (fine_area _ buffer) fine_totalArea sb hg hf id s t hs ht v hv tentative]
  refine and_congr_right fun hin => ?_
  have hbv := bounded_of_slack hv (hb _ _ hs) hin
  obtain ⟨F, hF, fF, -⟩ := c37_fingers ch hch t pt 0 1 one_pos v hv hbv
  obtain ⟨f, hf1, ff, -⟩ := c37_fingers ch hch s ps 0 1 one_pos v hv hbv
  obtain ⟨c, hc⟩ := hf.sheetChosen t.id t e5
  obtain ⟨kt, hkt⟩ := hf.sheetOk t.id t e5
  obtain ⟨cs, hcs⟩ := hf.sheetChosen id s hs
  obtain ⟨k, hk⟩ := hf.sheetOk id s hs
  obtain ⟨fk, hfk, -⟩ := c85_and ch hch f k ff (hg.validO _ _ hk)
  obtain ⟨b, hb1, -⟩ := c85_and ch hch F c fF (hg.validC _ _ hc)
  obtain ⟨d, hd, -⟩ := c85_sub ch hch kt F (hg.validO _ _ hkt) fF
  refine and_congr ?_ ?_
  · rw [← strip_volume_eq hch pt hv hF]
    constructor
    · exact fun h => h F hF
    · intro h F' hF'
      have hF' : t.makeFingers (arrangementOp ch) v 0 1 = .ok F' := hF'
      rw [hF] at hF'
      cases hF'
      exact h
  · constructor
    · intro h htt f' c' k' fk' a1 a2 a3 a4
      obtain ⟨f2, c2, k2, fk2, b1, b2, b3, b4, u, b5⟩ := h.own htt
      have b1 : s.makeFingers (arrangementOp ch) v 0 1 = .ok f2 := b1
      rw [a1] at b1; cases b1
      rw [a2] at b2; cases b2
      rw [a3] at b3; cases b3
      have b4 : Geom2D.and (arrangementOp ch) f' k' = .ok fk2 := b4
      rw [a4] at b4; cases b4
      exact ⟨u, b5⟩
    · intro h
      refine ⟨⟨F, c, kt, hF, hc, hkt, ⟨b, hb1⟩, d, hd⟩, fun htt => ⟨f, cs, k, fk, hf1, hcs, hk, hfk, h htt f cs k fk hf1 hcs hk hfk⟩⟩

/-- C62: a tentative choice is accepted exactly within the tolerances. -/
theorem c62_tentative (sb : SheetBuild Geom2D) (hg : Good Geom2D.Fine sb) (hf : Full sb) (hp : sb.sheetplex.SidesProper)
    (hb : OkBounded sb) (id : Name × Name) (s t : InterSide) (hs : sb.sheetplex.interside id = .ok s)
    (ht : s.opposite sb.sheetplex = .ok t) (v : Geom1D) (hv : Made v) :
    (∃ sb', sb.chooseInterside (geom2dOps (arrangementOp ch) buffer) id v true = .ok sb') ↔
      volume (pointsOf v.intervals \ pts sb.interOk id) < ENNReal.ofReal (tol6 : ℝ) ∧
      volume (t.strip (pointsOf v.intervals) ∩ dens Geom2D.region sb.sheetChosen t.sheet) < ENNReal.ofReal (tol6 : ℝ) := by
  rw [c62_fine hch sb hg hf hp hb id s t hs ht v hv true]
  simp

/-- C51 with the 2D operations of the code: unless the union that adds the fingers raises, only the check can
stop the choice. -/
theorem c51_fine (el : ℕ → Bool) (n : ℕ) (sb : SheetBuild Geom2D) (hg : Good Geom2D.Fine sb) (hf : Full sb)
    (hp : sb.sheetplex.SidesProper) (hb : OkBounded sb) (s t : InterSide) (hj : Joint sb.sheetplex s t)
    (hopp : volume (t.strip (broad (onlyHere sb s t)) ∩ dens Geom2D.region sb.sheetChosen t.sheet) < ENNReal.ofReal (tol6 : ℝ))
    (hor : ∀ v f c k fk, Made v → pointsOf v.intervals = broad (onlyHere sb s t) →
      s.makeFingers (arrangementOp ch) v 0 1 = .ok f → sb.sheetChosen.get? s.sheet = some c →
      sb.sheetOk.get? s.sheet = some k → Geom2D.and (arrangementOp ch) f k = .ok fk →
      ∃ u, Geom2D.or (arrangementOp ch) c fk = .ok u) :
    ∃ sb', Heu.okSideAt (geom2dOps (arrangementOp ch) buffer) el n sb s =
      (Heu.checkAt (geom2dOps (arrangementOp ch) buffer) el n sb' >>= fun _ => .ok sb') ∧
      Good Geom2D.Fine sb' ∧ Full sb' := by
  have hin : ∀ v, Made v → pointsOf v.intervals = broad (onlyHere sb s t) →
      volume (pointsOf v.intervals \ pts sb.interOk s.id) < ENNReal.ofReal (tol6 : ℝ) := by
    intro v hv e
    have : pointsOf v.intervals \ pts sb.interOk s.id = ∅ := by
      rw [e, Set.sdiff_eq_empty]
      rintro x ⟨c, h1, h2⟩
      exact (h2 x (by rw [abs_sub_comm]; exact h1)).1.1.1
    rw [this, measure_empty, ENNReal.ofReal_pos]
    unfold tol6; norm_num
  refine c51_calls (fine_lawful ch hch buffer) (fine_area _ buffer) fine_totalArea el n sb hg hf s t hj ?_ ?_
  · intro v F hv e hF
    rw [← e] at hopp
    have := strip_volume_eq hch (hp _ _ (hj.symm hg.paired).1.1) hv hF (dens Geom2D.region sb.sheetChosen t.sheet)
    rw [this]
    exact hopp
  · intro v hv e
    have := (c62_fine (buffer := buffer) hch sb hg hf hp hb s.id s t hj.1 hj.2 v hv false).2 ⟨hin v hv e, by rw [e]; exact hopp,
      fun _ f c k fk h1 h2 h3 h4 => hor v f c k fk hv e h1 h2 h3 h4⟩
    exact ((c62_exact (fine_lawful ch hch buffer) (fine_area _ buffer) fine_totalArea sb hg hf s.id s t hj.1 hj.2 v hv
      false).1 this).2.2

/-- What is allowed stays bounded. -/
theorem okBounded_run (sb sb' : SheetBuild Geom2D) (hg : Good Geom2D.Fine sb) (hb : OkBounded sb)
    (ops : List (SbOp Geom2D)) (hm : ∀ op ∈ ops, op.Made1) (hv : ∀ op ∈ ops, op.Valid2 Geom2D.Fine)
    (h : runOps (geom2dOps (arrangementOp ch) buffer) ops sb = .ok sb') (hf : Full sb) :
    Good Geom2D.Fine sb' ∧ Full sb' ∧ OkBounded sb' ∧ sb'.sheetplex = sb.sheetplex := by
  induction ops generalizing sb with
  | nil => cases h; exact ⟨hg, hf, hb, rfl⟩
  | cons op ops ih =>
    rw [runOps, bind_ok] at h
    obtain ⟨sb1, h1, h⟩ := h
    have m1 := hm op List.mem_cons_self
    obtain ⟨g1, p1, -⟩ := op_2d (fine_lawful ch hch buffer) sb sb1 hg op (hv op List.mem_cons_self) m1 h1
    have f1 := hf.run _ sb sb1 hg.paired hg.madeC hg.madeO op m1 h1
    have hr1 : runOps (geom2dOps (arrangementOp ch) buffer) [op] sb = .ok sb1 := by
      rw [runOps, h1]; rfl
    obtain ⟨-, -, mono, -⟩ := c44_monotone (fine_lawful ch hch buffer) sb sb1 hg [op]
      (by intro x hx; rw [List.mem_singleton.1 hx]; exact m1)
      (by intro x hx; rw [List.mem_singleton.1 hx]; exact hv op List.mem_cons_self) hr1
    have b1 : OkBounded sb1 := fun id s hs => (hb id s (by rw [← p1]; exact hs)).subset (mono id)
    obtain ⟨r1, r2, r3, r4⟩ := ih sb1 g1 b1 (fun x hx => hm x (List.mem_cons_of_mem _ hx))
      (fun x hx => hv x (List.mem_cons_of_mem _ hx)) h f1
    exact ⟨r1, r2, r3, r4.trans p1⟩

/-- The entries of the sheets stay. -/
theorem keys_run (sb sb' : SheetBuild Geom2D) (hg : Good Geom2D.Fine sb) (ops : List (SbOp Geom2D))
    (hm : ∀ op ∈ ops, op.Made1) (hv : ∀ op ∈ ops, op.Valid2 Geom2D.Fine)
    (h : runOps (geom2dOps (arrangementOp ch) buffer) ops sb = .ok sb') (k : Name)
    (hc : ∃ g, sb.sheetChosen.get? k = some g) (ho : ∃ g, sb.sheetOk.get? k = some g) :
    (∃ g, sb'.sheetChosen.get? k = some g) ∧ ∃ g, sb'.sheetOk.get? k = some g := by
  have keep : ∀ {m r : PMap Name Geom2D} {key : Name}, (∃ v, r.get? key = some v) →
      (∀ k, k ≠ key → r.get? k = m.get? k) → (∃ g, m.get? k = some g) → ∃ g, r.get? k = some g := by
    intro m r key h1 h2 hk
    by_cases hkk : k = key
    · rw [hkk]; exact h1
    · rw [h2 k hkk]; exact hk
  induction ops generalizing sb with
  | nil => cases h; exact ⟨hc, ho⟩
  | cons op ops ih =>
    rw [runOps, bind_ok] at h
    obtain ⟨sb1, h1, h⟩ := h
    have m1 := hm op List.mem_cons_self
    obtain ⟨g1, -⟩ := op_2d (fine_lawful ch hch buffer) sb sb1 hg op (hv op List.mem_cons_self) m1 h1
    have key : (∃ g, sb1.sheetChosen.get? k = some g) ∧ ∃ g, sb1.sheetOk.get? k = some g := by
      cases op with
      | choose id v tentative =>
        obtain ⟨s, t, hef⟩ := choose_effect _ sb sb1 hg.madeC hg.madeO id v m1 tentative h1
        obtain ⟨F, c, both, a, -, -, -, -, -, f6⟩ := hef.sheetOk
        obtain ⟨⟨-, d, -, -, hd⟩, r2⟩ := c57_op_geom _ _ _ _ _ f6
        refine ⟨?_, keep ⟨d, hd⟩ r2 ho⟩
        rcases hef.sheetChosen with ⟨_, e⟩ | ⟨f, k', fk, -, -, -, e⟩
        · rw [e]; exact hc
        · obtain ⟨⟨-, u, -, -, hu⟩, r3⟩ := c57_or_geom _ _ _ _ _ _ e
          exact keep ⟨u, hu⟩ r3 hc
      | unchoose id v =>
        obtain ⟨-, e2, e3, -⟩ := unchoose_effect sb sb1 hg.paired hg.madeC hg.madeO id v m1 h1
        rw [e2, e3]; exact ⟨hc, ho⟩
      | unchooseArea sheet g =>
        obtain ⟨c, both, a, -, -, -, -, h5, h6⟩ := unchooseArea_effect _ sb sb1 sheet g h1
        obtain ⟨⟨-, d, -, -, hd⟩, r2⟩ := c57_op_geom _ _ _ _ _ h5
        rw [h6]
        exact ⟨hc, keep ⟨d, hd⟩ r2 ho⟩
    exact ih sb1 g1 (fun x hx => hm x (List.mem_cons_of_mem _ hx)) (fun x hx => hv x (List.mem_cons_of_mem _ hx)) h key.1 key.2

end

section

variable {ch : Choices} {sq : ℚ → ℚ} (hch : ch.Valid) (hsq : RootLike sq)
include hch hsq

/-- C46 with the 2D operations of the code: with a support radius of at least 1 and no islands in the faces,
a fresh build passes the check. -/
theorem c46_passes (sp : SheetPlex) (hsp : sp.Paired) (hsh : sp.Sheeted) (geoms : Name → SheetGeoms Geom2D)
    (hg : ValidGeoms Geom2D.Fine geoms) (rad : ℚ) (hr : 1 ≤ rad)
    (hn : ∀ e ∈ sp.sheets, (geoms e.2.id).face0.NoIslands ∧ (geoms e.2.id).face1.NoIslands) (sb : SheetBuild Geom2D)
    (h : createSheetbuild (codeOps ch sq) sp geoms rad = .ok sb) : sb.check (codeOps ch sq) = .ok () := by
  rw [c46_check_2d hch hsq sp hsp hsh geoms hg rad hr hn sb h]
  obtain ⟨h1, -, h3, -, h5, -, h7, -⟩ := c46_fresh (fine_lawful ch hch _) (code_buffer hch hsq) sp hsp hsh geoms hg rad sb h
  refine ⟨fun e _ c k hc hk => ?_, fun s t hj c v hc hv => ?_⟩
  · obtain ⟨d, hd, -⟩ := c85_sub ch hch c k (h3.validC _ _ hc) (h3.validO _ _ hk)
    exact ⟨d, hd⟩
  · have hj' : Joint sp s t := by rwa [h1] at hj
    obtain ⟨v', f, a1, a2⟩ := h7 s t hj'
    rw [h5 s t hj', hv] at a1
    cases a1
    obtain ⟨d, hd, -⟩ := c85_and ch hch c f (h3.validC _ _ hc)
      ((fine_lawful ch hch (Geom2D.bufferBy (arrangementOp ch) sq)).fingers s v f (h3.madeO _ _ hv) a2)
    exact ⟨f, d, a2, hd⟩

/-- A build made from a fresh one by accepted operations has valid entries for all joint sides. -/
theorem c63_history (sp : SheetPlex) (hsp : sp.Paired) (hsh : sp.Sheeted) (hp : sp.SidesProper)
    (geoms : Name → SheetGeoms Geom2D) (hg : ValidGeoms Geom2D.Fine geoms) (rad : ℚ) (sb0 sb : SheetBuild Geom2D)
    (h : createSheetbuild (codeOps ch sq) sp geoms rad = .ok sb0) (ops : List (SbOp Geom2D)) (hm : ∀ op ∈ ops, op.Made1)
    (hv : ∀ op ∈ ops, op.Valid2 Geom2D.Fine) (hrun : runOps (codeOps ch sq) ops sb0 = .ok sb) :
    Good Geom2D.Fine sb ∧ Full sb ∧ OkBounded sb ∧ sb.sheetplex = sp := by
  obtain ⟨h1, -, h3, h4, -, -, h7, -⟩ := c46_fresh (fine_lawful ch hch _) (code_buffer hch hsq) sp hsp hsh geoms hg rad sb0 h
  have hb : OkBounded sb0 := by
    intro id s hs
    obtain ⟨hid, t', e1, e2, e3, e4, e5, _⟩ := interside_spec _ h3.paired id s hs
    have hj : Joint sp s t' := by
      rw [← h1]
      exact ⟨by rw [hid]; exact hs, e1⟩
    obtain ⟨v, f, a1, a2⟩ := h7 s t' hj
    rw [hid] at a1
    have := fingers_bounded ch s (hp id s (by rw [← h1]; exact hs)) v (h3.madeO _ _ a1) f a2
    unfold pts
    rw [a1]
    exact this
  obtain ⟨r1, r2, r3, r4⟩ := okBounded_run hch sb0 sb h3 hb ops hm hv hrun h4
  exact ⟨r1, r2, r3, r4.trans h1⟩

/-- C63: a build made from a fresh one by accepted operations passes the check if and only if it is within the
tolerances. -/
theorem c63_reached (sp : SheetPlex) (hsp : sp.Paired) (hsh : sp.Sheeted) (hp : sp.SidesProper)
    (geoms : Name → SheetGeoms Geom2D) (hg : ValidGeoms Geom2D.Fine geoms) (rad : ℚ) (sb0 sb : SheetBuild Geom2D)
    (h : createSheetbuild (codeOps ch sq) sp geoms rad = .ok sb0) (ops : List (SbOp Geom2D)) (hm : ∀ op ∈ ops, op.Made1)
    (hv : ∀ op ∈ ops, op.Valid2 Geom2D.Fine) (hrun : runOps (codeOps ch sq) ops sb0 = .ok sb) :
    sb.check (codeOps ch sq) = .ok () ↔
    (∀ e ∈ sp.sheets,
      volume (dens Geom2D.region sb.sheetChosen e.2.id \ dens Geom2D.region sb.sheetOk e.2.id) <
        ENNReal.ofReal (tol7 : ℝ)) ∧
    ∀ s t, Joint sp s t →
      volume (pts sb.interChosen s.id \ pts sb.interOk s.id) < ENNReal.ofReal (tol7 : ℝ) ∧
      pts sb.interChosen s.id ∩ pts sb.interOk t.id = ∅ ∧
      volume (s.strip (pts sb.interOk t.id) ∩ dens Geom2D.region sb.sheetChosen s.sheet) < ENNReal.ofReal (tol3 : ℝ) := by
  obtain ⟨g1, g2, g3, g4⟩ := c63_history hch hsq sp hsp hsh hp geoms hg rad sb0 sb h ops hm hv hrun
  obtain ⟨h1, -, h3, -, -, -, -, h8⟩ := c46_fresh (fine_lawful ch hch _) (code_buffer hch hsq) sp hsp hsh geoms hg rad sb0 h
  rw [← g4]
  refine c63_fine hch sb g1 g2 (fun e he => ?_) (by rwa [g4]) g3
  rw [g4] at he
  obtain ⟨c, k, -, -, a1, a2, -⟩ := h8 e he
  exact keys_run hch sb0 sb h3 ops hm hv hrun e.2.id a2 ⟨k, a1⟩

/-- C46: in a fresh build every stretch that is allowed on a side of a joint can be tentatively chosen there. -/
theorem c46_choosable (sp : SheetPlex) (hsp : sp.Paired) (hsh : sp.Sheeted) (hp : sp.SidesProper)
    (geoms : Name → SheetGeoms Geom2D) (hg : ValidGeoms Geom2D.Fine geoms) (rad : ℚ) (sb : SheetBuild Geom2D)
    (h : createSheetbuild (codeOps ch sq) sp geoms rad = .ok sb) (s t : InterSide) (hj : Joint sp s t) (v : Geom1D)
    (hv : Made v) (hin : pointsOf v.intervals ⊆ pts sb.interOk s.id) :
    ∃ sb', sb.chooseInterside (codeOps ch sq) s.id v true = .ok sb' := by
  obtain ⟨g1, g2, g3, -⟩ := c63_history hch hsq sp hsp hsh hp geoms hg rad sb sb h [] (by simp) (by simp) rfl
  obtain ⟨h1, -, -, -, h5, h6, h7, -⟩ := c46_fresh (fine_lawful ch hch _) (code_buffer hch hsq) sp hsp hsh geoms hg rad sb h
  have hj1 : Joint sb.sheetplex s t := by rwa [h1]
  have hjt := (hj.symm hsp).1
  refine (c62_tentative hch sb g1 g2 (by rwa [h1]) g3 s.id s t hj1.1 hj1.2 v hv).2 ⟨?_, ?_⟩
  · rw [Set.sdiff_eq_empty.2 hin, measure_empty, ENNReal.ofReal_pos]
    unfold tol6; norm_num
  · obtain ⟨w, f, a1, a2⟩ := h7 t s hjt
    have e : pts sb.interOk s.id = pointsOf w.intervals := by
      unfold pts
      rw [h5 s t hj, a1]
    rw [e] at hin
    have h0 : volume (t.strip (pointsOf v.intervals) ∩ dens Geom2D.region sb.sheetChosen t.sheet) = 0 := by
      refine measure_mono_null (Set.inter_subset_inter_left _ (strip_mono t hin)) ?_
      rw [← strip_volume_eq hch (hp _ _ hjt.1) (g1.madeO _ _ a1) a2]
      have := h6 t s w f hjt a1 a2
      rw [← compl_mem_ae_iff]
      filter_upwards [this] with z hz hc
      exact hz ⟨hc.2, hc.1⟩
    rw [h0, ENNReal.ofReal_pos]
    unfold tol6; norm_num

end

/-! ### An instance -/

theorem plex2_proper : plex2.SidesProper := by
  intro id s hs
  rcases plex2_sides id s hs with ⟨-, rfl⟩ | ⟨-, rfl⟩
  · exact side2_proper
  · exact ⟨side2_proper.dir, side2_proper.normal, side2_proper.width⟩

/-- C46, C62, C63: the fresh build of two sheets passes the check; the joint from 3 to 7 can be tentatively
chosen, but not from 3 to 12. -/
theorem c46_any_run : buildF.check (codeOps chDemo sqDemo) = .ok () ∧
    (∃ sb', buildF.chooseInterside (codeOps chDemo sqDemo) id0 (ivl 3 7) true = .ok sb') ∧
    ¬ ∃ sb', buildF.chooseInterside (codeOps chDemo sqDemo) id0 (ivl 3 12) true = .ok sb' := by
  have e0 : pts buildF.interOk id0 = pointsOf (ivl 0 11).intervals := rfl
  have hj : Joint plex2 (side2 0) (side2 1) := ⟨rfl, rfl⟩
  obtain ⟨g1, g2, g3, -⟩ := c63_history chDemo_valid sqDemo_root plex2 plex2_paired plex2_sheeted plex2_proper geomsT
    geomsT_valid 1 buildF buildF c46_2d_run [] (by simp) (by simp) rfl
  refine ⟨c46_passes chDemo_valid sqDemo_root plex2 plex2_paired plex2_sheeted geomsT geomsT_valid 1 le_rfl
    (fun e _ => geomsT_islands e.2.id) buildF c46_2d_run, ?_, ?_⟩
  · refine c46_choosable chDemo_valid sqDemo_root plex2 plex2_paired plex2_sheeted plex2_proper geomsT geomsT_valid 1 buildF
      c46_2d_run (side2 0) (side2 1) hj (ivl 3 7) (ivl_valid 3 7 (by norm_num)).1 ?_
    show _ ⊆ pts buildF.interOk id0
    rw [e0, ivl_points, ivl_points]
    rintro x ⟨a, b⟩
    push_cast at a b ⊢
    exact ⟨by linarith, by linarith⟩
  · rw [c62_tentative chDemo_valid buildF g1 g2 plex2_proper g3 id0 (side2 0) (side2 1) rfl rfl (ivl 3 12)
      (ivl_valid 3 12 (by norm_num)).1]
    rintro ⟨h, -⟩
    rw [e0, ivl_points, ivl_points] at h
    have h1 : volume (Set.Ico (11 : ℝ) 12) ≤ volume ({x : ℝ | ((3 : ℚ) : ℝ) ≤ x ∧ x < ((12 : ℚ) : ℝ)} \ {x : ℝ | ((0 : ℚ) : ℝ) ≤ x ∧ x < ((11 : ℚ) : ℝ)}) := by
      refine measure_mono ?_
      rintro x ⟨a, b⟩
      refine ⟨⟨?_, ?_⟩, fun hc => ?_⟩
      · push_cast; linarith
      · push_cast; exact b
      · have := hc.2
        push_cast at this
        linarith
    have h2 := lt_of_le_of_lt h1 h
    rw [Real.volume_Ico, ENNReal.ofReal_lt_ofReal_iff (by unfold tol6; norm_num)] at h2
    unfold tol6 at h2
    norm_num at h2

end Ply
