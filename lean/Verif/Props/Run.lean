import Verif.Props.Canned

/-! # C66: what a successful run guarantees -/

namespace Ply.Canned

open MeasureTheory Geom1D SheetBuild Heu

variable {G : Type}

/-- Nothing is chosen in a created build. -/
theorem create_fresh1 {o : G2Ops G} (hpm : ProjectMade o) (sp : SheetPlex) (hsp : sp.Paired)
    (geoms : Name → SheetGeoms G) (rad : ℚ) (sb : SheetBuild G) (h : createSheetbuild o sp geoms rad = .ok sb) :
    sb.sheetplex = sp ∧ Fresh1 sb := by
  unfold createSheetbuild at h
  rw [bind_ok] at h; obtain ⟨ch0, a1, h⟩ := h
  rw [bind_ok] at h; obtain ⟨sok, a2, h⟩ := h
  rw [bind_ok] at h; obtain ⟨ich, a3, h⟩ := h
  rw [bind_ok] at h; obtain ⟨iok0, a4, h⟩ := h
  rw [bind_ok] at h; obtain ⟨iok, a5, h⟩ := h
  rw [bind_ok] at h; obtain ⟨ch, a6, h⟩ := h
  cases h
  obtain ⟨_, hall, _, hnd⟩ := paired_intersides sp hsp _ (List.Perm.refl _) []
  have d3 := dictOf_spec _ _ _ _ hnd a3
  have d4 := dictOf_spec _ _ _ _ hnd a4
  have made0 : MadeMap iok0 := by
    intro k g hk
    obtain ⟨s, _, _, he⟩ := d4.2.1 k g hk
    unfold freshInterOk at he
    iterate 5 (rw [bind_ok] at he; obtain ⟨_, _, he⟩ := he)
    exact hpm _ _ _ he
  obtain ⟨m1, _, _⟩ := restrictInter_spec sp hsp _ (fun s hs => (hall s).1 hs) iok0 iok made0 a5
  refine ⟨rfl, hsp, m1, fun k g hk => ?_⟩
  obtain ⟨_, _, _, he⟩ := d3.2.1 k g hk
  obtain ⟨e, e1, e2, e3⟩ := empty_denotes
  rw [e1] at he
  cases he
  refine ⟨(made_iff_nf _).2 e2, ?_⟩
  have := (c10_isEmpty _ ((made_iff_nf _).2 e2)).2 (by rw [e3]; simp)
  simpa [Geom1D.isEmpty] using this

theorem Fresh1.start {sb : SheetBuild G} (h : Fresh1 sb) : Excl sb :=
  ⟨⟨h.paired, h.inv.madeC, h.inv.madeO⟩, h.inv.excl⟩

/-- The admissible parameters of a run. -/
structure Params.Valid (p : Params G) : Prop where
  project : ProjectMade p.o
  draws : ∀ k i, (p.draws k i).Valid
  minW : 0 < p.minW
  maxW : 0 < p.maxW

theorem Chain.cons_inv {sb sb' : SheetBuild G} {op : Op G} {ops : List (Op G)} {hist : List (SheetBuild G)}
    (h : Chain sb (op :: ops) hist sb') :
    ∃ sb1 hist1, op sb = .ok sb1 ∧ Chain sb1 ops hist1 sb' ∧ hist = sb :: hist1 := by
  cases h with
  | cons _ sb1 _ _ _ hist1 p q => exact ⟨sb1, hist1, p, q, rfl⟩

/-- C66: when a run succeeds, then on every joint everything still allowed on a side is chosen there, nothing
chosen on a side is allowed on the other, less than 1e-7 is chosen on both sides, less than 1e-7 is chosen that
was not allowed on the side (in the end or at creation), and every stretch that was allowed before the fingers
were made is chosen on one of the sides.  The cuts are the chosen areas of the final build. -/
theorem c66_run (p : Params G) (hp : p.Valid) (sp : SheetPlex) (hsp : sp.Paired) (rof : Option Bool) (r : Result G)
    (h : run p sp none rof = .ok r) (hr : r.ok = true) :
    r.sheetbuild.sheetplex = sp ∧ r.sheetCuts = r.sheetbuild.sheetChosen ∧ r.sheetbuild.check p.o = .ok () ∧
    ∃ sb0 sb1, r.history[0]? = some sb0 ∧ r.history[11]? = some sb1 ∧
      createSheetbuild p.o sp p.geoms p.supportRadius = .ok sb0 ∧
      ∀ s t, Joint sp s t →
        pts r.sheetbuild.interOk s.id ⊆ pts r.sheetbuild.interChosen s.id ∧
        pts r.sheetbuild.interChosen s.id ∩ pts r.sheetbuild.interOk t.id = ∅ ∧
        volume (pts r.sheetbuild.interChosen s.id ∩ pts r.sheetbuild.interChosen t.id) < ENNReal.ofReal (tol7 : ℝ) ∧
        volume (pts r.sheetbuild.interChosen s.id \ pts r.sheetbuild.interOk s.id) < ENNReal.ofReal (tol7 : ℝ) ∧
        volume (pts r.sheetbuild.interChosen s.id \ pts sb0.interOk s.id) < ENNReal.ofReal (tol7 : ℝ) ∧
        pts sb1.interOk s.id ⊆ pts r.sheetbuild.interChosen s.id ∪ pts r.sheetbuild.interChosen t.id := by
  obtain ⟨sb0, hist, sb', ⟨h1, h2, h3, h4⟩, rfl⟩ := (c53_ok _ _ _ _ rof r).1 ⟨h, hr⟩
  obtain ⟨pl, fr⟩ := create_fresh1 hp.project sp hsp p.geoms p.supportRadius sb0 h1
  have e0 := Fresh1.start fr
  unfold steps at h3
  obtain ⟨b1, hist1, o1, q1, rfl⟩ := h3.cons_inv
  obtain ⟨b2, hist2, o2, q2, rfl⟩ := q1.cons_inv
  obtain ⟨b3, hist3, o3, q3, rfl⟩ := q2.cons_inv
  obtain ⟨b4, hist4, o4, q4, rfl⟩ := q3.cons_inv
  obtain ⟨b5, hist5, o5, q5, rfl⟩ := q4.cons_inv
  obtain ⟨b6, hist6, o6, q6, rfl⟩ := q5.cons_inv
  obtain ⟨b7, hist7, o7, q7, rfl⟩ := q6.cons_inv
  obtain ⟨b8, hist8, o8, q8, rfl⟩ := q7.cons_inv
  obtain ⟨b9, hist9, o9, q9, rfl⟩ := q8.cons_inv
  obtain ⟨b10, hist10, o10, q10, rfl⟩ := q9.cons_inv
  obtain ⟨b11, hist11, o11, q11, rfl⟩ := q10.cons_inv
  obtain ⟨b12, hist12, o12, q12, rfl⟩ := q11.cons_inv
  cases q12
  have s1 := irrelevant_step hp.project p.geoms _ sb0 b1 e0 o1
  have s2 := s1.trans ((c52_loose_only p.o p.geoms _ b1 b2 o2).step s1.inv)
  have s3 := s2.trans (interOk_step hp.project _ b2 b3 s2.inv o3)
  have s4 := s3.trans ((c52_sheet_only p.o _ b3 b4 o4).step s3.inv)
  have s5 := s4.trans (interOk_step hp.project _ b4 b5 s4.inv o5)
  have s6 := s5.trans ((c52_loose_only p.o p.geoms _ b5 b6 o6).step s5.inv)
  have s7 := s6.trans (interOk_step hp.project _ b6 b7 s6.inv o7)
  have s8 := s7.trans (multi_step hp.project _ p.order b7 b8 s7.inv o8)
  have s9 := s8.trans (interOk_step hp.project _ b8 b9 s8.inv o9)
  have s10 := s9.trans (okSide_step p.o _ b9 b10 s9.inv o10)
  have s11 := s10.trans (fingers_step p.o _ p.draws hp.draws p.minW p.maxW hp.minW hp.maxW b10 b11 s10.inv o11)
  have hclean := c52_clean_only p.o b11 sb' o12
  have s12 := s11.trans (hclean.step s11.inv)
  have cEq : sb'.interChosen = b11.interChosen := by unfold OnlySheetOk at hclean; rw [hclean]
  have oEq : sb'.interOk = b11.interOk := by unfold OnlySheetOk at hclean; rw [hclean]
  refine ⟨s12.plex.trans pl, rfl, h4, sb0, b10, rfl, rfl, h1, ?_⟩
  intro s t hj
  have hj' : Joint sb'.sheetplex s t := by rw [s12.plex, pl]; exact hj
  obtain ⟨_, v1, v2, v3⟩ := c63_joint p.o sb' s12.inv.toBase1 h4 s t hj'
  obtain ⟨w1, w2, _⟩ := c65_all p.o _ _ p.draws hp.draws p.minW p.maxW hp.minW hp.maxW b9 b10 b11
    s9.inv.toBase1 s9.inv.excl o10 o11 s t (by rw [s9.plex, pl]; exact hj)
  dsimp only
  rw [← cEq] at w1 w2
  rw [← oEq] at w1
  refine ⟨w1, v2, v3, v1, ?_, w2⟩
  refine lt_of_le_of_lt (measure_mono ?_) v1
  rintro x ⟨x1, x2⟩
  refine ⟨x1, fun x3 => x2 (s12.ok _ x3)⟩

/-- C53 for `main`: a file is written only when the sheetplex has sheets and the run succeeded, and it has
the outlines of the dilated cuts. -/
theorem c53_main (p : Params Geom2D) (sp : SheetPlex) (buffer : Geom2D → ℚ → Except PyErr Geom2D) (dil : ℚ)
    (out : List Writer.Polyline) :
    commandLine p sp buffer dil = .ok out ↔
    sp.sheets ≠ [] ∧ ∃ r d, run p sp none none = .ok r ∧ r.ok = true ∧
      List.Forall₂ (fun (c e : Name × Geom2D) => e.1 = c.1 ∧ buffer c.2 dil = .ok e.2) r.sheetCuts d ∧
      Writer.writeDxf d = .ok out := by
  have hd : ∀ (l d : List (Name × Geom2D)), dilateAll buffer dil l = .ok d ↔
      List.Forall₂ (fun (c e : Name × Geom2D) => e.1 = c.1 ∧ buffer c.2 dil = .ok e.2) l d := by
    intro l
    induction l with
    | nil =>
      intro d
      rw [dilateAll, List.forall₂_nil_left_iff]
      exact ⟨fun h => by cases h; rfl, fun h => by rw [h]⟩
    | cons c l ih =>
      intro d
      rw [dilateAll, bind_ok, List.forall₂_cons_left_iff]
      constructor
      · rintro ⟨b, h1, h⟩
        rw [bind_ok] at h
        obtain ⟨tail, h2, h⟩ := h
        cases h
        exact ⟨(c.1, b), tail, ⟨rfl, h1⟩, (ih tail).1 h2, rfl⟩
      · rintro ⟨e, tail, ⟨h1, h2⟩, h3, rfl⟩
        refine ⟨e.2, h2, ?_⟩
        rw [(ih tail).2 h3, bind_okC, ← h1]
  unfold commandLine
  split_ifs with hs
  · constructor
    · intro h; cases h
    · rintro ⟨h, _⟩
      exact absurd (List.length_eq_zero_iff.1 hs) h
  · rw [bind_ok]
    constructor
    · rintro ⟨r, h1, h⟩
      rw [bind_ok] at h
      obtain ⟨d, h2, h⟩ := h
      refine ⟨fun h => hs (by rw [h]; rfl), r, d, h1, ?_, (hd _ _).1 h2, h⟩
      by_contra hr
      obtain ⟨hn, _⟩ := (c53_failed _ _ _ _ none r).1 ⟨h1, by simpa using hr⟩
      cases hn
    · rintro ⟨_, r, d, h1, _, h2, h3⟩
      refine ⟨r, h1, ?_⟩
      rw [(hd _ _).2 h2]
      exact h3

/-- C53 for `main`: every failure of the run surfaces as a `KeyError`. -/
theorem c53_main_masks (p : Params Geom2D) (sp : SheetPlex) (hs : sp.sheets ≠ [])
    (buffer : Geom2D → ℚ → Except PyErr Geom2D) (dil : ℚ)
    (h : ∀ r, run p sp none none = .ok r → r.ok = false) :
    commandLine p sp buffer dil = .error .keyError := by
  unfold commandLine
  rw [if_neg (fun h => hs (List.length_eq_zero_iff.1 h))]
  cases hr : run p sp none none with
  | ok r =>
    obtain ⟨hn, _⟩ := (c53_failed _ _ _ _ none r).1 ⟨hr, h r hr⟩
    cases hn
  | error e =>
    have : e = .keyError := by
      rcases (c53_raises _ _ _ _ none e).1 hr with ⟨_, _, h⟩ | ⟨_, _, _, _, ⟨_, h⟩ | ⟨h, _⟩⟩
      · exact h
      · exact h
      · cases h
    rw [this]
    rfl

end Ply.Canned
