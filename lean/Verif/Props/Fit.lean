import Verif.Props.Overlap

/-!
# C87: the cut sheets fit together
-/

namespace Ply

open MeasureTheory Set Geom1D Arr

/-- C36 in the real plane: almost every point of the region projects into the projection. -/
theorem c36_region (g : Geom2D) (hg : g.WellMade) (v : Pt) (hv : v.1 ≠ 0 ∨ v.2 ≠ 0) (offs : ℚ) (r : Geom1D)
    (hr : Geom2D.projectTo1d g v offs = .ok r) :
    ∀ᵐ z : ℝ × ℝ, z ∈ g.region → (v.1 : ℝ) * z.1 + v.2 * z.2 + offs ∈ pointsOf r.intervals := by
  obtain ⟨r', h1, -, h3⟩ := c36_succeeds g hg v offs
  rw [hr] at h1
  cases h1
  set ln : Pt → Seg := fun a => (a, (a.1 + v.2, a.2 - v.1)) with hln
  have hE : ∀ e ∈ g.allSegments ++ (g.flatMap SPWH.outer).map ln, e.1 ≠ e.2 := by
    intro e he
    rcases List.mem_append.1 he with he | he
    · exact Arr.segments_ne [g] (by intro g' hg'; rw [List.mem_singleton.1 hg']; exact hg) e (by simpa using he)
    · obtain ⟨a, -, rfl⟩ := List.mem_map.1 he
      intro hc
      have := congrArg Prod.fst hc
      have := congrArg Prod.snd hc
      dsimp only [ln] at *
      rcases hv with hv | hv
      · exact hv (by linarith)
      · exact hv (by linarith)
  filter_upwards [generic_sides _ hE] with z hz hreg
  obtain ⟨p, hN, hs⟩ := hz
  rw [hN.region hg fun e he => List.mem_append_left _ he] at hreg
  obtain ⟨w, e, e1, -⟩ := c31_locate g hg p
  rw [e, Except.ok.injEq] at hreg
  obtain ⟨s, hsg, hi⟩ := e1.1 hreg
  obtain ⟨⟨a, ha, ka⟩, b, hb, kb⟩ := inPoly_between s.outer p v hv hi.1 offs
  have key : ∀ c ∈ s.outer, ((shadow v offs c : ℚ) : ℝ) ≠ v.1 * z.1 + v.2 * z.2 + offs ∧ shadow v offs c ≠ shadow v offs p ∧
      (shadow v offs c < shadow v offs p ↔ ((shadow v offs c : ℚ) : ℝ) < v.1 * z.1 + v.2 * z.2 + offs) := by
    intro c hc
    have hm : ln c ∈ g.allSegments ++ (g.flatMap SPWH.outer).map ln :=
      List.mem_append_right _ (List.mem_map_of_mem (List.mem_flatMap.2 ⟨s, hsg, hc⟩))
    obtain ⟨k1, k2⟩ := hs _ hm
    have k3 := (hN _ hm).2
    have q1 : orient (ln c).1 (ln c).2 p = shadow v offs p - shadow v offs c := by
      unfold orient shadow
      rw [hln]
      ring
    have q2 : orientR (ln c).1 (ln c).2 z = v.1 * z.1 + v.2 * z.2 + offs - ((shadow v offs c : ℚ) : ℝ) := by
      unfold orientR shadow
      rw [hln]
      push_cast
      ring
    rw [q1] at k2 k3
    rw [q2] at k1 k2
    rw [sub_pos, sub_pos] at k2
    exact ⟨fun h => k1 (by rw [h]; ring), fun h => k3 (by rw [h]; ring), k2⟩
  rw [h3]
  obtain ⟨-, a2, a3⟩ := key a ha
  obtain ⟨b1, -, b3⟩ := key b hb
  refine ⟨s, hsg, ⟨a, ha, (a3.1 (lt_of_le_of_ne ka a2)).le⟩, b, hb, ?_⟩
  exact lt_of_le_of_ne (not_lt.1 fun h => absurd (b3.2 h) (not_lt.2 kb.le)) (Ne.symm b1)

/-- What is allowed on a joint of a fresh build: what both sides allow. -/
theorem create_inter {G : Type} {o : G2Ops G} (hpm : ProjectMade o) (sp : SheetPlex) (hsp : sp.Paired)
    (geoms : Name → SheetGeoms G) (rad : ℚ) (sb : SheetBuild G) (h : createSheetbuild o sp geoms rad = .ok sb)
    (s t : InterSide) (hj : Joint sp s t) :
    ∃ vs vt, freshInterOk o geoms sb.sheetOk s = .ok vs ∧ freshInterOk o geoms sb.sheetOk t = .ok vt ∧
      pts sb.interOk s.id = pointsOf vs.intervals ∩ pointsOf vt.intervals := by
  unfold createSheetbuild at h
  rw [bind_ok] at h; obtain ⟨ch0, a1, h⟩ := h
  rw [bind_ok] at h; obtain ⟨sok, a2, h⟩ := h
  rw [bind_ok] at h; obtain ⟨ich, a3, h⟩ := h
  rw [bind_ok] at h; obtain ⟨iok0, a4, h⟩ := h
  rw [bind_ok] at h; obtain ⟨iok, a5, h⟩ := h
  rw [bind_ok] at h; obtain ⟨ch, a6, h⟩ := h
  cases h
  obtain ⟨_, hall, _, hnd⟩ := paired_intersides sp hsp _ (List.Perm.refl _) []
  have d4 := dictOf_spec _ _ _ _ hnd a4
  have made0 : MadeMap iok0 := by
    intro k g hk
    obtain ⟨s, _, _, he⟩ := d4.2.1 k g hk
    unfold freshInterOk at he
    iterate 5 (rw [bind_ok] at he; obtain ⟨_, _, he⟩ := he)
    exact hpm _ _ _ he
  obtain ⟨_, _, m3⟩ := restrictInter_spec sp hsp _ (fun s hs => (hall s).1 hs) iok0 iok made0 a5
  have hjt := (hj.symm hsp).1
  obtain ⟨vs, f1, g1⟩ := d4.1 s ((hall s).2 hj.1)
  obtain ⟨vt, f2, g2⟩ := d4.1 t ((hall t).2 hjt.1)
  refine ⟨vs, vt, f1, f2, ?_⟩
  have := (m3 s t hj).1 (List.mem_map_of_mem ((hall s).2 hj.1))
  rw [this]
  unfold pts
  rw [g1, g2]

/-- The overlap depends on the material up to null sets. -/
theorem overlap_mono_ae {s t : InterSide} (hs : s.Proper) (ht : t.Proper) {A A' B B' : Set (ℝ × ℝ)} (L : Set ℝ)
    (hA : ∀ᵐ z : ℝ × ℝ, z ∈ A → z ∈ A') (hB : ∀ᵐ z : ℝ × ℝ, z ∈ B → z ∈ B') :
    volume (overlap s t A B L) ≤ volume (overlap s t A' B' L) := by
  have n1 := overlap_first hs t {z | ¬ (z ∈ A → z ∈ A')}
  have n2 := overlap_second ht s {z | ¬ (z ∈ B → z ∈ B')}
  rw [ae_iff.1 hA, mul_zero, zero_mul] at n1
  rw [ae_iff.1 hB, mul_zero, zero_mul] at n2
  refine le_trans (measure_mono (t := overlap s t A' B' L ∪ ({x : ℝ × ℝ × ℝ | s.place (x.1, x.2.1) ∈ {z | ¬ (z ∈ A → z ∈ A')} ∧
    x.2.2 ∈ t.across} ∪ {x : ℝ × ℝ × ℝ | t.place (x.1, x.2.2) ∈ {z | ¬ (z ∈ B → z ∈ B')} ∧ x.2.1 ∈ s.across})) ?_) ?_
  · rintro x ⟨h1, h2, h3, h4, h5⟩
    by_cases k1 : s.place (x.1, x.2.1) ∈ A → s.place (x.1, x.2.1) ∈ A'
    · by_cases k2 : t.place (x.1, x.2.2) ∈ B → t.place (x.1, x.2.2) ∈ B'
      · exact Or.inl ⟨h1, h2, h3, k1 h4, k2 h5⟩
      · exact Or.inr (Or.inr ⟨k2, h2⟩)
    · exact Or.inr (Or.inl ⟨k1, h3⟩)
  · refine le_trans (measure_union_le _ _) ?_
    refine le_trans (add_le_add_right (measure_union_le _ _) _) ?_
    rw [n1, n2]
    simp

/-- The fingers chosen on the other joints of the sheet of a joint side. -/
def otherFingers (sb : SheetBuild Geom2D) (s : InterSide) : Set (ℝ × ℝ) :=
  {z | ∃ s', sb.sheetplex.interside s'.id = .ok s' ∧ s'.sheet = s.sheet ∧ s'.id ≠ s.id ∧ z ∈ s'.strip (pts sb.interChosen s'.id)}

/-- What the changes of a build since its creation come to: the chosen areas grew only by allowed parts of the
chosen fingers. -/
structure CutFrom (sb0 sb : SheetBuild Geom2D) : Prop where
  base : Base1 sb
  good : Good Geom2D.Fine sb
  plex : sb.sheetplex = sb0.sheetplex
  more : ∀ k, ∀ᵐ z : ℝ × ℝ, z ∈ dens Geom2D.region sb0.sheetChosen k → z ∈ dens Geom2D.region sb.sheetChosen k
  added : ∀ k, ∀ᵐ z : ℝ × ℝ, z ∈ dens Geom2D.region sb.sheetChosen k → z ∈ dens Geom2D.region sb0.sheetChosen k ∨
    (z ∈ dens Geom2D.region sb0.sheetOk k ∧ z ∈ fingersOn sb k)
  fill : ∀ k, ∀ᵐ z : ℝ × ℝ, z ∈ fingersOn sb k → z ∈ dens Geom2D.region sb.sheetOk k →
    z ∈ dens Geom2D.region sb.sheetChosen k ∨ z ∈ fingersOn sb0 k

theorem Grow.cutFrom {sb0 sb : SheetBuild Geom2D} (h : Grow sb0 sb) : CutFrom sb0 sb :=
  ⟨h.step.inv.toBase1, h.good, h.step.plex, h.more, h.added, h.fill⟩

section

variable {ch : Choices} {sq : ℚ → ℚ} (hch : ch.Valid) (hsq : RootLike sq)
include hch

/-- C63: the chosen area of a sheet covers less than 1e-3 of a joint where the other side is allowed. -/
theorem check_strip (sb : SheetBuild Geom2D) (hg : Good Geom2D.Fine sb) (hp : sb.sheetplex.SidesProper)
    (h : sb.check (codeOps ch sq) = .ok ()) (s t : InterSide) (hj : Joint sb.sheetplex s t) :
    volume (s.strip (pts sb.interOk t.id) ∩ dens Geom2D.region sb.sheetChosen s.sheet) < ENNReal.ofReal (tol3 : ℝ) := by
  have L := fine_lawful ch hch (Geom2D.bufferBy (arrangementOp ch) sq)
  have hs := ((check_iff _ sb).1 h).2 s (((paired_intersides _ hg.paired _ (List.Perm.refl _) []).2.1 s).2 hj.1)
  unfold SheetBuild.checkInterside at hs
  rw [hj.2, bind_okC] at hs
  rw [bind_ok] at hs; obtain ⟨c, a2, hs⟩ := hs
  rw [bind_ok] at hs; obtain ⟨ok, a3, hs⟩ := hs
  rw [bind_ok] at hs; obtain ⟨d, a4, hs⟩ := hs
  rw [bind_ok] at hs; obtain ⟨_, a5, hs⟩ := hs
  rw [bind_ok] at hs; obtain ⟨okt, a6, hs⟩ := hs
  rw [bind_ok] at hs; obtain ⟨both, a7, hs⟩ := hs
  rw [bind_ok] at hs; obtain ⟨_, a8, hs⟩ := hs
  rw [bind_ok] at hs; obtain ⟨sc, b1, hs⟩ := hs
  rw [bind_ok] at hs; obtain ⟨f, b2, hs⟩ := hs
  rw [bind_ok] at hs; obtain ⟨cb, b3, hs⟩ := hs
  rw [bind_ok] at hs; obtain ⟨a, b4, hs⟩ := hs
  rw [assert_ok, decide_eq_true_iff] at hs
  have mt := made_of_get hg.madeO a6
  have vc := hg.validC _ _ ((PMap.get_ok _ _ _).1 b1)
  obtain ⟨vb, db⟩ := L.and _ _ _ vc (L.fingers s okt f mt b2) b3
  have e : dens Geom2D.region sb.sheetChosen s.sheet = sc.region := by
    unfold dens
    rw [(PMap.get_ok _ _ _).1 b1]
  have := (fine_area (arrangementOp ch) (Geom2D.bufferBy (arrangementOp ch) sq)).area cb a vb b4
  rw [e, pts_of_get a6, ← strip_volume_eq hch (hp _ _ hj.1) mt b2]
  have e2 : volume (f.region ∩ sc.region) = volume cb.region := by
    refine measure_congr ?_
    filter_upwards [db] with z hz
    exact propext (and_comm.trans hz.symm)
  have t3 : (0 : ℝ) < (tol3 : ℚ) := by unfold tol3; norm_num
  rw [e2, this, ENNReal.ofReal_lt_ofReal_iff t3]
  exact_mod_cast hs

include hsq

/-- In a fresh build nothing is chosen where a joint is allowed. -/
theorem fresh_strip (sp : SheetPlex) (hsp : sp.Paired) (hsh : sp.Sheeted) (hp : sp.SidesProper)
    (geoms : Name → SheetGeoms Geom2D) (hg : ValidGeoms Geom2D.Fine geoms) (rad : ℚ) (sb : SheetBuild Geom2D)
    (h : createSheetbuild (codeOps ch sq) sp geoms rad = .ok sb) (s t : InterSide) (hj : Joint sp s t) :
    ∀ᵐ z : ℝ × ℝ, ¬ (z ∈ dens Geom2D.region sb.sheetChosen s.sheet ∧ z ∈ s.strip (pts sb.interOk s.id)) := by
  obtain ⟨-, -, h3, -, -, h6, h7, -⟩ := c46_fresh (fine_lawful ch hch _) (code_buffer hch hsq) sp hsp hsh geoms hg rad sb h
  obtain ⟨v, f, a1, a2⟩ := h7 s t hj
  have a2' : s.makeFingers (arrangementOp ch) v 0 1 = .ok f := a2
  have e : pts sb.interOk s.id = pointsOf v.intervals := by unfold pts; rw [a1]
  rw [e]
  filter_upwards [h6 s t v f hj a1 a2, c37_area ch hch s (hp _ _ hj.1) v (h3.madeO _ _ a1) f a2'] with z z1 z2 hz
  exact z1 ⟨hz.1, z2.2 hz.2⟩

/-- In a fresh build the projection of a sheet on its joint holds the shadows of all points that may have material. -/
theorem fresh_shadow (sp : SheetPlex) (hsp : sp.Paired) (hsh : sp.Sheeted) (hp : sp.SidesProper)
    (geoms : Name → SheetGeoms Geom2D) (hg : ValidGeoms Geom2D.Fine geoms) (rad : ℚ) (sb : SheetBuild Geom2D)
    (h : createSheetbuild (codeOps ch sq) sp geoms rad = .ok sb) (s t : InterSide) (hj : Joint sp s t)
    (vs : Geom1D) (hvs : freshInterOk (codeOps ch sq) geoms sb.sheetOk s = .ok vs) :
    ∀ᵐ z : ℝ × ℝ, z ∈ dens Geom2D.region sb.sheetOk s.sheet → z ∈ s.strip (Ico (-1000) 1000) →
      (s.direction.1 : ℝ) * z.1 + s.direction.2 * z.2 + ((-s.originOffset : ℚ) : ℝ) ∈ pointsOf vs.intervals := by
  have L := fine_lawful ch hch (Geom2D.bufferBy (arrangementOp ch) sq)
  obtain ⟨-, -, h3, -, -, -, -, h8⟩ := c46_fresh L (code_buffer hch hsq) sp hsp hsh geoms hg rad sb h
  obtain ⟨e, he, hes⟩ := hsh.known s.id s hj.1
  obtain ⟨c, k, -, hk, hok, -⟩ := h8 e he
  rw [hes] at hk hok
  obtain ⟨g0, g1, g2⟩ := hg s.sheet
  unfold freshOk at hk
  rw [bind_ok] at hk; obtain ⟨e0, e1, hk⟩ := hk
  rw [bind_ok] at hk; obtain ⟨e2, e3, hk⟩ := hk
  rw [bind_ok] at hk; obtain ⟨e4, e5, hk⟩ := hk
  rw [bind_ok] at hk; obtain ⟨sm, e6, hk⟩ := hk
  have hsm : sm = (geoms s.sheet).slicesMax := by
    have : Geom2D.bufferBy (arrangementOp ch) sq (geoms s.sheet).slicesMax 0 = .ok sm := e6
    unfold Geom2D.bufferBy at this
    rw [if_pos rfl] at this
    cases this
    rfl
  subst hsm
  have B := code_buffer hch hsq
  obtain ⟨vk, dk⟩ := L.and _ _ _ (L.and _ _ _ (B _ _ _ g0 e1) (B _ _ _ g1 e3) e5).1 g2 hk
  unfold freshInterOk at hvs
  rw [bind_ok] at hvs; obtain ⟨ok, b1, hvs⟩ := hvs
  rw [bind_ok] at hvs; obtain ⟨r, b2, hvs⟩ := hvs
  rw [bind_ok] at hvs; obtain ⟨w, b3, hvs⟩ := hvs
  rw [bind_ok] at hvs; obtain ⟨f, b4, hvs⟩ := hvs
  rw [bind_ok] at hvs; obtain ⟨g, b5, hvs⟩ := hvs
  rw [PMap.get_ok, hok] at b1
  cases b1
  have hw : pointsOf w.intervals = Ico (-1000) 1000 := by
    ext x
    rw [construct_points b3]
    simp only [List.mem_singleton, exists_eq_left, PyNum.val, Option.some.injEq]
    constructor
    · rintro ⟨a, b, rfl, rfl, hx⟩
      rw [icoSet_fin] at hx
      obtain ⟨x1, x2⟩ := hx
      push_cast at x1 x2
      exact ⟨x1, x2⟩
    · rintro ⟨x1, x2⟩
      refine ⟨_, _, rfl, rfl, ?_⟩
      rw [icoSet_fin]
      exact ⟨by push_cast; exact x1, by push_cast; exact x2⟩
  obtain ⟨vr, dr⟩ := L.and _ _ _ vk g2 b2
  obtain ⟨vg, dg⟩ := L.and _ _ _ vr (L.fingers s w f ⟨_, b3⟩ b4) b5
  have hps := hp _ _ hj.1
  have hne : s.direction.1 ≠ 0 ∨ s.direction.2 ≠ 0 := by
    by_contra hc
    push Not at hc
    exact hps.dir (Prod.ext hc.1 hc.2)
  have hdk : dens Geom2D.region sb.sheetOk s.sheet = k.region := by unfold dens; rw [hok]
  rw [hdk]
  filter_upwards [dk, dr, dg, c37_area ch hch s hps w ⟨_, b3⟩ f b4,
    c36_region g vg.proper.made s.direction hne (-s.originOffset) vs hvs] with z z1 z2 z3 z4 z5 hz hst
  rw [hw] at z4
  exact z5 (z3.2 ⟨z2.2 ⟨hz, (z1.1 hz).2⟩, z4.2 hst⟩)

/-- In a fresh build with unit directions, a joint is allowed wherever both sheets are. -/
theorem fresh_reach (sp : SheetPlex) (hsp : sp.Paired) (hsh : sp.Sheeted) (hp : sp.SidesProper)
    (geoms : Name → SheetGeoms Geom2D) (hg : ValidGeoms Geom2D.Fine geoms) (rad : ℚ) (sb : SheetBuild Geom2D)
    (h : createSheetbuild (codeOps ch sq) sp geoms rad = .ok sb) (s t : InterSide) (hj : Joint sp s t)
    (hu : s.scale = 1) (vs : Geom1D) (hvs : freshInterOk (codeOps ch sq) geoms sb.sheetOk s = .ok vs) :
    ∀ᵐ z : ℝ × ℝ, z ∈ dens Geom2D.region sb.sheetOk s.sheet → z ∈ s.strip (Ico (-1000) 1000) →
      z ∈ s.strip (pointsOf vs.intervals) := by
  have hps := hp _ _ hj.1
  filter_upwards [fresh_shadow hch hsq sp hsp hsh hp geoms hg rad sb h s t hj vs hvs] with z z1 hz hst
  have := z1 hz hst
  obtain ⟨⟨al, nc⟩, -, h2, rfl⟩ := (mem_strip _ _ _).1 hst
  refine (mem_strip _ _ _).2 ⟨(al, nc), ?_, h2, rfl⟩
  have e : (s.direction.1 : ℝ) * (s.place (al, nc)).1 + s.direction.2 * (s.place (al, nc)).2 + ((-s.originOffset : ℚ) : ℝ) = al := by
    unfold InterSide.scale at hu
    unfold InterSide.place
    rw [hps.normal]
    push_cast
    linear_combination (al + s.originOffset) * hu
  rw [e] at this
  exact this

/-- In a fresh build with a support radius of at least 1 and faces without islands, what is chosen is allowed. -/
theorem fresh_within (sp : SheetPlex) (hsp : sp.Paired) (hsh : sp.Sheeted) (geoms : Name → SheetGeoms Geom2D)
    (hg : ValidGeoms Geom2D.Fine geoms) (rad : ℚ) (hr : 1 ≤ rad)
    (hn : ∀ e ∈ sp.sheets, (geoms e.2.id).face0.NoIslands ∧ (geoms e.2.id).face1.NoIslands) (sb : SheetBuild Geom2D)
    (h : createSheetbuild (codeOps ch sq) sp geoms rad = .ok sb) (e : Name × Sheet) (he : e ∈ sp.sheets) :
    ∀ᵐ z : ℝ × ℝ, z ∈ dens Geom2D.region sb.sheetChosen e.2.id → z ∈ dens Geom2D.region sb.sheetOk e.2.id := by
  have L := fine_lawful ch hch (Geom2D.bufferBy (arrangementOp ch) sq)
  have B := code_buffer hch hsq
  obtain ⟨-, -, -, -, -, -, -, h8⟩ := c46_fresh L B sp hsp hsh geoms hg rad sb h
  obtain ⟨c, k, hc, hk, hok, -, hsub⟩ := h8 e he
  obtain ⟨g0, g1, g2⟩ := hg e.2.id
  unfold freshChosen at hc
  rw [bind_ok] at hc; obtain ⟨b0, b1, hc⟩ := hc
  rw [bind_ok] at hc; obtain ⟨b2, b3, hc⟩ := hc
  rw [bind_ok] at hc; obtain ⟨b4, b5, hc⟩ := hc
  unfold freshOk at hk
  rw [bind_ok] at hk; obtain ⟨e0, e1, hk⟩ := hk
  rw [bind_ok] at hk; obtain ⟨e2, e3, hk⟩ := hk
  rw [bind_ok] at hk; obtain ⟨e4, e5, hk⟩ := hk
  rw [bind_ok] at hk; obtain ⟨e6, e7, hk⟩ := hk
  rw [b5] at e7
  cases e7
  have b3' : Geom2D.bufferBy (arrangementOp ch) sq b0 1 = .ok b2 := b3
  have e1' : Geom2D.bufferBy (arrangementOp ch) sq (geoms e.2.id).face0 rad = .ok e0 := e1
  have e3' : Geom2D.bufferBy (arrangementOp ch) sq (geoms e.2.id).face1 rad = .ok e2 := e3
  have fb := and_fine ch hch g0.usable g1.usable b1
  have i0 := has_region (buffer_fine' ch hch hsq fb b3') (buffer_fine' ch hch hsq g0 e1') fun p hp =>
    buffer_mono ch hch hsq fb g0 (hn e he).1 (fun q hq => (and_has ch hch g0 g1 b1 hq).1) one_pos hr b3' e1' hp
  have i1 := has_region (buffer_fine' ch hch hsq fb b3') (buffer_fine' ch hch hsq g1 e3') fun p hp =>
    buffer_mono ch hch hsq fb g1 (hn e he).2 (fun q hq => (and_has ch hch g0 g1 b1 hq).2) one_pos hr b3' e3' hp
  obtain ⟨w0, w1⟩ := L.and _ _ _ g0 g1 b1
  have v2 := B _ _ _ w0 b3
  have v4 := B _ _ _ g2 b5
  obtain ⟨_, w2⟩ := L.and _ _ _ v2 v4 hc
  obtain ⟨ve4, w3⟩ := L.and _ _ _ (B _ _ _ g0 e1) (B _ _ _ g1 e3) e5
  obtain ⟨_, w4⟩ := L.and _ _ _ ve4 v4 hk
  filter_upwards [w2, w3, w4, i0, i1, hsub] with x x2 x3 x4 y0 y1 x1 hx
  have := x2.1 (x1.1 hx).1
  unfold dens
  rw [hok]
  exact x4.2 ⟨x3.2 ⟨y0 this.1, y1 this.1⟩, this.2⟩

/-! ### Any build made from a fresh one -/

section

variable (sp : SheetPlex) (hsp : sp.Paired) (hsh : sp.Sheeted) (hpr : sp.SidesProper)
  (geoms : Name → SheetGeoms Geom2D) (hgm : ValidGeoms Geom2D.Fine geoms) (rad : ℚ) (sb0 sb : SheetBuild Geom2D)
  (h : createSheetbuild (codeOps ch sq) sp geoms rad = .ok sb0) (hc : CutFrom sb0 sb)
include hsp hsh hpr hgm h hc

/-- C87: where the joint was allowed at creation, and apart from the fingers of other joints, the two cut sheets
share less than 1e-7 along the joint, times the widths of the joint sides. -/
theorem c87_made (hck : sb.check (codeOps ch sq) = .ok ()) (s t : InterSide) (hj : Joint sp s t) :
    volume (overlap s t (dens Geom2D.region sb.sheetChosen s.sheet \ otherFingers sb s)
      (dens Geom2D.region sb.sheetChosen t.sheet \ otherFingers sb t) (pts sb0.interOk s.id)) <
    ENNReal.ofReal (tol7 * (s.wide * t.wide)) := by
  obtain ⟨f1, -, -, -, f5, -⟩ := c46_fresh (fine_lawful ch hch _) (code_buffer hch hsq) sp hsp hsh geoms hgm _ sb0 h
  have pl := hc.plex.trans f1
  obtain ⟨-, -, -, c5⟩ := c63_joint _ sb hc.base hck s t (by rw [pl]; exact hj)
  have hjt := (hj.symm hsp).1
  have hps := hpr _ _ hj.1
  have hpt := hpr _ _ hjt.1
  have hst : pts sb0.interOk s.id = pts sb0.interOk t.id := by
    unfold pts
    rw [f5 s t hj]
  have key : ∀ s t, Joint sp s t → ∀ᵐ z : ℝ × ℝ, z ∈ dens Geom2D.region sb.sheetChosen s.sheet \ otherFingers sb s →
      z ∈ {z | z ∈ s.strip (pts sb0.interOk s.id) → z ∈ s.strip (pts sb.interChosen s.id)} := by
    intro s t hj
    filter_upwards [hc.added s.sheet, fresh_strip hch hsq sp hsp hsh hpr geoms hgm _ sb0 h s t hj] with z z1 z2 hz hm
    rcases z1 hz.1 with hd | ⟨-, s', k1, k2, k3⟩
    · exact absurd ⟨hd, hm⟩ z2
    · by_cases hid : s'.id = s.id
      · rw [pl, hid, hj.1] at k1
        cases k1
        exact k3
      · exact absurd ⟨s', k1, k2, hid, k3⟩ hz.2
  refine lt_of_le_of_lt (overlap_mono_ae hps hpt _ (key s t hj) (key t s hjt)) ?_
  have ws : 0 < s.wide := sub_pos.2 (by exact_mod_cast hps.width)
  have wt : 0 < t.wide := sub_pos.2 (by exact_mod_cast hpt.width)
  have t7 : (0 : ℝ) < (tol7 : ℚ) := by unfold tol7; norm_num
  rw [ENNReal.ofReal_mul t7.le, ENNReal.ofReal_mul ws.le]
  refine lt_of_le_of_lt (measure_mono (t := {x : ℝ × ℝ × ℝ | x.1 ∈ pts sb.interChosen s.id ∩
    pts sb.interChosen t.id ∧ x.2.1 ∈ s.across ∧ x.2.2 ∈ t.across}) ?_) ?_
  · rintro x ⟨x1, x2, x3, x4, x5⟩
    have y1 := x4 ((mem_strip _ _ _).2 ⟨_, x1, x2, rfl⟩)
    have y2 := x5 ((mem_strip _ _ _).2 ⟨(x.1, x.2.2), by rw [← hst]; exact x1, x3, rfl⟩)
    exact ⟨⟨place_mem_strip hps y1, place_mem_strip hpt y2⟩, x2, x3⟩
  · rw [overlap_along]
    refine ENNReal.mul_lt_mul_left ?_ ?_ c5
    · rw [← ENNReal.ofReal_mul ws.le]
      exact (ENNReal.ofReal_pos.2 (mul_pos ws wt)).ne'
    · exact ENNReal.mul_ne_top ENNReal.ofReal_ne_top ENNReal.ofReal_ne_top

/-- C87: with unit directions, a support radius of at least 1 and faces without islands, the same holds along the
whole joint, whether it was allowed at creation or not. -/
theorem c87_made_whole (hck : sb.check (codeOps ch sq) = .ok ()) (hrad : 1 ≤ rad)
    (hn : ∀ e ∈ sp.sheets, (geoms e.2.id).face0.NoIslands ∧ (geoms e.2.id).face1.NoIslands)
    (s t : InterSide) (hj : Joint sp s t) (hs : s.scale = 1) (ht : t.scale = 1) :
    volume (overlap s t (dens Geom2D.region sb.sheetChosen s.sheet \ otherFingers sb s)
      (dens Geom2D.region sb.sheetChosen t.sheet \ otherFingers sb t) (Ico (-1000) 1000)) <
    ENNReal.ofReal (tol7 * (s.wide * t.wide)) := by
  have h3 := c87_made hch hsq sp hsp hsh hpr geoms hgm rad sb0 sb h hc hck s t hj
  have hjt := (hj.symm hsp).1
  have hps := hpr _ _ hj.1
  have hpt := hpr _ _ hjt.1
  obtain ⟨vs, vt, q1, q2, q3⟩ := create_inter code_project sp hsp geoms _ sb0 h s t hj
  have key : ∀ s t, Joint sp s t → s.scale = 1 → ∀ v, freshInterOk (codeOps ch sq) geoms sb0.sheetOk s = .ok v →
      ∀ᵐ z : ℝ × ℝ, z ∈ dens Geom2D.region sb.sheetChosen s.sheet \ otherFingers sb s →
      z ∈ {z | z ∈ dens Geom2D.region sb.sheetChosen s.sheet \ otherFingers sb s ∧
        (z ∈ s.strip (Ico (-1000) 1000) → z ∈ s.strip (pointsOf v.intervals))} := by
    intro s t hj hs v hv
    obtain ⟨e, he, hes⟩ := hsh.known s.id s hj.1
    have hw := fresh_within hch hsq sp hsp hsh geoms hgm _ hrad hn sb0 h e he
    rw [hes] at hw
    filter_upwards [hc.added s.sheet, hw, fresh_reach hch hsq sp hsp hsh hpr geoms hgm _ sb0 h s t hj hs v hv] with z z1 z2 z3 hz
    refine ⟨hz, z3 ?_⟩
    rcases z1 hz.1 with hd | ⟨hd, -⟩
    · exact z2 hd
    · exact hd
  refine lt_of_le_of_lt (overlap_mono_ae hps hpt _ (key s t hj hs vs q1) (key t s hjt ht vt q2)) ?_
  refine lt_of_le_of_lt (measure_mono ?_) h3
  rintro x ⟨x1, x2, x3, x4, x5⟩
  refine ⟨?_, x2, x3, x4.1, x5.1⟩
  rw [q3]
  exact ⟨place_mem_strip hps (x4.2 ((mem_strip _ _ _).2 ⟨_, x1, x2, rfl⟩)),
    place_mem_strip hpt (x5.2 ((mem_strip _ _ _).2 ⟨(x.1, x.2.2), x1, x3, rfl⟩))⟩

omit hsh hgm h hsq in
/-- C87: where the joint is decided, all the cut sheets share, fingers of other joints included, is less than 1e-3
in area on either side (and 1e-7 along the joint). -/
theorem c87_made_decided (hpl : sb.sheetplex = sp) (hck : sb.check (codeOps ch sq) = .ok ()) (s t : InterSide)
    (hj : Joint sp s t) :
    volume (overlap s t (dens Geom2D.region sb.sheetChosen s.sheet) (dens Geom2D.region sb.sheetChosen t.sheet)
      (pts sb.interChosen s.id ∪ pts sb.interChosen t.id)) <
    ENNReal.ofReal (tol3 * (t.wide / s.scale + s.wide / t.scale) + 2 * tol7 * (s.wide * t.wide)) := by
  subst hpl
  have hjt := (hj.symm hsp).1
  have hps := hpr _ _ hj.1
  have hpt := hpr _ _ hjt.1
  have v1 := check_strip hch sb hc.good hpr hck s t hj
  have v2 := check_strip hch sb hc.good hpr hck t s hjt
  obtain ⟨-, w1, -⟩ := c63_joint _ sb hc.base hck s t hj
  obtain ⟨-, w2, -⟩ := c63_joint _ sb hc.base hck t s hjt
  set S := dens Geom2D.region sb.sheetChosen s.sheet
  set T := dens Geom2D.region sb.sheetChosen t.sheet
  set cs := pts sb.interChosen s.id
  set ct := pts sb.interChosen t.id
  set os := pts sb.interOk s.id
  set ot := pts sb.interOk t.id
  have ws : 0 < s.wide := sub_pos.2 (by exact_mod_cast hps.width)
  have wt : 0 < t.wide := sub_pos.2 (by exact_mod_cast hpt.width)
  have ss := hps.scale_pos
  have st := hpt.scale_pos
  have t7 : (0 : ℝ) < (tol7 : ℚ) := by unfold tol7; norm_num
  have t3 : (0 : ℝ) < (tol3 : ℚ) := by unfold tol3; norm_num
  refine lt_of_le_of_lt (measure_mono (t :=
    ({x : ℝ × ℝ × ℝ | s.place (x.1, x.2.1) ∈ s.strip ot ∩ S ∧ x.2.2 ∈ t.across} ∪
      {x : ℝ × ℝ × ℝ | x.1 ∈ ct \ ot ∧ x.2.1 ∈ s.across ∧ x.2.2 ∈ t.across}) ∪
    ({x : ℝ × ℝ × ℝ | t.place (x.1, x.2.2) ∈ t.strip os ∩ T ∧ x.2.1 ∈ s.across} ∪
      {x : ℝ × ℝ × ℝ | x.1 ∈ cs \ os ∧ x.2.1 ∈ s.across ∧ x.2.2 ∈ t.across})) ?_) ?_
  · rintro x ⟨x1, x2, x3, x4, x5⟩
    rcases x1 with x1 | x1
    · by_cases ho : x.1 ∈ os
      · exact Or.inr (Or.inl ⟨⟨(mem_strip _ _ _).2 ⟨(x.1, x.2.2), ho, x3, rfl⟩, x5⟩, x2⟩)
      · exact Or.inr (Or.inr ⟨⟨x1, ho⟩, x2, x3⟩)
    · by_cases ho : x.1 ∈ ot
      · exact Or.inl (Or.inl ⟨⟨(mem_strip _ _ _).2 ⟨_, ho, x2, rfl⟩, x4⟩, x3⟩)
      · exact Or.inl (Or.inr ⟨⟨x1, ho⟩, x2, x3⟩)
  · have b1 : volume {x : ℝ × ℝ × ℝ | s.place (x.1, x.2.1) ∈ s.strip ot ∩ S ∧ x.2.2 ∈ t.across} <
        ENNReal.ofReal (s.scale⁻¹ * tol3 * t.wide) := by
      rw [overlap_first hps, ENNReal.ofReal_mul (by positivity), ENNReal.ofReal_mul (by positivity)]
      exact ENNReal.mul_lt_mul_left (ENNReal.ofReal_pos.2 wt).ne' ENNReal.ofReal_ne_top
        (ENNReal.mul_lt_mul_right (ENNReal.ofReal_pos.2 (by positivity)).ne' ENNReal.ofReal_ne_top v1)
    have b2 : volume {x : ℝ × ℝ × ℝ | t.place (x.1, x.2.2) ∈ t.strip os ∩ T ∧ x.2.1 ∈ s.across} <
        ENNReal.ofReal (t.scale⁻¹ * tol3 * s.wide) := by
      rw [overlap_second hpt, ENNReal.ofReal_mul (by positivity), ENNReal.ofReal_mul (by positivity)]
      exact ENNReal.mul_lt_mul_left (ENNReal.ofReal_pos.2 ws).ne' ENNReal.ofReal_ne_top
        (ENNReal.mul_lt_mul_right (ENNReal.ofReal_pos.2 (by positivity)).ne' ENNReal.ofReal_ne_top v2)
    have hne : ENNReal.ofReal s.wide * ENNReal.ofReal t.wide ≠ 0 := by
      rw [← ENNReal.ofReal_mul ws.le]
      exact (ENNReal.ofReal_pos.2 (mul_pos ws wt)).ne'
    have hnt : ENNReal.ofReal s.wide * ENNReal.ofReal t.wide ≠ ⊤ := ENNReal.mul_ne_top ENNReal.ofReal_ne_top ENNReal.ofReal_ne_top
    have b3 : ∀ V : Set ℝ, volume V < ENNReal.ofReal (tol7 : ℝ) →
        volume {x : ℝ × ℝ × ℝ | x.1 ∈ V ∧ x.2.1 ∈ s.across ∧ x.2.2 ∈ t.across} < ENNReal.ofReal (tol7 * (s.wide * t.wide)) := by
      intro V hV
      rw [overlap_along, ENNReal.ofReal_mul t7.le, ENNReal.ofReal_mul ws.le]
      exact ENNReal.mul_lt_mul_left hne hnt hV
    have e : (tol3 : ℝ) * (t.wide / s.scale + s.wide / t.scale) + 2 * tol7 * (s.wide * t.wide) =
        (s.scale⁻¹ * tol3 * t.wide + tol7 * (s.wide * t.wide)) + (t.scale⁻¹ * tol3 * s.wide + tol7 * (s.wide * t.wide)) := by
      field_simp
      ring
    rw [e, ENNReal.ofReal_add (by positivity) (by positivity), ENNReal.ofReal_add (by positivity) (by positivity),
      ENNReal.ofReal_add (by positivity) (by positivity)]
    refine lt_of_le_of_lt (measure_union_le _ _) (ENNReal.add_lt_add ?_ ?_)
    · exact lt_of_le_of_lt (measure_union_le _ _) (ENNReal.add_lt_add b1 (b3 _ w2))
    · exact lt_of_le_of_lt (measure_union_le _ _) (ENNReal.add_lt_add b2 (b3 _ w1))

end

/-! ### Successful runs -/

variable (p : Canned.Params Geom2D) (ho : p.o = codeOps ch sq) (hp : p.Valid) (hgm : ValidGeoms Geom2D.Fine p.geoms)
  (sp : SheetPlex) (hsp : sp.Paired) (hsh : sp.Sheeted) (hpr : sp.SidesProper) (rof : Option Bool)
  (r : Canned.Result Geom2D) (h : Canned.run p sp none rof = .ok r) (hr : r.ok = true)
include ho hp hgm hsp hsh hpr h hr

/-- The cuts of a successful run. -/
theorem run_cuts : ∃ sb0, createSheetbuild (codeOps ch sq) sp p.geoms p.supportRadius = .ok sb0 ∧
    r.history[0]? = some sb0 ∧ r.sheetbuild.check (codeOps ch sq) = .ok () ∧ r.sheetCuts = r.sheetbuild.sheetChosen ∧
    r.sheetbuild.sheetplex = sp ∧ CutFrom sb0 r.sheetbuild := by
  obtain ⟨sb0, sb1, h1, h2, h3, h4, h5, h6⟩ := Canned.run_trace p hp sp hsp rof r h hr
  obtain ⟨c1, c2, c3, -⟩ := Canned.c66_run p hp sp hsp rof r h hr
  rw [ho] at h1 h5 h6 c3
  have g0 := (c46_fresh (fine_lawful ch hch _) (code_buffer hch hsq) sp hsp hsh p.geoms hgm _ sb0 h1).2.2.1
  have g := Grow.trace hch hsq hgm h3 g0 (by rw [h4]; exact hpr) h5
  obtain ⟨o1, o2, o3⟩ := c52_clean_2d hch hsq sb1 r.sheetbuild g.good h6
  refine ⟨sb0, h1, h2, c3, c2, c1, (o1.step g.step.inv).inv.toBase1, o2, c1.trans h4.symm, fun k => ?_, fun k => ?_, ?_⟩
  · have e' : r.sheetbuild.sheetChosen = sb1.sheetChosen := by
      unfold OnlySheetOk at o1
      rw [o1]
    rw [e']
    exact g.more k
  · have e : fingersOn r.sheetbuild k = fingersOn sb1 k := by
      unfold OnlySheetOk at o1
      unfold fingersOn
      rw [o1]
    have e' : r.sheetbuild.sheetChosen = sb1.sheetChosen := by
      unfold OnlySheetOk at o1
      rw [o1]
    rw [e, e']
    exact g.added k
  · have e : ∀ k, fingersOn r.sheetbuild k = fingersOn sb1 k := by
      unfold OnlySheetOk at o1
      unfold fingersOn
      rw [o1]
      exact fun _ => rfl
    have e' : r.sheetbuild.sheetChosen = sb1.sheetChosen := by
      unfold OnlySheetOk at o1
      rw [o1]
    intro k
    rw [e, e']
    by_cases hk : ∃ e ∈ sb1.sheetplex.sheets, e.2.id = k
    · obtain ⟨d, hd, rfl⟩ := hk
      filter_upwards [g.fill d.2.id, (o3 d hd).2] with z z1 z2 hz ho'
      rcases z2 ho' with h' | h'
      · exact z1 hz h'
      · exact Or.inl h'
    · refine Filter.Eventually.of_forall fun z hz => absurd ?_ hk
      obtain ⟨s, k1, k2, -⟩ := hz
      rw [g.step.plex, h4] at k1 ⊢
      obtain ⟨d, hd, hds⟩ := hsh.known _ s k1
      exact ⟨d, hd, hds.trans k2⟩

/-- C87 for a successful run: where the joint was allowed at creation. -/
theorem c87_joint (s t : InterSide) (hj : Joint sp s t) :
    ∃ sb0, createSheetbuild (codeOps ch sq) sp p.geoms p.supportRadius = .ok sb0 ∧ r.history[0]? = some sb0 ∧
      volume (overlap s t (dens Geom2D.region r.sheetCuts s.sheet \ otherFingers r.sheetbuild s)
        (dens Geom2D.region r.sheetCuts t.sheet \ otherFingers r.sheetbuild t) (pts sb0.interOk s.id)) <
      ENNReal.ofReal (tol7 * (s.wide * t.wide)) := by
  obtain ⟨sb0, h1, h2, h3, h4, -, h5⟩ := run_cuts hch hsq p ho hp hgm sp hsp hsh hpr rof r h hr
  rw [h4]
  exact ⟨sb0, h1, h2, c87_made hch hsq sp hsp hsh hpr p.geoms hgm _ sb0 r.sheetbuild h1 h5 h3 s t hj⟩

/-- C87 for a successful run: along the whole joint. -/
theorem c87_whole (hrad : 1 ≤ p.supportRadius)
    (hn : ∀ e ∈ sp.sheets, (p.geoms e.2.id).face0.NoIslands ∧ (p.geoms e.2.id).face1.NoIslands)
    (s t : InterSide) (hj : Joint sp s t) (hs : s.scale = 1) (ht : t.scale = 1) :
    volume (overlap s t (dens Geom2D.region r.sheetCuts s.sheet \ otherFingers r.sheetbuild s)
      (dens Geom2D.region r.sheetCuts t.sheet \ otherFingers r.sheetbuild t) (Ico (-1000) 1000)) <
    ENNReal.ofReal (tol7 * (s.wide * t.wide)) := by
  obtain ⟨sb0, h1, h2, h3, h4, -, h5⟩ := run_cuts hch hsq p ho hp hgm sp hsp hsh hpr rof r h hr
  rw [h4]
  exact c87_made_whole hch hsq sp hsp hsh hpr p.geoms hgm _ sb0 r.sheetbuild h1 h5 h3 hrad hn s t hj hs ht

/-- C87 for a successful run: where the joint is decided, fingers of other joints included. -/
theorem c87_decided (s t : InterSide) (hj : Joint sp s t) :
    volume (overlap s t (dens Geom2D.region r.sheetCuts s.sheet) (dens Geom2D.region r.sheetCuts t.sheet)
      (pts r.sheetbuild.interChosen s.id ∪ pts r.sheetbuild.interChosen t.id)) <
    ENNReal.ofReal (tol3 * (t.wide / s.scale + s.wide / t.scale) + 2 * tol7 * (s.wide * t.wide)) := by
  obtain ⟨sb0, h1, h2, h3, h4, h6, h5⟩ := run_cuts hch hsq p ho hp hgm sp hsp hsh hpr rof r h hr
  rw [h4]
  exact c87_made_decided hch sp hsp hpr sb0 r.sheetbuild h5 h6 h3 s t hj

end

end Ply
