import Verif.Props.BufferExact
import Verif.Props.Build2D

/-!
# The sheet build with `buffer` of the code: C46, C52
-/

namespace Ply

open MeasureTheory Geom1D Arr

/-- C46: if growing the common part of the faces by 1 does not go beyond either face grown by the support
radius, only a 2D operation that raises can stop the check of a fresh build. -/
theorem c46_check_calls {G X : Type} {o : G2Ops G} {l : Filter X} {Valid : G → Prop} {den : G → Set X}
    {μ : Set X → ENNReal} (L : Lawful o l Valid den) (B : BufferValid o Valid)
    (A : LawfulArea o l Valid den μ) (T : TotalArea o Valid) (sp : SheetPlex) (hsp : sp.Paired)
    (hsh : sp.Sheeted) (geoms : Name → SheetGeoms G) (hg : ValidGeoms Valid geoms) (rad : ℚ)
    (hmono : ∀ e ∈ sp.sheets, ∀ both b b0 b1, o.and (geoms e.2.id).face0 (geoms e.2.id).face1 = .ok both →
      o.buffer both 1 = .ok b → o.buffer (geoms e.2.id).face0 rad = .ok b0 → o.buffer (geoms e.2.id).face1 rad = .ok b1 →
      ∀ᶠ x in l, x ∈ den b → x ∈ den b0 ∧ x ∈ den b1)
    (sb : SheetBuild G) (h : createSheetbuild o sp geoms rad = .ok sb) : sb.check o = .ok () ↔ CheckCalls o sb := by
  obtain ⟨h1, h2, h3, h4, h5, h6, h7, h8⟩ := c46_fresh L B sp hsp hsh geoms hg rad sb h
  rw [c63_exact L A T sb h3 h4 (by
    intro e he
    rw [h1] at he
    obtain ⟨c, k, _, _, hok, hc, _⟩ := h8 e he
    exact ⟨hc, ⟨k, hok⟩⟩)]
  refine and_iff_left ⟨fun e he => ?_, fun s t hj => ?_⟩
  · rw [h1] at he
    obtain ⟨c, k, hc, hk, hok, ⟨c', hc'⟩, hsub⟩ := h8 e he
    obtain ⟨g0, g1, g2⟩ := hg e.2.id
    have hck : ∀ᶠ x in l, x ∈ den c → x ∈ den k := by
      unfold freshChosen at hc
      rw [bind_ok] at hc; obtain ⟨b0, b1, hc⟩ := hc
      rw [bind_ok] at hc; obtain ⟨b2, b3, hc⟩ := hc
      rw [bind_ok] at hc; obtain ⟨b4, b5, hc⟩ := hc
      unfold freshOk at hk
      rw [bind_ok] at hk; obtain ⟨e0, e1, hk⟩ := hk
      rw [bind_ok] at hk; obtain ⟨e2, e3, hk⟩ := hk
      rw [bind_ok] at hk; obtain ⟨e4, e5, hk⟩ := hk
      rw [bind_ok] at hk; obtain ⟨e6, e7, hk⟩ := hk
      rw [b5] at e7
      cases e7
      obtain ⟨w0, w1⟩ := L.and _ _ _ g0 g1 b1
      have v2 := B _ _ _ w0 b3
      have v4 := B _ _ _ g2 b5
      have ve0 := B _ _ _ g0 e1
      have ve2 := B _ _ _ g1 e3
      obtain ⟨_, w2⟩ := L.and _ _ _ v2 v4 hc
      obtain ⟨ve4, w3⟩ := L.and _ _ _ ve0 ve2 e5
      obtain ⟨_, w4⟩ := L.and _ _ _ ve4 v4 hk
      filter_upwards [w2, w3, w4, hmono e he _ _ _ _ b1 b3 e1 e3] with x x2 x3 x4 y0 hx
      have := x2.1 hx
      exact x4.2 ⟨x3.2 (y0 this.1), this.2⟩
    rw [A.null]
    · rw [ENNReal.ofReal_pos]; unfold tol7; norm_num
    · filter_upwards [hsub, hck] with x x1 x2 hx
      refine hx.2 ?_
      unfold dens
      rw [hok]
      exact x2 (x1.1 hx.1).1
  · have hj' : Joint sp s t := by rwa [h1] at hj
    obtain ⟨c, hc⟩ := h4.chosen s.id s hj.1
    obtain ⟨hm, he⟩ := h2.nothing _ _ hc
    have he' : pts sb.interChosen s.id = ∅ := by
      unfold pts
      rw [hc]
      dsimp only
      rw [he, pointsOf_nil]
    rw [he', Set.empty_sdiff, Set.empty_inter, measure_empty]
    refine ⟨by rw [ENNReal.ofReal_pos]; unfold tol7; norm_num, rfl, fun v f hv hf => ?_⟩
    rw [A.null]
    · rw [ENNReal.ofReal_pos]; unfold tol3; norm_num
    · filter_upwards [h6 s t v f hj' (by rw [h5 s t hj']; exact hv) hf] with x hx
      exact hx

section

variable (ch : Choices) (sq : ℚ → ℚ)

/-- The 2D operations of the code. -/
abbrev codeOps : G2Ops Geom2D := geom2dOps (arrangementOp ch) (Geom2D.bufferBy (arrangementOp ch) sq)

variable {ch sq} (hch : ch.Valid) (hsq : RootLike sq)
include hch hsq

theorem code_buffer : BufferValid (codeOps ch sq) Geom2D.Fine := fun _ _ _ ha h => buffer_fine' ch hch hsq ha h

/-- C46 with the 2D operations of the code. -/
theorem c46_2d (sp : SheetPlex) (hsp : sp.Paired) (hsh : sp.Sheeted) (geoms : Name → SheetGeoms Geom2D)
    (hg : ValidGeoms Geom2D.Fine geoms) (rad : ℚ) (sb : SheetBuild Geom2D)
    (h : createSheetbuild (codeOps ch sq) sp geoms rad = .ok sb) :
    sb.sheetplex = sp ∧ Fresh1 sb ∧ Good Geom2D.Fine sb ∧ Full sb ∧
    (∀ s t, Joint sp s t → sb.interOk.get? s.id = sb.interOk.get? t.id) ∧
    (∀ s t v f, Joint sp s t → sb.interOk.get? s.id = some v → s.makeFingers (arrangementOp ch) v 0 1 = .ok f →
      ∀ᵐ z : ℝ × ℝ, ¬ (z ∈ dens Geom2D.region sb.sheetChosen s.sheet ∧ z ∈ f.region)) := by
  obtain ⟨h1, h2, h3, h4, h5, h6, -⟩ := c46_fresh (fine_lawful ch hch _) (code_buffer hch hsq) sp hsp hsh geoms hg rad sb h
  exact ⟨h1, h2, h3, h4, h5, h6⟩

/-- C46 with the 2D operations of the code: with a support radius of at least 1 and no islands in the faces,
a fresh build passes the check unless a 2D operation raises. -/
theorem c46_check_2d (sp : SheetPlex) (hsp : sp.Paired) (hsh : sp.Sheeted) (geoms : Name → SheetGeoms Geom2D)
    (hg : ValidGeoms Geom2D.Fine geoms) (rad : ℚ) (hr : 1 ≤ rad)
    (hn : ∀ e ∈ sp.sheets, (geoms e.2.id).face0.NoIslands ∧ (geoms e.2.id).face1.NoIslands) (sb : SheetBuild Geom2D)
    (h : createSheetbuild (codeOps ch sq) sp geoms rad = .ok sb) :
    sb.check (codeOps ch sq) = .ok () ↔ CheckCalls (codeOps ch sq) sb := by
  refine c46_check_calls (fine_lawful ch hch _) (code_buffer hch hsq) (fine_area _ _)
    (fun a ha => geom2d_totalArea _ (Geom2D.bufferBy (arrangementOp ch) sq) a ha.proper) sp hsp hsh geoms hg rad ?_ sb h
  intro e he both b b0 b1 a1 a2 a3 a4
  obtain ⟨g0, g1, -⟩ := hg e.2.id
  have a2 : Geom2D.bufferBy (arrangementOp ch) sq both 1 = .ok b := a2
  have a3 : Geom2D.bufferBy (arrangementOp ch) sq (geoms e.2.id).face0 rad = .ok b0 := a3
  have a4 : Geom2D.bufferBy (arrangementOp ch) sq (geoms e.2.id).face1 rad = .ok b1 := a4
  have fb := and_fine ch hch g0.usable g1.usable a1
  have i0 := has_region (buffer_fine' ch hch hsq fb a2) (buffer_fine' ch hch hsq g0 a3) fun p hp =>
    buffer_mono ch hch hsq fb g0 (hn e he).1 (fun q hq => (and_has ch hch g0 g1 a1 hq).1) one_pos hr a2 a3 hp
  have i1 := has_region (buffer_fine' ch hch hsq fb a2) (buffer_fine' ch hch hsq g1 a4) fun p hp =>
    buffer_mono ch hch hsq fb g1 (hn e he).2 (fun q hq => (and_has ch hch g0 g1 a1 hq).2) one_pos hr a2 a4 hp
  filter_upwards [i0, i1] with z z0 z1 hz
  exact ⟨z0 hz, z1 hz⟩

/-- C52 with the 2D operations of the code: `update_sheet_ok`. -/
theorem c52_sheet_2d (el : ℕ → Bool) (sb sb' : SheetBuild Geom2D) (hg : Good Geom2D.Fine sb)
    (h : Heu.updateSheetOk (codeOps ch sq) el sb = .ok sb') :
    OnlySheetOk sb sb' ∧ Good Geom2D.Fine sb' ∧
    ∀ k, ∀ᵐ z : ℝ × ℝ, z ∈ dens Geom2D.region sb'.sheetOk k → z ∈ dens Geom2D.region sb.sheetOk k :=
  c52_sheet (fine_lawful ch hch _) (code_buffer hch hsq) el sb sb' hg h

/-- C52 with the 2D operations of the code: `clean_up_thin_ok_parts`.  The allowed area of every sheet then
contains the chosen area, and is otherwise within what was allowed. -/
theorem c52_clean_2d (sb sb' : SheetBuild Geom2D) (hg : Good Geom2D.Fine sb)
    (h : Heu.cleanUp (codeOps ch sq) sb = .ok sb') :
    OnlySheetOk sb sb' ∧ Good Geom2D.Fine sb' ∧
    ∀ e ∈ sb.sheetplex.sheets,
      (∀ᵐ z : ℝ × ℝ, z ∈ dens Geom2D.region sb'.sheetChosen e.2.id → z ∈ dens Geom2D.region sb'.sheetOk e.2.id) ∧
      ∀ᵐ z : ℝ × ℝ, z ∈ dens Geom2D.region sb'.sheetOk e.2.id →
        z ∈ dens Geom2D.region sb.sheetOk e.2.id ∨ z ∈ dens Geom2D.region sb.sheetChosen e.2.id := by
  obtain ⟨h1, h2, h3⟩ := c52_clean (fine_lawful ch hch _) (code_buffer hch hsq) sb sb' hg h
  refine ⟨h1, h2, fun e he => ?_⟩
  obtain ⟨h4, ok, b1, b2, a1, a2, a3, a4⟩ := h3 e he
  refine ⟨h4, ?_⟩
  have fo := hg.validO _ _ a1
  have a2' : Geom2D.bufferBy (arrangementOp ch) sq ok (-(1 / 2)) = .ok b1 := a2
  have a3' : Geom2D.bufferBy (arrangementOp ch) sq b1 (1 / 2) = .ok b2 := a3
  have f1 := buffer_fine' ch hch hsq fo a2'
  have f2 := buffer_fine' ch hch hsq f1 a3'
  filter_upwards [a4, has_region f2 fo fun p hp => buffer_open ch hch hsq fo (by norm_num) a2' a3' hp] with z z1 z2 hz
  rcases z1.1 hz with hz | hz
  · refine Or.inl ?_
    unfold dens
    rw [a1]
    exact z2 hz
  · exact Or.inr hz

omit hsq in
/-- C52 with the 2D operations of the code: one sheet of `remove_loose`, in a build that is also fit for
`buffer`. -/
theorem c52_loose_fine (geoms : Name → SheetGeoms Geom2D) (hgm : ValidGeoms Geom2D.Fine geoms)
    (e : Name × Sheet) (sb sb' : SheetBuild Geom2D) (hg : Good Geom2D.Fine sb)
    (h : Heu.looseSheet (codeOps ch sq) geoms sb e = .ok sb') :
    Shrunk (ae (volume : Measure (ℝ × ℝ))) Geom2D.Fine Geom2D.region sb sb' :=
  (c52_loose_sheet (fine_lawful ch hch _) (fine_area _ _) (fine_polygons ch hch _) geoms hgm e sb sb' hg h).1

end

end Ply
