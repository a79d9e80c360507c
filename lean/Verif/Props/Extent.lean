import Verif.Props.Fit
import Verif.Props.Pointwise
import Verif.Props.BufferDist

/-!
# C88: what the cut sheets contain
-/

namespace Ply

open MeasureTheory Set Geom1D Arr

section

variable {ch : Choices} {sq : ℚ → ℚ} (hch : ch.Valid) (hsq : RootLike sq)
  (sp : SheetPlex) (hsp : sp.Paired) (hsh : sp.Sheeted) (hpr : sp.SidesProper)
  (geoms : Name → SheetGeoms Geom2D) (hgm : ValidGeoms Geom2D.Fine geoms) (rad : ℚ) (sb0 sb : SheetBuild Geom2D)
  (h : createSheetbuild (codeOps ch sq) sp geoms rad = .ok sb0) (hc : CutFrom sb0 sb)
include hch hsq hsp hsh hgm h hc

/-- C88: no sheet is cut where none of its slices has material. -/
theorem c88_slices {e : Name × Sheet} (he : e ∈ sp.sheets) :
    ∀ᵐ z : ℝ × ℝ, z ∈ dens Geom2D.region sb.sheetChosen e.2.id → z ∈ (geoms e.2.id).slicesMax.region := by
  have L := fine_lawful ch hch (Geom2D.bufferBy (arrangementOp ch) sq)
  have B := code_buffer hch hsq
  obtain ⟨-, -, -, -, -, -, -, h8⟩ := c46_fresh L B sp hsp hsh geoms hgm rad sb0 h
  obtain ⟨c, k, hc', hk, hok, -, hsub⟩ := h8 e he
  obtain ⟨g0, g1, g2⟩ := hgm e.2.id
  have zero : ∀ {g b : Geom2D}, Geom2D.bufferBy (arrangementOp ch) sq g 0 = .ok b → b = g := by
    intro g b hb
    unfold Geom2D.bufferBy at hb
    rw [if_pos rfl] at hb
    cases hb
    rfl
  unfold freshChosen at hc'
  rw [bind_ok] at hc'; obtain ⟨b0, b1, hc'⟩ := hc'
  rw [bind_ok] at hc'; obtain ⟨b2, b3, hc'⟩ := hc'
  rw [bind_ok] at hc'; obtain ⟨b4, b5, hc'⟩ := hc'
  unfold freshOk at hk
  rw [bind_ok] at hk; obtain ⟨e0, e1, hk⟩ := hk
  rw [bind_ok] at hk; obtain ⟨e2, e3, hk⟩ := hk
  rw [bind_ok] at hk; obtain ⟨e4, e5, hk⟩ := hk
  rw [bind_ok] at hk; obtain ⟨e6, e7, hk⟩ := hk
  have := zero b5
  subst this
  have := zero e7
  subst this
  obtain ⟨_, w2⟩ := L.and _ _ _ (B _ _ _ (L.and _ _ _ g0 g1 b1).1 b3) g2 hc'
  obtain ⟨_, w4⟩ := L.and _ _ _ (L.and _ _ _ (B _ _ _ g0 e1) (B _ _ _ g1 e3) e5).1 g2 hk
  filter_upwards [hc.added e.2.id, w2, w4, hsub] with z z1 z2 z4 z3 hz
  rcases z1 hz with hd | ⟨hd, -⟩
  · exact (z2.1 (z3.1 hd).1).2
  · unfold dens at hd
    rw [hok] at hd
    exact (z4.1 hd).2

/-- C88: with a support radius of at least 1 and faces without islands, each inner point of a cut is in a slice and
within about the support radius of both faces. -/
theorem c88_near (hone : sq 1 = 1) (hrad : 1 ≤ rad)
    (hn : ∀ e ∈ sp.sheets, (geoms e.2.id).face0.NoIslands ∧ (geoms e.2.id).face1.NoIslands)
    {e : Name × Sheet} (he : e ∈ sp.sheets) {c : Geom2D} (hcc : sb.sheetChosen.get? e.2.id = some c) {p : Pt}
    (hp : Geom2D.locate c p = .ok 1) :
    (geoms e.2.id).slicesMax.Has p ∧
    (∃ y, (geoms e.2.id).face0.Has y ∧ dist2 p y ≤ rad ^ 2 * max 1 (2 / sq 2 ^ 2)) ∧
    ∃ y, (geoms e.2.id).face1.Has y ∧ dist2 p y ≤ rad ^ 2 * max 1 (2 / sq 2 ^ 2) := by
  have L := fine_lawful ch hch (Geom2D.bufferBy (arrangementOp ch) sq)
  have B := code_buffer hch hsq
  obtain ⟨-, -, g3, -, -, -, -, h8⟩ := c46_fresh L B sp hsp hsh geoms hgm rad sb0 h
  obtain ⟨_, k, -, hk, hok, -, -⟩ := h8 e he
  obtain ⟨g0, g1, g2⟩ := hgm e.2.id
  have fk := g3.validO _ _ hok
  have fc := hc.good.validC _ _ hcc
  have hin : k.Has p := by
    refine region_has fc.proper.made fk.proper.made ?_ hp
    filter_upwards [hc.added e.2.id, fresh_within hch hsq sp hsp hsh geoms hgm rad hrad hn sb0 h e he] with z z1 z2 hz
    have e1 : z ∈ dens Geom2D.region sb.sheetChosen e.2.id := by unfold dens; rw [hcc]; exact hz
    have e2 : z ∈ dens Geom2D.region sb0.sheetOk e.2.id := (z1 e1).elim z2 And.left
    unfold dens at e2
    rw [hok] at e2
    exact e2
  unfold freshOk at hk
  rw [bind_ok] at hk; obtain ⟨e0, e1, hk⟩ := hk
  rw [bind_ok] at hk; obtain ⟨e2, e3, hk⟩ := hk
  rw [bind_ok] at hk; obtain ⟨e4, e5, hk⟩ := hk
  rw [bind_ok] at hk; obtain ⟨e6, e7, hk⟩ := hk
  have e7' : Geom2D.bufferBy (arrangementOp ch) sq (geoms e.2.id).slicesMax 0 = .ok e6 := e7
  unfold Geom2D.bufferBy at e7'
  rw [if_pos rfl] at e7'
  cases e7'
  have v0 := B _ _ _ g0 e1
  have v1 := B _ _ _ g1 e3
  obtain ⟨k1, k2⟩ := and_has ch hch (L.and _ _ _ v0 v1 e5).1 g2 hk hin
  obtain ⟨k3, k4⟩ := and_has ch hch v0 v1 e5 k1
  exact ⟨k2, c71_far ch hch hsq g0 e1 hone (by linarith) k3, c71_far ch hch hsq g1 e3 hone (by linarith) k4⟩

include hpr

/-- C88: what is common to both faces and the slices is cut, except for the fingers of stretches that were allowed
at creation. -/
theorem c88_core {e : Name × Sheet} (he : e ∈ sp.sheets)
    (hn : ∀ b, Geom2D.and (arrangementOp ch) (geoms e.2.id).face0 (geoms e.2.id).face1 = .ok b → b.NoIslands) :
    ∀ᵐ z : ℝ × ℝ, z ∈ (geoms e.2.id).face0.region → z ∈ (geoms e.2.id).face1.region →
      z ∈ (geoms e.2.id).slicesMax.region →
      (∀ s t, Joint sp s t → s.sheet = e.2.id → z ∉ s.strip (pts sb0.interOk s.id)) →
      z ∈ dens Geom2D.region sb.sheetChosen e.2.id := by
  have L := fine_lawful ch hch (Geom2D.bufferBy (arrangementOp ch) sq)
  have B := code_buffer hch hsq
  obtain ⟨-, -, g3, -, -, -, g7, h8⟩ := c46_fresh L B sp hsp hsh geoms hgm rad sb0 h
  obtain ⟨c, k, hc', -, -, -, hsub⟩ := h8 e he
  obtain ⟨g0, g1, g2⟩ := hgm e.2.id
  unfold freshChosen at hc'
  rw [bind_ok] at hc'; obtain ⟨b0, b1, hc'⟩ := hc'
  rw [bind_ok] at hc'; obtain ⟨b2, b3, hc'⟩ := hc'
  rw [bind_ok] at hc'; obtain ⟨b4, b5, hc'⟩ := hc'
  have b5' : Geom2D.bufferBy (arrangementOp ch) sq (geoms e.2.id).slicesMax 0 = .ok b4 := b5
  unfold Geom2D.bufferBy at b5'
  rw [if_pos rfl] at b5'
  cases b5'
  obtain ⟨v0, w0⟩ := L.and _ _ _ g0 g1 b1
  have v2 := B _ _ _ v0 b3
  obtain ⟨_, w2⟩ := L.and _ _ _ v2 g2 hc'
  have b3' : Geom2D.bufferBy (arrangementOp ch) sq b0 1 = .ok b2 := b3
  have i0 := has_region v0 v2 fun p hp => (buffer_grow ch hch hsq v0 b3' one_pos (hn b0 b1) p).2
    ⟨p, hp, by rw [sub_self]; exact (bufOct_conv hsq one_ne_zero).in_zero⟩
  have hfin : ∀ s ∈ intersides (sp.intersections.map Prod.snd) none, ∀ᵐ z : ℝ × ℝ, ∀ t v f, Joint sp s t →
      sb0.interOk.get? s.id = some v → s.makeFingers (arrangementOp ch) v 0 1 = .ok f →
      z ∈ f.region → z ∈ s.strip (pts sb0.interOk s.id) := by
    intro s hs
    have hs' := ((paired_intersides sp hsp _ (List.Perm.refl _) []).2.1 s).1 hs
    obtain ⟨_, t, ht, -⟩ := interside_spec sp hsp s.id s hs'
    obtain ⟨v, f, a1, a2⟩ := g7 s t ⟨hs', ht⟩
    have a2' : s.makeFingers (arrangementOp ch) v 0 1 = .ok f := a2
    filter_upwards [c37_area ch hch s (hpr _ _ hs') v (g3.madeO _ _ a1) f a2'] with z hz t v' f' _ hv' hf' hzf
    rw [a1] at hv'
    cases hv'
    rw [a2'] at hf'
    cases hf'
    unfold pts
    rw [a1]
    exact hz.1 hzf
  have hall : ∀ᵐ z : ℝ × ℝ, ∀ s ∈ intersides (sp.intersections.map Prod.snd) none, ∀ t v f, Joint sp s t →
      sb0.interOk.get? s.id = some v → s.makeFingers (arrangementOp ch) v 0 1 = .ok f →
      z ∈ f.region → z ∈ s.strip (pts sb0.interOk s.id) := by
    generalize intersides (sp.intersections.map Prod.snd) none = l at hfin
    induction l with
    | nil => exact Filter.Eventually.of_forall fun z s hs => absurd hs List.not_mem_nil
    | cons a l ih =>
      filter_upwards [hfin a List.mem_cons_self, ih fun s hs => hfin s (List.mem_cons_of_mem _ hs)] with z z1 z2 s hs
      rcases List.mem_cons.1 hs with rfl | hs
      · exact z1
      · exact z2 s hs
  filter_upwards [hall, w0, w2, i0, hsub, hc.more e.2.id] with z z1 z2 z3 z4 z5 z6 y0 y1 y2 y3
  refine z6 (z5.2 ⟨z3.2 ⟨z4 (z2.2 ⟨y0, y1⟩), y2⟩, fun s t v f hj hs hv hf hzf => ?_⟩)
  exact y3 s t hj hs (z1 s (((paired_intersides sp hsp _ (List.Perm.refl _) []).2.1 s).2 hj.1) t v f hj hv hf hzf)

omit hpr in
/-- C88: chosen fingers are cut wherever they are allowed. -/
theorem c88_fingers (k : Name) :
    ∀ᵐ z : ℝ × ℝ, z ∈ fingersOn sb k → z ∈ dens Geom2D.region sb.sheetOk k → z ∈ dens Geom2D.region sb.sheetChosen k := by
  obtain ⟨f1, f2, -, f4, -⟩ := c46_fresh (fine_lawful ch hch _) (code_buffer hch hsq) sp hsp hsh geoms hgm rad sb0 h
  filter_upwards [hc.fill k] with z hz h1 h2
  refine (hz h1 h2).resolve_right ?_
  rintro ⟨s, k1, -, k3⟩
  obtain ⟨c, hcs⟩ := f4.chosen s.id s k1
  have he := (f2.nothing _ _ hcs).2
  have : pts sb0.interChosen s.id = ∅ := by
    unfold pts
    rw [hcs]
    dsimp only
    rw [he, pointsOf_nil]
  rw [this] at k3
  obtain ⟨q, hq, -⟩ := (mem_strip _ _ _).1 k3
  exact hq

end

/-! ### Successful runs -/

section

variable {ch : Choices} {sq : ℚ → ℚ} (hch : ch.Valid) (hsq : RootLike sq)
  (p : Canned.Params Geom2D) (ho : p.o = codeOps ch sq) (hp : p.Valid) (hgm : ValidGeoms Geom2D.Fine p.geoms)
  (sp : SheetPlex) (hsp : sp.Paired) (hsh : sp.Sheeted) (hpr : sp.SidesProper) (rof : Option Bool)
  (r : Canned.Result Geom2D) (h : Canned.run p sp none rof = .ok r) (hr : r.ok = true)
include hch hsq ho hp hgm hsp hsh hpr h hr

/-- C88 for a successful run: each cut lies in the slices; away from the joints it covers what the faces and the
slices have in common; it covers the allowed parts of the fingers chosen on its sides; and all it has besides the
freshly chosen area are such fingers. -/
theorem c88_run : ∃ sb0, createSheetbuild (codeOps ch sq) sp p.geoms p.supportRadius = .ok sb0 ∧
    r.history[0]? = some sb0 ∧ ∀ e ∈ sp.sheets,
    (∀ᵐ z : ℝ × ℝ, z ∈ dens Geom2D.region r.sheetCuts e.2.id → z ∈ (p.geoms e.2.id).slicesMax.region ∧
      (z ∈ dens Geom2D.region sb0.sheetChosen e.2.id ∨ z ∈ fingersOn r.sheetbuild e.2.id)) ∧
    (∀ᵐ z : ℝ × ℝ, z ∈ fingersOn r.sheetbuild e.2.id → z ∈ dens Geom2D.region r.sheetbuild.sheetOk e.2.id →
      z ∈ dens Geom2D.region r.sheetCuts e.2.id) ∧
    ((∀ b, Geom2D.and (arrangementOp ch) (p.geoms e.2.id).face0 (p.geoms e.2.id).face1 = .ok b → b.NoIslands) →
      ∀ᵐ z : ℝ × ℝ, z ∈ (p.geoms e.2.id).face0.region → z ∈ (p.geoms e.2.id).face1.region →
        z ∈ (p.geoms e.2.id).slicesMax.region →
        (∀ s t, Joint sp s t → s.sheet = e.2.id → z ∉ s.strip (pts sb0.interOk s.id)) →
        z ∈ dens Geom2D.region r.sheetCuts e.2.id) := by
  obtain ⟨sb0, h1, h2, h3, h4, -, h5⟩ := run_cuts hch hsq p ho hp hgm sp hsp hsh hpr rof r h hr
  rw [h4]
  refine ⟨sb0, h1, h2, fun e he => ⟨?_, c88_fingers hch hsq sp hsp hsh p.geoms hgm _ sb0 r.sheetbuild h1 h5 e.2.id,
    fun hn => c88_core hch hsq sp hsp hsh hpr p.geoms hgm _ sb0 r.sheetbuild h1 h5 he hn⟩⟩
  filter_upwards [c88_slices hch hsq sp hsp hsh p.geoms hgm _ sb0 r.sheetbuild h1 h5 he, h5.added e.2.id] with z z1 z2 hz
  exact ⟨z1 hz, (z2 hz).imp_right And.right⟩

/-- C88 for a successful run: each inner point of a cut is within about the support radius of both faces. -/
theorem c88_run_near (hone : sq 1 = 1) (hrad : 1 ≤ p.supportRadius)
    (hn : ∀ e ∈ sp.sheets, (p.geoms e.2.id).face0.NoIslands ∧ (p.geoms e.2.id).face1.NoIslands)
    {e : Name × Sheet} (he : e ∈ sp.sheets) {c : Geom2D} (hc : r.sheetCuts.get? e.2.id = some c) {q : Pt}
    (hq : Geom2D.locate c q = .ok 1) :
    (p.geoms e.2.id).slicesMax.Has q ∧
    (∃ y, (p.geoms e.2.id).face0.Has y ∧ dist2 q y ≤ p.supportRadius ^ 2 * max 1 (2 / sq 2 ^ 2)) ∧
    ∃ y, (p.geoms e.2.id).face1.Has y ∧ dist2 q y ≤ p.supportRadius ^ 2 * max 1 (2 / sq 2 ^ 2) := by
  obtain ⟨sb0, h1, -, -, h4, -, h5⟩ := run_cuts hch hsq p ho hp hgm sp hsp hsh hpr rof r h hr
  rw [h4] at hc
  exact c88_near hch hsq sp hsp hsh p.geoms hgm _ sb0 r.sheetbuild h1 h5 hone hrad hn he hc hq

end

end Ply
