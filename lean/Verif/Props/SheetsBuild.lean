import Verif.Props.Sheets
import Verif.Props.Pointwise
import Verif.Props.BufferDist

/-!
# A fresh build, from slices and facets
-/

namespace Ply

open Filter Topology MeasureTheory Arr

/-- The geoms of a sheet that the build uses. -/
def SheetParts.geoms (r : SheetParts) : SheetGeoms Geom2D := ⟨r.face0, r.face1, r.slicesMax⟩

theorem parts_both {arr : Geom2D.ArrOp} {d : SheetSource} {r : SheetParts} (h : sheetParts arr d = .ok r) :
    Geom2D.and arr r.face0 r.face1 = .ok r.bothFaces := by
  unfold sheetParts at h
  rw [bind_ok] at h; obtain ⟨_, -, h⟩ := h
  rw [bind_ok] at h; obtain ⟨_, -, h⟩ := h
  rw [bind_ok] at h; obtain ⟨_, -, h⟩ := h
  rw [bind_ok] at h; obtain ⟨_, -, h⟩ := h
  rw [bind_ok] at h; obtain ⟨_, -, h⟩ := h
  rw [bind_ok] at h; obtain ⟨_, -, h⟩ := h
  rw [bind_ok] at h; obtain ⟨_, -, h⟩ := h
  rw [bind_ok] at h; obtain ⟨_, h', h⟩ := h
  cases h
  exact h'

theorem grow_inner {ch : Choices} {sq : ℚ → ℚ} (hch : ch.Valid) (hsq : RootLike sq) {g b : Geom2D} (hg : g.Fine) {m : ℚ}
    (hm : 0 < m) (hn : g.NoIslands) (h : Geom2D.bufferBy (arrangementOp ch) sq g m = .ok b) {p : Pt}
    (hp : Geom2D.locate g p = .ok 1) : Geom2D.locate b p = .ok 1 := by
  have hb := buffer_fine' ch hch hsq hg h
  by_contra hc
  obtain ⟨v, v1, v2, -⟩ := hb.near_out [] hc (stable_inside hg.proper.made p) (by rwa [add_zero])
  refine (not_has hb.proper.made _).2 v2 ((buffer_grow ch hch hsq hg h hm hn _).2 ⟨p + v, Or.inl v1, ?_⟩)
  rw [sub_self]
  obtain ⟨o1, o2, o3⟩ := hsq.oct hm.ne'
  exact (octagon_conv o1 o2 o3).in_zero

section

variable {ch : Choices} {sq : ℚ → ℚ} (hch : ch.Valid) (hsq : RootLike sq) {sp : SheetPlex} (hsp : sp.Paired) (hsh : sp.Sheeted)
  {src : Name → SheetSource} {out ins : Name → List (List Rings)} (hd : ∀ n, Sourced (src n) (out n) (ins n))
  {parts : Name → SheetParts} (hp : ∀ n, sheetParts (arrangementOp ch) (src n) = .ok (parts n)) {rad : ℚ}
  {sb : SheetBuild Geom2D} (h : createSheetbuild (codeOps ch sq) sp (fun n => (parts n).geoms) rad = .ok sb)
include hch hsq hsp hsh hd hp h

omit hsq hsp hsh h in
theorem parts_valid : ValidGeoms Geom2D.Fine fun n => (parts n).geoms := fun n => by
  obtain ⟨h0, h1, -, h2, -⟩ := c82_parts ch hch (hd n) (hp n)
  exact ⟨h0.1, h1.1, h2.1⟩

/-- What the code makes of the geoms of one sheet. -/
theorem fresh_sheet {e : Name × Sheet} (he : e ∈ sp.sheets) : ∃ b c c',
    Geom2D.bufferBy (arrangementOp ch) sq (parts e.2.id).bothFaces 1 = .ok b ∧
    Geom2D.and (arrangementOp ch) b (parts e.2.id).slicesMax = .ok c ∧ b.Fine ∧ c.Fine ∧
    sb.sheetChosen.get? e.2.id = some c' ∧ c'.Fine ∧
    ∀ᵐ z : ℝ × ℝ, z ∈ c'.region ↔ z ∈ c.region ∧ ∀ s t v f, Joint sp s t → s.sheet = e.2.id →
      sb.interOk.get? s.id = some v → s.makeFingers (arrangementOp ch) v 0 1 = .ok f → z ∉ f.region := by
  obtain ⟨-, -, h3, -, -, -, -, h8⟩ := c46_fresh (fine_lawful ch hch _) (code_buffer hch hsq) sp hsp hsh _
    (parts_valid hch hd hp) rad sb h
  obtain ⟨c, k, hc, -, -, ⟨c', hc'⟩, hae⟩ := h8 e he
  obtain ⟨f0, f1, f2, f3, -⟩ := c82_parts ch hch (hd e.2.id) (hp e.2.id)
  unfold freshChosen at hc
  rw [bind_ok] at hc; obtain ⟨both, b1, hc⟩ := hc
  rw [bind_ok] at hc; obtain ⟨b, b2, hc⟩ := hc
  rw [bind_ok] at hc; obtain ⟨sm, b3, hc⟩ := hc
  have e1 : both = (parts e.2.id).bothFaces := by
    have x1 : Geom2D.and (arrangementOp ch) (parts e.2.id).face0 (parts e.2.id).face1 = .ok both := b1
    rw [parts_both (hp e.2.id)] at x1
    cases x1
    rfl
  have e2 : sm = (parts e.2.id).slicesMax := by
    have x1 : Geom2D.bufferBy (arrangementOp ch) sq (parts e.2.id).slicesMax 0 = .ok sm := b3
    unfold Geom2D.bufferBy at x1
    rw [if_pos rfl] at x1
    cases x1
    rfl
  subst e1 e2
  have b2 : Geom2D.bufferBy (arrangementOp ch) sq (parts e.2.id).bothFaces 1 = .ok b := b2
  have hb := buffer_fine' ch hch hsq f2.1 b2
  refine ⟨b, c, c', b2, hc, hb, and_fine ch hch hb.usable f3.1.usable hc, hc', h3.validC _ _ hc', ?_⟩
  have hd' : dens Geom2D.region sb.sheetChosen e.2.id = c'.region := by unfold dens; rw [hc']
  rw [hd'] at hae
  exact hae

/-- C83: what a fresh build keeps of a sheet.  Every inner point is in a slice or on its boundary, within about 1
of a point that is in triangles on both sides of the sheet, and in none of the fingers of the allowed stretches. -/
theorem c83_kept (hone : sq 1 = 1) {e : Name × Sheet} (he : e ∈ sp.sheets) :
    ∃ c, sb.sheetChosen.get? e.2.id = some c ∧ c.Fine ∧ ∀ p, Geom2D.locate c p = .ok 1 →
      (∃ S ∈ ins e.2.id, OnShape S p) ∧
      (∃ y, (∃ t ∈ (src e.2.id).same, InTriangle t.1 t.2.1 t.2.2 y) ∧ (∃ t ∈ (src e.2.id).opposed, InTriangle t.1 t.2.1 t.2.2 y) ∧
        dist2 p y ≤ max 1 (2 / sq 2 ^ 2)) ∧
      ∀ s t v f, Joint sp s t → s.sheet = e.2.id → sb.interOk.get? s.id = some v →
        s.makeFingers (arrangementOp ch) v 0 1 = .ok f → Geom2D.locate f p ≠ .ok 1 := by
  obtain ⟨b, c, c', b1, b2, b3, b4, b5, b6, b7⟩ := fresh_sheet hch hsq hsp hsh hd hp h he
  obtain ⟨-, -, h3, -, -, -, -⟩ := c46_fresh (fine_lawful ch hch _) (code_buffer hch hsq) sp hsp hsh _
    (parts_valid hch hd hp) rad sb h
  obtain ⟨f0, f1, f2, f3, -⟩ := c82_parts ch hch (hd e.2.id) (hp e.2.id)
  refine ⟨c', b5, b6, fun p hp' => ?_⟩
  have hc := region_has b6.proper.made b4.proper.made (by filter_upwards [b7] with z hz h' using (hz.1 h').1) hp'
  obtain ⟨k1, k2⟩ := and_has ch hch b3 f3.1 b2 hc
  refine ⟨(f3.2 p).1 k2, ?_, fun s t v f hj hs hv hf hc => ?_⟩
  · obtain ⟨y, y1, y2⟩ := c71_far ch hch hsq f2.1 b1 hone one_pos k1
    obtain ⟨y3, y4⟩ := and_has ch hch f0.1 f1.1 (parts_both (hp e.2.id)) y1
    exact ⟨y, (f0.2 y).1 y3, (f1.2 y).1 y4, by simpa using y2⟩
  · have hF : f.Fine := (fine_lawful ch hch (Geom2D.bufferBy (arrangementOp ch) sq)).fingers s v f (h3.madeO _ _ hv) hf
    refine region_apart b6.proper.made hF.proper.made ?_ p ⟨hp', hc⟩
    filter_upwards [b7] with z hz h'
    exact (hz.1 h'.1).2 s t v f hj hs hv hf h'.2

/-- C83: what a fresh build does not lose of a sheet.  A point within both faces and the slices stays, unless it is
in the fingers of an allowed stretch. -/
theorem c83_all {e : Name × Sheet} (he : e ∈ sp.sheets) (hn : (parts e.2.id).bothFaces.NoIslands) :
    ∃ c, sb.sheetChosen.get? e.2.id = some c ∧ ∀ p, Geom2D.locate (parts e.2.id).face0 p = .ok 1 →
      Geom2D.locate (parts e.2.id).face1 p = .ok 1 → Geom2D.locate (parts e.2.id).slicesMax p = .ok 1 →
      (∀ s t v f, Joint sp s t → s.sheet = e.2.id → sb.interOk.get? s.id = some v →
        s.makeFingers (arrangementOp ch) v 0 1 = .ok f → ¬ f.Has p) → Geom2D.locate c p = .ok 1 := by
  obtain ⟨b, c, c', b1, b2, b3, b4, b5, b6, b7⟩ := fresh_sheet hch hsq hsp hsh hd hp h he
  obtain ⟨-, -, h3, -, -, -, -⟩ := c46_fresh (fine_lawful ch hch _) (code_buffer hch hsq) sp hsp hsh _
    (parts_valid hch hd hp) rad sb h
  obtain ⟨f0, f1, f2, f3, -⟩ := c82_parts ch hch (hd e.2.id) (hp e.2.id)
  refine ⟨c', b5, fun p p0 p1 p2 p3 => ?_⟩
  by_contra hc
  obtain ⟨_, hall, _, _⟩ := paired_intersides sp hsp _ (List.Perm.refl _) []
  -- the fingers
  obtain ⟨F, hF⟩ : ∃ F : List Geom2D, ∀ f, f ∈ F ↔ ∃ s t v, Joint sp s t ∧ s.sheet = e.2.id ∧
      sb.interOk.get? s.id = some v ∧ s.makeFingers (arrangementOp ch) v 0 1 = .ok f := by
    refine ⟨(intersides (sp.intersections.map Prod.snd) none).filterMap fun s =>
      if s.sheet = e.2.id then (sb.interOk.get? s.id).bind fun v => (s.makeFingers (arrangementOp ch) v 0 1).toOption
      else none, fun f => ?_⟩
    rw [List.mem_filterMap]
    constructor
    · rintro ⟨s, hs, h'⟩
      split_ifs at h' with hk
      obtain ⟨v, hv, hf⟩ := Option.bind_eq_some_iff.1 h'
      have hs' := (hall s).1 hs
      obtain ⟨_, t, ht, -⟩ := interside_spec sp hsp s.id s hs'
      refine ⟨s, t, v, ⟨hs', ht⟩, hk, hv, ?_⟩
      cases hm : s.makeFingers (arrangementOp ch) v 0 1 with
      | error x => rw [hm] at hf; cases hf
      | ok x => rw [hm] at hf; cases hf; rfl
    · rintro ⟨s, t, v, hj, hk, hv, hf⟩
      refine ⟨s, (hall s).2 hj.1, ?_⟩
      rw [if_pos hk, hv, Option.bind_some, hf]
      rfl
  have hFF : ∀ f ∈ F, Geom2D.Fine f := fun f hf => by
    obtain ⟨s, t, v, -, -, hv, hf⟩ := (hF f).1 hf
    exact (fine_lawful ch hch (Geom2D.bufferBy (arrangementOp ch) sq)).fingers s v f (h3.madeO _ _ hv) hf
  have hst : Stable fun v => (Geom2D.locate (parts e.2.id).face0 (p + v) = .ok 1 ∧
      Geom2D.locate (parts e.2.id).face1 (p + v) = .ok 1) ∧ Geom2D.locate (parts e.2.id).slicesMax (p + v) = .ok 1 ∧
      ∀ f ∈ F, Geom2D.locate f (p + v) = .ok (-1) :=
    ((stable_inside f0.1.proper.made p).and (stable_inside f1.1.proper.made p)).and
      ((stable_inside f3.1.proper.made p).and (stable_all F fun f hf => stable_outside (hFF f hf).proper.made p))
  obtain ⟨v, v1, v2, -⟩ := b6.near_out [] hc hst (by
    rw [add_zero]
    refine ⟨⟨p0, p1⟩, p2, fun f hf => ?_⟩
    obtain ⟨s, t, v, hj, hs, hv, hf'⟩ := (hF f).1 hf
    exact (not_has (hFF f hf).proper.made p).1 (p3 s t v f hj hs hv hf'))
  have hst2 := hst.and (stable_outside b6.proper.made p)
  obtain ⟨w, z, ⟨⟨⟨w0, w1⟩, w2, w3⟩, w4⟩, hz, hzg⟩ := ae_witness (gs := c' :: c :: F) (by
    intro g hg
    rcases List.mem_cons.1 hg with rfl | hg
    · exact b6.proper.made
    rcases List.mem_cons.1 hg with rfl | hg
    · exact b4.proper.made
    · exact (hFF g hg).proper.made) (p + v) (P := fun w => _)
    (fun w hw u => by
      have := hst2 (v + w) hw u
      filter_upwards [this] with ε hε
      rw [add_assoc] at hε
      exact hε) (by rw [add_zero]; exact ⟨v1, v2⟩) b7
  rw [← add_assoc] at w0 w1 w2 w4
  have kc : Geom2D.locate c (p + v + w) = .ok 1 := by
    rw [c78_and ch hch b3 f3.1 b2]
    exact ⟨grow_inner hch hsq f2.1 one_pos hn b1 ((f2.2 _).2 ⟨w0, w1⟩), w2⟩
  have := (hzg c' (by simp)).1 (hz.2 ⟨(hzg c (by simp)).2 kc, fun s t x f hj hs hv hf hzf => ?_⟩)
  · rw [w4] at this; cases this
  · have hfF : f ∈ F := (hF f).2 ⟨s, t, x, hj, hs, hv, hf⟩
    have k1 := (hzg f (by simp [hfF])).1 hzf
    have k2 := w3 f hfF
    rw [← add_assoc, k1] at k2
    cases k2

end

end Ply
