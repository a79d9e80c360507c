import Verif.Props.Corners
import Verif.Props.BuildTotal

/-!
# Builds of rectangular sheets are always created (C110)
-/

namespace Ply

open Arr Geom2D SheetBuild Geom1D MeasureTheory

/-- One rectangle along the axes, written from any corner, or nothing. -/
def Geom2D.Box (g : Geom2D) : Prop :=
  g = [] ∨ ∃ x0 y0 x1 y1 : ℚ, ∃ k : ℕ, x0 < x1 ∧ y0 < y1 ∧ g = [⟨(boxLoop x0 y0 x1 y1).rotate k, []⟩]

/-- A sheet whose two faces are rectangles or empty. -/
def SheetGeoms.Boxes (g : SheetGeoms Geom2D) : Prop := g.face0.Box ∧ g.face1.Box ∧ g.slicesMax.Fine

theorem Geom2D.Box.fine {g : Geom2D} (h : g.Box) : g.Fine ∧ g.NoIslands := by
  rcases h with rfl | ⟨x0, y0, x1, y1, k, hx, hy, rfl⟩
  · exact ⟨fine_empty, noIslands_of _ rfl⟩
  · exact ⟨box_fine hx hy k, noIslands_of _ rfl⟩

/-- The intersection of two rectangles is a rectangle or empty. -/
theorem Geom2D.Box.and {ch : Choices} (hch : ch.Valid) {a b : Geom2D} (ha : a.Box) (hb : b.Box) :
    ∃ r, Geom2D.and (arrangementOp ch) a b = .ok r ∧ r.Box := by
  have none : ∀ p, ¬ locate ([] : Geom2D) p = .ok 1 := fun p h => by
    obtain ⟨v, h1, h2, -⟩ := c31_locate [] (fun s hs => by simp at hs) p
    rw [h1, Except.ok.injEq, h2] at h
    obtain ⟨s, hs, -⟩ := h
    simp at hs
  obtain ⟨r, hr, hf, hp⟩ := c85_and ch hch a b ha.fine.1 hb.fine.1
  rcases ha with rfl | ⟨a0, b0, a1, b1, i, h1, h2, rfl⟩
  · exact ⟨r, hr, Or.inl (fine_nothing hf fun p h => none p ((hp p).1 h).1)⟩
  · rcases hb with rfl | ⟨c0, d0, c1, d1, j, h3, h4, rfl⟩
    · exact ⟨r, hr, Or.inl (fine_nothing hf fun p h => none p ((hp p).1 h).2)⟩
    · by_cases h : max a0 c0 < min a1 c1 ∧ max b0 d0 < min b1 d1
      · obtain ⟨k, hk⟩ := c109_and ch hch h.1 h.2 i j
        exact ⟨_, hk, Or.inr ⟨_, _, _, _, k, h.1, h.2, rfl⟩⟩
      · exact ⟨_, c109_apart ch hch h1 h2 h3 h4 h i j, Or.inl rfl⟩

/-- Growing a rectangle or nothing never raises. -/
theorem Geom2D.Box.grow {ch : Choices} (hch : ch.Valid) {sq : ℚ → ℚ} (hsq : RootLike sq) (hone : sq 1 = 1) {a : Geom2D} (ha : a.Box)
    {amount : ℚ} (h0 : 0 < amount) : ∃ r, Geom2D.bufferBy (arrangementOp ch) sq a amount = .ok r ∧ r.Fine := by
  rcases ha with rfl | ⟨x0, y0, x1, y1, k, hx, hy, rfl⟩
  · refine ⟨[], ?_, fine_empty⟩
    rw [bufferBy_eq _ hsq _ h0.ne', if_pos h0, minkowskiConvexOp, bufOct_shift hsq h0.ne' 1 (Or.inl rfl)]
    rfl
  · obtain ⟨r, h1, h2, -⟩ := c106_grow ch hch hsq hone hx hy h0 k
    exact ⟨r, h1, h2⟩

theorem project_bounded {g : Geom2D} (hg : g.WellMade) (s : InterSide) : ∃ v, s.projectTo1d g = .ok v ∧ LineValid v := by
  obtain ⟨r, h1, h2, h3⟩ := c36_succeeds g hg s.direction (-s.originOffset)
  refine ⟨r, h1, LineValid.mk' h2 ?_⟩
  have : pointsOf r.intervals ⊆ ⋃ t ∈ {t | t ∈ g}, ⋃ a ∈ {a | a ∈ t.outer}, ⋃ b ∈ {b | b ∈ t.outer},
      Set.Ico ((shadow s.direction (-s.originOffset) a : ℚ) : ℝ) ((shadow s.direction (-s.originOffset) b : ℚ) : ℝ) := by
    intro x hx
    obtain ⟨t, ht, ⟨a, ha, h⟩, b, hb, h'⟩ := (h3 x).1 hx
    simp only [Set.mem_iUnion, Set.mem_Ico]
    exact ⟨t, ht, a, ha, b, hb, h, h'⟩
  refine Bornology.IsBounded.subset ?_ this
  rw [Bornology.isBounded_biUnion (List.finite_toSet g)]
  intro t _
  rw [Bornology.isBounded_biUnion (List.finite_toSet t.outer)]
  intro a _
  rw [Bornology.isBounded_biUnion (List.finite_toSet t.outer)]
  intro b _
  exact Metric.isBounded_Ico _ _

section

variable {ch : Choices} {sq : ℚ → ℚ} (hch : ch.Valid)
include hch

/-- Removing fingers from sheets never raises. -/
theorem removeFingers_fine (sp : SheetPlex) (hp : sp.SidesProper) (es : PMap (Name × Name) Geom1D)
    (hes : ∀ e ∈ es, LineValid e.2 ∧ ∃ s, sp.interside e.1 = .ok s) (m : PMap Name Geom2D) (hm : ValidMap Geom2D.Fine m)
    (hk : ∀ id s, sp.interside id = .ok s → ∃ g, m.get? s.sheet = some g) :
    ∃ r, removeFingers (codeOps ch sq) sp m es = .ok r := by
  induction es generalizing m with
  | nil => exact ⟨_, rfl⟩
  | cons e es ih =>
    obtain ⟨id, v⟩ := e
    obtain ⟨hv, s, hs⟩ := hes (id, v) (by simp)
    dsimp only at hv hs
    obtain ⟨c, hc⟩ := hk id s hs
    obtain ⟨f, hf, vf, -⟩ := c37_fingers ch hch s (hp id s hs) 0 1 one_pos v hv.1 hv.bounded
    have hf' : (codeOps ch sq).fingers s v = .ok f := hf
    obtain ⟨d, hd, vd, -⟩ := c85_sub ch hch c f (hm _ _ hc) vf
    have hd' : (codeOps ch sq).sub c f = .ok d := hd
    have ok_bind : ∀ {α β : Type} (a : α) (f : α → Except PyErr β), (Except.ok a >>= f) = f a := fun _ _ => rfl
    rw [removeFingers, hs, ok_bind, (PMap.get_ok _ _ _).2 hc, ok_bind, hf', ok_bind, hd', ok_bind]
    apply ih (fun e he => hes e (by simp [he]))
    · intro k g hg
      rw [PMap.get?_set] at hg
      split_ifs at hg
      · cases hg
        exact vd
      · exact hm k g hg
    · intro id' s' hs'
      rw [PMap.get?_set]
      split_ifs
      · exact ⟨_, rfl⟩
      · exact hk id' s' hs'

/-- Creation never raises when the areas of the sheets are made. -/
theorem create_of_fresh (sp : SheetPlex) (hsp : sp.Paired) (hsh : sp.Sheeted) (hp : sp.SidesProper)
    (geoms : Name → SheetGeoms Geom2D) (rad : ℚ) (hm : ∀ e ∈ sp.sheets, (geoms e.2.id).slicesMax.Fine)
    (c1 : ∀ e ∈ sp.sheets, ∃ v, freshChosen (codeOps ch sq) (geoms e.2.id) = .ok v ∧ v.Fine)
    (c2 : ∀ e ∈ sp.sheets, ∃ v, freshOk (codeOps ch sq) rad (geoms e.2.id) = .ok v ∧ v.Fine) :
    ∃ sb, createSheetbuild (codeOps ch sq) sp geoms rad = .ok sb := by
  have ok_bind : ∀ {α β : Type} (a : α) (f : α → Except PyErr β), (Except.ok a >>= f) = f a := fun _ _ => rfl
  obtain ⟨_, hall, _, hnd⟩ := paired_intersides sp hsp _ (List.Perm.refl _) []
  have hid : ∀ id s, sp.interside id = .ok s → s.id = id := fun id s hs => (interside_spec sp hsp id s hs).1
  obtain ⟨ch0, a1⟩ := dictOf_total (fun e : Name × Sheet => e.2.id) (fun e => freshChosen (codeOps ch sq) (geoms e.2.id)) sp.sheets
    (fun e he => ⟨_, (c1 e he).choose_spec.1⟩)
  obtain ⟨sok, a2⟩ := dictOf_total (fun e : Name × Sheet => e.2.id) (fun e => freshOk (codeOps ch sq) rad (geoms e.2.id)) sp.sheets
    (fun e he => ⟨_, (c2 e he).choose_spec.1⟩)
  have d1 := dictOf_spec _ _ _ _ hsh.nodup a1
  have d2 := dictOf_spec _ _ _ _ hsh.nodup a2
  obtain ⟨e, e1, e2, e3⟩ := empty_denotes
  obtain ⟨ich, a3⟩ := dictOf_total InterSide.id (fun _ => Geom1D.empty) (intersides (sp.intersections.map Prod.snd) none)
    (fun _ _ => ⟨e, e1⟩)
  have v1 : ValidMap Geom2D.Fine ch0 := by
    intro k g hk
    obtain ⟨e, he, _, h⟩ := d1.2.1 k g hk
    obtain ⟨v, h1, h2⟩ := c1 e he
    rw [h1] at h
    cases h
    exact h2
  have v2 : ValidMap Geom2D.Fine sok := by
    intro k g hk
    obtain ⟨e, he, _, h⟩ := d2.2.1 k g hk
    obtain ⟨v, h1, h2⟩ := c2 e he
    rw [h1] at h
    cases h
    exact h2
  have c4 : ∀ s ∈ intersides (sp.intersections.map Prod.snd) none,
      ∃ v, freshInterOk (codeOps ch sq) geoms sok s = .ok v ∧ LineValid v := by
    intro s hs
    obtain ⟨e, he, hes⟩ := hsh.known s.id s ((hall s).1 hs)
    obtain ⟨k, _, hk⟩ := d2.1 e he
    have hsm := hm e he
    rw [hes] at hk hsm
    obtain ⟨r, hr, vr, -⟩ := c85_and ch hch k (geoms s.sheet).slicesMax (v2 _ _ hk) hsm
    obtain ⟨w, w1, w2, w3⟩ := construct_fin (-1000) 1000 (by norm_num)
    have w1' : Geom1D.construct [(.fraction (-1000), .fraction 1000)] = .ok w := by rw [← w1]; rfl
    have hwb : Bornology.IsBounded (pointsOf w.intervals) := by rw [w3]; exact Metric.isBounded_Ico _ _
    obtain ⟨f, hf, vf, -⟩ := c37_fingers ch hch s (hp s.id s ((hall s).1 hs)) 0 1 one_pos w ((made_iff_nf _).2 w2) hwb
    obtain ⟨g, hg, vg, -⟩ := c85_and ch hch r f vr vf
    obtain ⟨v, hv, hb⟩ := project_bounded vg.proper.made s
    refine ⟨v, ?_, hb⟩
    have hr' : (codeOps ch sq).and k (geoms s.sheet).slicesMax = .ok r := hr
    have hf' : (codeOps ch sq).fingers s w = .ok f := hf
    have hg' : (codeOps ch sq).and r f = .ok g := hg
    have hv' : (codeOps ch sq).project s g = .ok v := hv
    unfold freshInterOk
    rw [(PMap.get_ok _ _ _).2 hk, ok_bind, hr', ok_bind, w1', ok_bind, hf', ok_bind, hg', ok_bind, hv']
  obtain ⟨iok0, a4⟩ := dictOf_total InterSide.id (freshInterOk (codeOps ch sq) geoms sok) (intersides (sp.intersections.map Prod.snd) none)
    (fun s hs => ⟨_, (c4 s hs).choose_spec.1⟩)
  have d4 := dictOf_spec _ _ _ _ hnd a4
  have v4 : ∀ k g, iok0.get? k = some g → LineValid g := by
    intro k g hk
    obtain ⟨s, hs, _, h⟩ := d4.2.1 k g hk
    obtain ⟨v, h1, h2⟩ := c4 s hs
    rw [h1] at h
    cases h
    exact h2
  obtain ⟨iok, a5, v5⟩ := restrictInter_total sp hsp (intersides (sp.intersections.map Prod.snd) none)
    (fun s hs => (hall s).1 hs) iok0 v4 (by
      intro id s hs
      have e := hid id s hs
      subst e
      obtain ⟨v, _, hv⟩ := d4.1 s ((hall s).2 hs)
      exact ⟨v, hv⟩)
  have hkeys := restrictInter_keys sp _ _ _ a5
  have hnk : (iok.map Prod.fst).Nodup := by rw [hkeys, d4.2.2]; exact hnd
  obtain ⟨ch', a6⟩ := removeFingers_fine (sq := sq) hch sp hp iok (by
      intro e he
      refine ⟨v5 e.1 e.2 (PMap.get?_of_mem _ hnk e he), ?_⟩
      have : e.1 ∈ iok.map Prod.fst := List.mem_map_of_mem he
      rw [hkeys, d4.2.2] at this
      obtain ⟨s, hs, h⟩ := List.mem_map.1 this
      exact ⟨s, by rw [← h]; exact (hall s).1 hs⟩) ch0 v1 (by
      intro id s hs
      obtain ⟨e, he, hes⟩ := hsh.known id s hs
      obtain ⟨v, _, hv⟩ := d1.1 e he
      exact ⟨v, by rw [← hes]; exact hv⟩)
  unfold createSheetbuild
  rw [a1, ok_bind, a2, ok_bind]
  dsimp only
  rw [a3, ok_bind, a4, ok_bind, a5, ok_bind, a6, ok_bind]
  exact ⟨_, rfl⟩

omit hch in
theorem SheetGeoms.Boxes.valid {g : SheetGeoms Geom2D} (h : g.Boxes) :
    (g.face0.Fine ∧ g.face1.Fine ∧ g.slicesMax.Fine) ∧ g.face0.NoIslands ∧ g.face1.NoIslands :=
  ⟨⟨h.1.fine.1, h.2.1.fine.1, h.2.2⟩, h.1.fine.2, h.2.1.fine.2⟩

variable (hsq : RootLike sq) (hone : sq 1 = 1)
include hsq hone

/-- C110: when each of the two faces of every sheet is a rectangle or empty and the sides of the joints are proper,
`create_sheetbuild` never raises, whatever order sets and dictionaries are gone through in, for every positive
support radius and every outline of the cut through the middle of the sheets. -/
theorem c110_created (sp : SheetPlex) (hsp : sp.Paired) (hsh : sp.Sheeted) (hp : sp.SidesProper)
    (geoms : Name → SheetGeoms Geom2D) (rad : ℚ) (hr : 0 < rad) (hb : ∀ e ∈ sp.sheets, (geoms e.2.id).Boxes) :
    ∃ sb, createSheetbuild (codeOps ch sq) sp geoms rad = .ok sb := by
  have ok_bind : ∀ {α β : Type} (a : α) (f : α → Except PyErr β), (Except.ok a >>= f) = f a := fun _ _ => rfl
  have zero : ∀ g : Geom2D, (codeOps ch sq).buffer g 0 = .ok g := fun g => by
    show Geom2D.bufferBy (arrangementOp ch) sq g 0 = .ok g
    unfold Geom2D.bufferBy
    rw [if_pos rfl]
  refine create_of_fresh hch sp hsp hsh hp geoms rad (fun e he => (hb e he).2.2) (fun e he => ?_) fun e he => ?_
  · obtain ⟨h0, h1, hs⟩ := hb e he
    obtain ⟨a, ha, va⟩ := h0.and hch h1
    obtain ⟨b, hb, vb⟩ := va.grow hch hsq hone (one_pos (α := ℚ))
    obtain ⟨d, hd, vd, -⟩ := c85_and ch hch b _ vb hs
    have ha' : (codeOps ch sq).and _ _ = .ok a := ha
    have hb' : (codeOps ch sq).buffer _ 1 = .ok b := hb
    unfold freshChosen
    rw [ha', ok_bind, hb', ok_bind, zero, ok_bind]
    exact ⟨d, hd, vd⟩
  · obtain ⟨h0, h1, hs⟩ := hb e he
    obtain ⟨a, ha, va⟩ := h0.grow hch hsq hone hr
    obtain ⟨b, hb, vb⟩ := h1.grow hch hsq hone hr
    obtain ⟨c, hc, vc, -⟩ := c85_and ch hch a b va vb
    obtain ⟨d, hd, vd, -⟩ := c85_and ch hch c _ vc hs
    have ha' : (codeOps ch sq).buffer _ rad = .ok a := ha
    have hb' : (codeOps ch sq).buffer _ rad = .ok b := hb
    have hc' : (codeOps ch sq).and a b = .ok c := hc
    unfold freshOk
    rw [ha', ok_bind, hb', ok_bind, hc', ok_bind, zero, ok_bind]
    exact ⟨d, hd, vd⟩

/-- C110: for a support radius of at least 1 the build made from rectangular faces passes its check, and every
stretch that it allows on a side of a joint can be tentatively chosen there. -/
theorem c110_ready (sp : SheetPlex) (hsp : sp.Paired) (hsh : sp.Sheeted) (hp : sp.SidesProper)
    (geoms : Name → SheetGeoms Geom2D) (rad : ℚ) (hr : 1 ≤ rad) (hb : ∀ n, (geoms n).Boxes) :
    ∃ sb, createSheetbuild (codeOps ch sq) sp geoms rad = .ok sb ∧ sb.check (codeOps ch sq) = .ok () ∧
      ∀ s t, Joint sp s t → ∀ v, Made v → pointsOf v.intervals ⊆ pts sb.interOk s.id →
        ∃ sb', sb.chooseInterside (codeOps ch sq) s.id v true = .ok sb' := by
  have hg : ValidGeoms Geom2D.Fine geoms := fun n => (hb n).valid.1
  obtain ⟨sb, h⟩ := c110_created hch hsq hone sp hsp hsh hp geoms rad (by linarith) fun e _ => hb _
  exact ⟨sb, h, c46_passes hch hsq sp hsp hsh geoms hg rad hr (fun e _ => (hb _).valid.2) sb h,
    fun s t hj v hv hin => c46_choosable hch hsq sp hsp hsh hp geoms hg rad sb h s t hj v hv hin⟩

end

/-! ### Example -/

theorem geomsT_boxes (n : Name) : (geomsT n).Boxes := by
  refine ⟨Or.inr ⟨0, 0, 10, 8, 0, by norm_num, by norm_num, ?_⟩, Or.inr ⟨0, 0, 10, 8, 0, by norm_num, by norm_num, ?_⟩, thin_fine⟩ <;> rfl

/-- C110: two plates of 10 by 8 with a joint, for all orders of sets and dictionaries. -/
theorem c110_example (ch : Choices) (hch : ch.Valid) :
    ∃ sb, createSheetbuild (codeOps ch sqDemo) plex2 geomsT 1 = .ok sb ∧ sb.check (codeOps ch sqDemo) = .ok () := by
  obtain ⟨sb, h1, h2, -⟩ := c110_ready hch sqDemo_root (by unfold sqDemo; norm_num) plex2 plex2_paired plex2_sheeted plex2_proper geomsT 1 le_rfl geomsT_boxes
  exact ⟨sb, h1, h2⟩

end Ply
