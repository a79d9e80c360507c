import Verif.Props.Trace
import Verif.Props.BuildTotal
import Mathlib.MeasureTheory.Measure.Prod

/-!
# The material two cut sheets share in their joint (C87)

A point of the joint of two sheets is given by its place along the joint, its place across the joint in the first
sheet, and its place across the joint in the second.  For sheets at right angles these are Cartesian coordinates.
-/

namespace Ply

open MeasureTheory Set Geom1D Arr

/-- The point of the plane of a joint side at a place along and a place across the joint. -/
noncomputable def InterSide.place (s : InterSide) (x : ℝ × ℝ) : ℝ × ℝ :=
  ((x.1 + s.originOffset) * s.direction.1 + x.2 * s.normal.1, (x.1 + s.originOffset) * s.direction.2 + x.2 * s.normal.2)

/-- The places across a joint side. -/
def InterSide.across (s : InterSide) : Set ℝ := Icc (s.minNormalOffset : ℝ) s.maxNormalOffset

/-- The part of a joint, at the given places along it, where the material `A` of the first sheet meets the material
`B` of the second. -/
def overlap (s t : InterSide) (A B : Set (ℝ × ℝ)) (L : Set ℝ) : Set (ℝ × ℝ × ℝ) :=
  {x | x.1 ∈ L ∧ x.2.1 ∈ s.across ∧ x.2.2 ∈ t.across ∧ s.place (x.1, x.2.1) ∈ A ∧ t.place (x.1, x.2.2) ∈ B}

/-- The squared length of the direction of a joint side. -/
noncomputable def InterSide.scale (s : InterSide) : ℝ := (s.direction.1 : ℝ) ^ 2 + (s.direction.2 : ℝ) ^ 2

/-- The width of a joint side. -/
noncomputable def InterSide.wide (s : InterSide) : ℝ := s.maxNormalOffset - s.minNormalOffset

theorem InterSide.Proper.scale_pos {s : InterSide} (h : s.Proper) : 0 < s.scale := by
  unfold InterSide.scale
  exact_mod_cast dir_sq_pos h.dir

theorem across_volume (s : InterSide) : volume s.across = ENNReal.ofReal s.wide := Real.volume_Icc

theorem mem_strip (s : InterSide) (V : Set ℝ) (z : ℝ × ℝ) :
    z ∈ s.strip V ↔ ∃ x : ℝ × ℝ, x.1 ∈ V ∧ x.2 ∈ s.across ∧ z = s.place x := by
  constructor
  · rintro ⟨al, nc, h1, h2, h3, rfl⟩
    exact ⟨(al, nc), h1, ⟨h2, h3⟩, rfl⟩
  · rintro ⟨⟨al, nc⟩, h1, ⟨h2, h3⟩, rfl⟩
    exact ⟨al, nc, h1, h2, h3, rfl⟩

theorem place_injective {s : InterSide} (h : s.Proper) : Function.Injective s.place := by
  rintro ⟨a, n⟩ ⟨b, m⟩ hab
  have hp := h.scale_pos
  unfold InterSide.scale at hp
  unfold InterSide.place at hab
  rw [h.normal] at hab
  obtain ⟨h1, h2⟩ := Prod.mk.inj hab
  push_cast at h1 h2
  have k1 : (a - b) * ((s.direction.1 : ℝ) ^ 2 + (s.direction.2 : ℝ) ^ 2) = 0 := by
    linear_combination (s.direction.1 : ℝ) * h1 + (s.direction.2 : ℝ) * h2
  have k2 : (n - m) * ((s.direction.1 : ℝ) ^ 2 + (s.direction.2 : ℝ) ^ 2) = 0 := by
    linear_combination (s.direction.2 : ℝ) * h1 - (s.direction.1 : ℝ) * h2
  ext
  · exact sub_eq_zero.1 ((mul_eq_zero.1 k1).resolve_right hp.ne')
  · exact sub_eq_zero.1 ((mul_eq_zero.1 k2).resolve_right hp.ne')

theorem place_mem_strip {s : InterSide} (h : s.Proper) {V : Set ℝ} {x : ℝ × ℝ} (hx : s.place x ∈ s.strip V) :
    x.1 ∈ V := by
  obtain ⟨y, h1, -, h2⟩ := (mem_strip s V _).1 hx
  rw [place_injective h h2]
  exact h1

theorem haar_prod : (volume : Measure (ℝ × ℝ)).IsAddHaarMeasure := by
  rw [Measure.volume_eq_prod]
  exact Measure.prod.instIsAddHaarMeasure volume volume

/-- Joint coordinates scale the area. -/
theorem place_volume {s : InterSide} (h : s.Proper) (Z : Set (ℝ × ℝ)) :
    volume (s.place ⁻¹' Z) = ENNReal.ofReal (s.scale⁻¹) * volume Z := by
  have hp := h.scale_pos
  have hd : LinearMap.det s.lin = -s.scale := by
    unfold InterSide.lin InterSide.scale
    rw [LinearMap.det_toLin, Matrix.det_fin_two_of, h.normal]
    push_cast
    ring
  have e : s.place ⁻¹' Z = s.lin ⁻¹' ((fun z => ((s.originOffset * s.direction.1 : ℝ), (s.originOffset * s.direction.2 : ℝ)) + z) ⁻¹' Z) := by
    ext ⟨al, nc⟩
    simp only [mem_preimage, InterSide.lin, Matrix.toLin_finTwoProd_apply, Prod.mk_add_mk, InterSide.place]
    have : ∀ u v : ℝ × ℝ, u = v → (u ∈ Z ↔ v ∈ Z) := by rintro u v rfl; rfl
    refine this _ _ ?_
    ext <;> dsimp only <;> ring
  have := haar_prod
  rw [e, Measure.addHaar_preimage_linearMap _ (by rw [hd]; exact neg_ne_zero.2 hp.ne'), measure_preimage_add, hd, inv_neg,
    abs_neg, abs_of_pos (inv_pos.2 hp)]

/-- Flat solids: the base times the height, the height being the third coordinate. -/
theorem solid_third (Y : Set (ℝ × ℝ)) (M : Set ℝ) :
    volume {x : ℝ × ℝ × ℝ | (x.1, x.2.1) ∈ Y ∧ x.2.2 ∈ M} = volume Y * volume M := by
  have e : {x : ℝ × ℝ × ℝ | (x.1, x.2.1) ∈ Y ∧ x.2.2 ∈ M} = MeasurableEquiv.prodAssoc.symm ⁻¹' (Y ×ˢ M) := rfl
  rw [e, (volume_preserving_prodAssoc (α₁ := ℝ) (β₁ := ℝ) (γ₁ := ℝ)).symm.measure_preimage_equiv,
    Measure.volume_eq_prod, Measure.prod_prod]

/-- Flat solids: the base times the height, the height being the second coordinate. -/
theorem solid_second (Y : Set (ℝ × ℝ)) (M : Set ℝ) :
    volume {x : ℝ × ℝ × ℝ | (x.1, x.2.2) ∈ Y ∧ x.2.1 ∈ M} = volume Y * volume M := by
  have mp : MeasurePreserving (MeasurableEquiv.prodCongr (MeasurableEquiv.refl ℝ) (MeasurableEquiv.prodComm (α := ℝ) (β := ℝ)))
      (volume : Measure (ℝ × ℝ × ℝ)) volume := by
    have := (MeasurePreserving.id (volume : Measure ℝ)).prod (Measure.measurePreserving_swap (μ := (volume : Measure ℝ))
      (ν := (volume : Measure ℝ)))
    exact this
  rw [← solid_third Y M, ← mp.measure_preimage_equiv]
  rfl

/-- Almost every place of the joint has its point of the first sheet outside a null set. -/
theorem overlap_null_first {s : InterSide} (h : s.Proper) {Z : Set (ℝ × ℝ)} (hz : volume Z = 0) (M : Set ℝ) :
    volume {x : ℝ × ℝ × ℝ | s.place (x.1, x.2.1) ∈ Z ∧ x.2.2 ∈ M} = 0 := by
  rw [show {x : ℝ × ℝ × ℝ | s.place (x.1, x.2.1) ∈ Z ∧ x.2.2 ∈ M} = {x | (x.1, x.2.1) ∈ s.place ⁻¹' Z ∧ x.2.2 ∈ M} from rfl,
    solid_third, place_volume h, hz, mul_zero, zero_mul]

theorem overlap_first {s : InterSide} (h : s.Proper) (t : InterSide) (Z : Set (ℝ × ℝ)) :
    volume {x : ℝ × ℝ × ℝ | s.place (x.1, x.2.1) ∈ Z ∧ x.2.2 ∈ t.across} =
      ENNReal.ofReal (s.scale⁻¹) * volume Z * ENNReal.ofReal t.wide := by
  rw [show {x : ℝ × ℝ × ℝ | s.place (x.1, x.2.1) ∈ Z ∧ x.2.2 ∈ t.across} =
    {x | (x.1, x.2.1) ∈ s.place ⁻¹' Z ∧ x.2.2 ∈ t.across} from rfl, solid_third, place_volume h, across_volume]

theorem overlap_second {t : InterSide} (h : t.Proper) (s : InterSide) (Z : Set (ℝ × ℝ)) :
    volume {x : ℝ × ℝ × ℝ | t.place (x.1, x.2.2) ∈ Z ∧ x.2.1 ∈ s.across} =
      ENNReal.ofReal (t.scale⁻¹) * volume Z * ENNReal.ofReal s.wide := by
  rw [show {x : ℝ × ℝ × ℝ | t.place (x.1, x.2.2) ∈ Z ∧ x.2.1 ∈ s.across} =
    {x | (x.1, x.2.2) ∈ t.place ⁻¹' Z ∧ x.2.1 ∈ s.across} from rfl, solid_second, place_volume h, across_volume]

theorem overlap_along (s t : InterSide) (V : Set ℝ) :
    volume {x : ℝ × ℝ × ℝ | x.1 ∈ V ∧ x.2.1 ∈ s.across ∧ x.2.2 ∈ t.across} =
      volume V * (ENNReal.ofReal s.wide * ENNReal.ofReal t.wide) := by
  rw [show {x : ℝ × ℝ × ℝ | x.1 ∈ V ∧ x.2.1 ∈ s.across ∧ x.2.2 ∈ t.across} = V ×ˢ (s.across ×ˢ t.across) from rfl,
    Measure.volume_eq_prod, Measure.prod_prod, Measure.volume_eq_prod, Measure.prod_prod, across_volume, across_volume]

/-! ### What the steps do to the sheets -/

/-- The fingers chosen on the sides of a sheet. -/
def fingersOn (sb : SheetBuild Geom2D) (k : Name) : Set (ℝ × ℝ) :=
  {z | ∃ s, sb.sheetplex.interside s.id = .ok s ∧ s.sheet = k ∧ z ∈ s.strip (pts sb.interChosen s.id)}

/-- What a change may do: the chosen area grows only by allowed parts of chosen fingers, the allowed area shrinks. -/
structure Grow (sb sb' : SheetBuild Geom2D) : Prop where
  step : Step sb sb'
  good : Good Geom2D.Fine sb'
  less : ∀ k, ∀ᵐ z : ℝ × ℝ, z ∈ dens Geom2D.region sb'.sheetOk k → z ∈ dens Geom2D.region sb.sheetOk k
  more : ∀ k, ∀ᵐ z : ℝ × ℝ, z ∈ dens Geom2D.region sb.sheetChosen k → z ∈ dens Geom2D.region sb'.sheetChosen k
  added : ∀ k, ∀ᵐ z : ℝ × ℝ, z ∈ dens Geom2D.region sb'.sheetChosen k → z ∈ dens Geom2D.region sb.sheetChosen k ∨
    (z ∈ dens Geom2D.region sb.sheetOk k ∧ z ∈ fingersOn sb' k)
  fill : ∀ k, ∀ᵐ z : ℝ × ℝ, z ∈ fingersOn sb' k → z ∈ dens Geom2D.region sb'.sheetOk k →
    z ∈ dens Geom2D.region sb'.sheetChosen k ∨ z ∈ fingersOn sb k

theorem Grow.refl {sb : SheetBuild Geom2D} (he : Excl sb) (hg : Good Geom2D.Fine sb) : Grow sb sb :=
  ⟨Step.refl he, hg, fun _ => Filter.Eventually.of_forall fun _ hx => hx,
    fun _ => Filter.Eventually.of_forall fun _ hx => hx, fun _ => Filter.Eventually.of_forall fun _ hx => Or.inl hx,
    fun _ => Filter.Eventually.of_forall fun _ hx _ => Or.inr hx⟩

theorem fingersOn_mono {a b : SheetBuild Geom2D} (h : Step a b) (k : Name) : fingersOn a k ⊆ fingersOn b k := by
  rintro z ⟨s, h1, h2, h3⟩
  exact ⟨s, by rw [h.plex]; exact h1, h2, strip_mono s (h.chosen s.id) h3⟩

theorem Grow.trans {a b c : SheetBuild Geom2D} (h : Grow a b) (h' : Grow b c) : Grow a c where
  step := h.step.trans h'.step
  good := h'.good
  less k := by filter_upwards [h.less k, h'.less k] with z z1 z2 hz using z1 (z2 hz)
  more k := by filter_upwards [h.more k, h'.more k] with z z1 z2 hz using z2 (z1 hz)
  added k := by
    filter_upwards [h.added k, h'.added k, h.less k] with z z1 z2 z3 hz
    rcases z2 hz with hz | ⟨hz, hf⟩
    · rcases z1 hz with hz | ⟨hz, hf⟩
      · exact Or.inl hz
      · exact Or.inr ⟨hz, fingersOn_mono h'.step k hf⟩
    · exact Or.inr ⟨z3 hz, hf⟩
  fill k := by
    filter_upwards [h.fill k, h'.fill k, h'.less k, h'.more k] with z z1 z2 z3 z4 hz ho
    rcases z2 hz ho with hz | hz
    · exact Or.inl hz
    · exact (z1 hz (z3 ho)).imp_left z4

/-- A change of the allowed areas and stretches only. -/
theorem Grow.of_less {sb sb' : SheetBuild Geom2D} (h : Step sb sb') (hg : Good Geom2D.Fine sb')
    (hc : sb'.sheetChosen = sb.sheetChosen) (hi : ∀ k, pts sb'.interChosen k = pts sb.interChosen k)
    (hl : ∀ k, ∀ᵐ z : ℝ × ℝ, z ∈ dens Geom2D.region sb'.sheetOk k → z ∈ dens Geom2D.region sb.sheetOk k) : Grow sb sb' :=
  ⟨h, hg, hl, fun k => by rw [hc]; exact Filter.Eventually.of_forall fun _ hx => hx,
    fun k => by rw [hc]; exact Filter.Eventually.of_forall fun _ hx => Or.inl hx,
    fun k => Filter.Eventually.of_forall fun z ⟨s, h1, h2, h3⟩ _ =>
      Or.inr ⟨s, by rw [← h.plex]; exact h1, h2, by rw [← hi]; exact h3⟩⟩

section

variable {ch : Choices} {sq : ℚ → ℚ} (hch : ch.Valid) (hsq : RootLike sq)
include hch

omit hch in
theorem code_project : ProjectMade (codeOps ch sq) := geom2d_projectMade _ _

theorem Grow.choose {sb sb' : SheetBuild Geom2D} (he : Excl sb) (hg : Good Geom2D.Fine sb) (hp : sb.sheetplex.SidesProper)
    {id : Name × Name} {v : Geom1D} (hv : Made v)
    (h : sb.chooseInterside (codeOps ch sq) id v false = .ok sb') : Grow sb sb' := by
  have L := fine_lawful ch hch (Geom2D.bufferBy (arrangementOp ch) sq)
  obtain ⟨g1, -, -, -, g5, g6⟩ := op_2d L sb sb' hg (.choose id v false) hv hv h
  obtain ⟨s, t, hef⟩ := choose_effect _ sb sb' hg.madeC hg.madeO id v hv false h
  have hid := (interside_spec _ hg.paired id s hef.here).1
  rcases hef.sheetChosen with ⟨e, -⟩ | ⟨f, k', fk, e1, e2, e3, e4⟩
  · cases e
  obtain ⟨d1, d2⟩ := L.and f k' fk (L.fingers s v f hv e1) (hg.validO _ _ e2) e3
  obtain ⟨-, j2, j3⟩ := orGeom_2d L sb.sheetChosen sb'.sheetChosen hg.validC s.sheet fk d1 e4
  have hf := c37_area ch hch s (hp _ _ hef.here) v hv f e1
  refine ⟨Step.choose he hv h, g1, g6, g5, fun k => ?_, fun k => ?_⟩
  · by_cases hk : k = s.sheet
    · subst hk
      filter_upwards [j2, d2, hf] with z z1 z2 z3 hz
      rcases z1.1 hz with hz | hz
      · exact Or.inl hz
      · obtain ⟨y1, y2⟩ := z2.1 hz
        refine Or.inr ⟨by unfold dens; rw [e2]; exact y2, s, by rw [hef.plex, hid]; exact hef.here, rfl, ?_⟩
        refine strip_mono s ?_ (z3.1 y1)
        rw [hef.chosen, if_pos hid]
        exact subset_union_right
    · unfold dens
      rw [j3 k hk]
      exact Filter.Eventually.of_forall fun _ hx => Or.inl hx
  · filter_upwards [j2, d2, hf, g6 k] with z z1 z2 z3 z4
    rintro ⟨s', k1, k2, k3⟩ hok
    rw [hef.plex] at k1
    rw [hef.chosen] at k3
    split_ifs at k3 with hi
    · rw [hi, hef.here] at k1
      cases k1
      subst k2
      rw [strip_union] at k3
      rcases k3 with k3 | k3
      · exact Or.inr ⟨s, by rw [hid]; exact hef.here, rfl, k3⟩
      · refine Or.inl (z1.2 (Or.inr (z2.2 ⟨z3.2 k3, ?_⟩)))
        have := z4 hok
        unfold dens at this
        rw [e2] at this
        exact this
    · exact Or.inr ⟨s', k1, k2, k3⟩

include hsq

theorem Grow.prim {geoms : Name → SheetGeoms Geom2D} (hgm : ValidGeoms Geom2D.Fine geoms) {sb sb' : SheetBuild Geom2D}
    (he : Excl sb) (hg : Good Geom2D.Fine sb) (hp : sb.sheetplex.SidesProper) (h : Prim (codeOps ch sq) geoms sb sb') :
    Grow sb sb' := by
  have st := h.step code_project he
  cases h with
  | choose id v hv h => exact Grow.choose hch he hg hp hv h
  | unchoose id v hv h =>
    obtain ⟨h1, h2, h3, h4, h5, -⟩ := unchoose_effect sb sb' hg.paired hg.madeC hg.madeO id v hv h
    refine Grow.of_less st ⟨by rw [h1]; exact hg.paired, by rw [h4]; exact hg.madeC, h5, by rw [h2]; exact hg.validC,
      by rw [h3]; exact hg.validO⟩ h2 (fun k => by rw [h4]) fun k => ?_
    rw [h3]
    exact Filter.Eventually.of_forall fun _ hx => hx
  | loose e h =>
    have s := c52_loose_fine hch geoms hgm e sb sb' hg h
    have o := looseSheet_only h
    unfold OnlySheetOk at o
    exact Grow.of_less st s.good (by rw [o]) (fun k => by rw [o]) s.less
  | inter s h =>
    obtain ⟨h1, h2, -⟩ := interOkAt_effect code_project sb sb' hg.madeO s h
    refine Grow.of_less st ⟨by rw [h1]; exact hg.paired, by rw [h1]; exact hg.madeC, h2, by rw [h1]; exact hg.validC,
      by rw [h1]; exact hg.validO⟩ (by rw [h1]) (fun k => by rw [h1]) fun k => ?_
    rw [h1]
    exact Filter.Eventually.of_forall fun _ hx => hx
  | sheet e h =>
    have o := sheetOkAt_only h
    have L := fine_lawful ch hch (Geom2D.bufferBy (arrangementOp ch) sq)
    have hs := h
    unfold Heu.sheetOkAt at hs
    rw [bind_ok] at hs; obtain ⟨r, a1, hs⟩ := hs
    rw [bind_ok] at hs; obtain ⟨d, a2, hs⟩ := hs
    rw [bind_ok] at hs; obtain ⟨bf, a3, hs⟩ := hs
    rw [bind_ok] at hs; obtain ⟨c, a4, hs⟩ := hs
    rw [bind_ok] at hs; obtain ⟨w, a5, hs⟩ := hs
    obtain ⟨v1, v2⟩ := onSides_valid L sb hg _ _ _ r L.empty.1 L.empty.1 a1
    have vb := code_buffer hch hsq _ _ _ (L.sub _ _ _ v1 v2 a2).1 a3
    rw [PMap.get_ok] at a4
    have vw := (L.sub _ _ _ vb (hg.validC _ _ a4) a5).1
    obtain ⟨o1, -, -, -, -, o6⟩ := op_2d L sb sb' hg (.unchooseArea e.2.id w) vw trivial hs
    unfold OnlySheetOk at o
    exact Grow.of_less st o1 (by rw [o]) (fun k => by rw [o]) o6

theorem Grow.trace {geoms : Name → SheetGeoms Geom2D} (hgm : ValidGeoms Geom2D.Fine geoms) {sb sb' : SheetBuild Geom2D}
    (he : Excl sb) (hg : Good Geom2D.Fine sb) (hp : sb.sheetplex.SidesProper) (h : Trace (codeOps ch sq) geoms sb sb') :
    Grow sb sb' := by
  induction h with
  | refl => exact Grow.refl he hg
  | tail _ h ih => exact ih.trans (Grow.prim hch hsq hgm ih.step.inv ih.good (by rw [ih.step.plex]; exact hp) h)

end

end Ply
