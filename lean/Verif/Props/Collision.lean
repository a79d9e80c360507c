import Verif.Props.Space
import Verif.Props.Fit
import Mathlib.LinearAlgebra.Determinant
import Mathlib.LinearAlgebra.Matrix.Determinant.Basic

/-!
# How much material two cut sheets share in space (C90)
-/

namespace Ply

open Spec MeasureTheory Set Geom1D Arr

/-! ### Volumes -/

/-- The three coordinates of a point of space. -/
def triple : (ℝ × ℝ × ℝ) ≃ₗ[ℝ] (Fin 3 → ℝ) where
  toFun x := ![x.1, x.2.1, x.2.2]
  invFun f := (f 0, f 1, f 2)
  map_add' x y := by ext i; fin_cases i <;> rfl
  map_smul' r x := by ext i; fin_cases i <;> rfl
  left_inv x := rfl
  right_inv f := by ext i; fin_cases i <;> rfl

theorem triple_0 (x : V3) : triple x 0 = x.1 := rfl

theorem triple_1 (x : V3) : triple x 1 = x.2.1 := rfl

theorem triple_2 (x : V3) : triple x 2 = x.2.2 := rfl

theorem triple_symm (f : Fin 3 → ℝ) : triple.symm f = (f 0, f 1, f 2) := rfl

/-- The usual basis of space. -/
noncomputable def basis3 : Module.Basis (Fin 3) ℝ (ℝ × ℝ × ℝ) := Module.Basis.ofEquivFun triple

theorem basis3_repr (x : V3) (i : Fin 3) : basis3.repr x i = triple x i := by
  unfold basis3
  rw [Module.Basis.ofEquivFun_repr_apply]

theorem basis3_0 : basis3 0 = (1, 0, 0) := by
  unfold basis3
  simp [triple_symm]

theorem basis3_1 : basis3 1 = (0, 1, 0) := by
  unfold basis3
  simp [triple_symm]

theorem basis3_2 : basis3 2 = (0, 0, 1) := by
  unfold basis3
  simp [triple_symm]

/-- Coordinates along three vectors. -/
def coords (u v w : V3) : V3 →ₗ[ℝ] V3 where
  toFun x := (dot3 u x, dot3 v x, dot3 w x)
  map_add' x y := by simp only [dot3_add]; rfl
  map_smul' r x := by simp only [dot3_smul]; rfl

theorem coords_det (u v w : V3) : LinearMap.det (coords u v w) =
    u.1 * v.2.1 * w.2.2 - u.1 * v.2.2 * w.2.1 - u.2.1 * v.1 * w.2.2 + u.2.1 * v.2.2 * w.1 + u.2.2 * v.1 * w.2.1
      - u.2.2 * v.2.1 * w.1 := by
  rw [← LinearMap.det_toMatrix basis3, Matrix.det_fin_three]
  simp only [LinearMap.toMatrix_apply, basis3_repr, basis3_0, basis3_1, basis3_2, triple_0, triple_1, triple_2]
  simp [coords, dot3]

theorem haar_space : (volume : Measure V3).IsAddHaarMeasure := by
  have := haar_prod
  rw [Measure.volume_eq_prod]
  exact Measure.prod.instIsAddHaarMeasure volume volume

/-- The square of the volume of a box with edges `u`, `v`, `w`. -/
theorem gram (u v w : V3) : LinearMap.det (coords u v w) ^ 2 =
    dot3 u u * (dot3 v v * dot3 w w - dot3 v w ^ 2) - dot3 u v * (dot3 u v * dot3 w w - dot3 v w * dot3 u w) +
      dot3 u w * (dot3 u v * dot3 v w - dot3 v v * dot3 u w) := by
  rw [coords_det]
  unfold dot3
  ring

section

variable {a b : Plate} (ha : a.Sound) (hb : b.Sound) {l : Line3} (h : Crossing a b l)

include ha hb h

/-- The volume of the box along the joint and across it in both sheets. -/
theorem joint_det : |LinearMap.det (coords l.direction (a.lean l.direction) (b.lean l.direction))| =
    norm3 (cross3 a.plane b.plane) := by
  have fa := lean_frame ha h.unit h.first
  have fb := lean_frame hb h.unit h.second
  have g := gram l.direction (a.lean l.direction) (b.lean l.direction)
  have a1 : dot3 (a.lean l.direction) (a.lean l.direction) = 1 := fa.vv
  have b1 : dot3 (b.lean l.direction) (b.lean l.direction) = 1 := fb.vv
  have a2 : dot3 l.direction (a.lean l.direction) = 0 := fa.uv
  have b2 : dot3 l.direction (b.lean l.direction) = 0 := fb.uv
  have b3 : dot3 (b.lean l.direction) b.plane = 0 := fb.vw
  have e1 := frame_dot fa (b.lean l.direction) (b.lean l.direction)
  have e2 := frame_dot fa (b.lean l.direction) b.plane
  have sq := lean_sq ha h.unit h.first h.second hb.frame'.ww
  rw [b1, b2] at e1
  rw [b3, b2] at e2
  rw [h.unit, a1, b1, a2, b2] at g
  have key : dot3 (a.lean l.direction) (b.lean l.direction) ^ 2 = dot3 a.plane b.plane ^ 2 := by
    linear_combination (-dot3 (a.lean l.direction) (b.lean l.direction) ^ 2) * sq
      - dot3 a.plane b.plane ^ 2 * e1
      - (dot3 (a.lean l.direction) (b.lean l.direction) * dot3 (a.lean l.direction) b.plane
        - dot3 a.plane (b.lean l.direction) * dot3 a.plane b.plane) * e2
  rw [← abs_of_pos h.pos, ← sq_eq_sq_iff_abs_eq_abs, h.angle, g, ← key]
  ring

theorem coords_volume (Z : Set V3) :
    volume (coords l.direction (a.lean l.direction) (b.lean l.direction) ⁻¹' Z) =
      ENNReal.ofReal (norm3 (cross3 a.plane b.plane))⁻¹ * volume Z := by
  have := haar_space
  have hd := joint_det ha hb h
  rw [Measure.addHaar_preimage_linearMap, abs_inv, hd]
  intro h0
  rw [h0, abs_zero] at hd
  exact absurd h.pos (by rw [← hd]; exact lt_irrefl _)

end

section

variable {a b : Plate} (ha : a.Sound) (hb : b.Sound) {l : Line3} (hl : createLine a b = some l) {s t : InterSide}
  (hs : s.Exact a l) (ht : t.Exact b l) (A B : Set (ℝ × ℝ)) (L : Set ℝ)

include ha hb hl hs ht

theorem collide_subset : a.solid A ∩ b.solid B ∩ {x | dot3 l.direction x ∈ L} ⊆
    coords l.direction (a.lean l.direction) (b.lean l.direction) ⁻¹' overlap s t A B L := by
  obtain ⟨h, -⟩ := line_crossing ha hb hl
  rintro x ⟨⟨hx, hy⟩, hxl⟩
  refine ⟨hxl, exact_across ha hb h hs hx.1 hy.1, exact_across hb ha h.symm' (Exact.symm' ht) hy.1 hx.1, ?_, ?_⟩
  · show s.place (dot3 l.direction x, dot3 (a.lean l.direction) x) ∈ A
    rw [← exact_place ha h hs]
    exact hx.2
  · show t.place (dot3 l.direction x, dot3 (b.lean l.direction) x) ∈ B
    rw [← exact_place hb h.symm' (Exact.symm' ht)]
    exact hy.2

/-- C90: the solids cut from two sheets share no more volume than the joint coordinates tell. -/
theorem c90_volume : volume (a.solid A ∩ b.solid B ∩ {x | dot3 l.direction x ∈ L}) ≤
    ENNReal.ofReal (Real.sqrt (1 - dot3 a.plane b.plane ^ 2))⁻¹ * volume (overlap s t A B L) := by
  obtain ⟨h, -⟩ := line_crossing ha hb hl
  have e1 : norm3 (cross3 a.plane b.plane) = Real.sqrt (1 - dot3 a.plane b.plane ^ 2) := by
    rw [← h.angle, Real.sqrt_sq h.pos.le]
  rw [← e1, ← coords_volume ha hb h]
  exact measure_mono (collide_subset ha hb hl hs ht A B L)

/-- C90 for sheets at right angles: the volume in joint coordinates is the volume in space. -/
theorem c90_square (hsq : dot3 a.plane b.plane = 0) :
    volume (a.solid A ∩ b.solid B ∩ {x | dot3 l.direction x ∈ L}) = volume (overlap s t A B L) := by
  obtain ⟨h, -⟩ := line_crossing ha hb hl
  have e1 : norm3 (cross3 a.plane b.plane) = 1 := by
    have := h.angle
    rw [hsq] at this
    nlinarith [h.pos]
  have e2 := coords_volume ha hb h (overlap s t A B L)
  rw [e1, inv_one, ENNReal.ofReal_one, one_mul] at e2
  rw [← e2]
  congr 1
  refine Subset.antisymm (collide_subset ha hb hl hs ht A B L) ?_
  rintro x ⟨hxl, hu, hv, hA, hB⟩
  obtain ⟨y, y1, y2, y3, y4⟩ := c89_square ha hb hl hs ht hsq _ _ _ hu hv
  have e3 : a.project x = a.project y := by rw [y3, exact_place ha h hs]; rfl
  have e4 : b.project x = b.project y := by rw [y4, exact_place hb h.symm' (Exact.symm' ht)]; rfl
  have : x = y := c89_unique ha hb hl hs ht e3 e4
  subst this
  refine ⟨⟨⟨y1, ?_⟩, y2, ?_⟩, hxl⟩
  · show a.project x ∈ A
    rw [y3]
    exact hA
  · show b.project x ∈ B
    rw [y4]
    exact hB

end

/-! ### Sheetplexes -/

/-- Where the sheets of a sheetplex are in space: each joint has the numbers of the line where its sheets cross. -/
structure Placed (sp : SheetPlex) (plates : Name → Plate) : Prop where
  sound : ∀ e ∈ sp.sheets, (plates e.2.id).Sound
  joint : ∀ s t, Joint sp s t → ∃ l, s.Exact (plates s.sheet) l ∧ t.Exact (plates t.sheet) l ∧
    (createLine (plates s.sheet) (plates t.sheet) = some l ∨ createLine (plates t.sheet) (plates s.sheet) = some l)

/-- `create_sheetplex` gets exact numbers: those of the line where two sheets cross, or none if there is none. -/
def GeoExact (geo : Sheet → Sheet → Option JointNums) (plates : Name → Plate) (sheets : List Sheet) : Prop :=
  ∀ x ∈ sheets, ∀ y ∈ sheets, match createLine (plates x.id) (plates y.id) with
    | none => geo x y = none
    | some l => ∃ nums, geo x y = some nums ∧ nums.Exact (plates x.id) l 0 ∧ nums.Exact (plates y.id) l 1

/-- Exact numbers meet the assumption of `c40_pairs`: whether two sheets cross does not depend on their order. -/
theorem geo_symm {geo : Sheet → Sheet → Option JointNums} {plates : Name → Plate} {sheets : List Sheet}
    (hg : GeoExact geo plates sheets) (hs : ∀ x ∈ sheets, (plates x.id).Sound) :
    ∀ x ∈ sheets, ∀ y ∈ sheets, (geo x y).isSome = (geo y x).isSome := by
  have key : ∀ x ∈ sheets, ∀ y ∈ sheets, (geo x y).isSome = (createLine (plates x.id) (plates y.id)).isSome := by
    intro x hx y hy
    have := hg x hx y hy
    cases hl : createLine (plates x.id) (plates y.id) with
    | none => rw [hl] at this; rw [this]; rfl
    | some l =>
      rw [hl] at this
      obtain ⟨nums, h1, -⟩ := this
      rw [h1]
      rfl
  intro x hx y hy
  rw [key x hx y hy, key y hy x hx, (c89_crosses (hs x hx) (hs y hy)).2]

/-- The intersections that `create_intersections` makes. -/
theorem fold_made (geo : Sheet → Sheet → Option JointNums) (ps : List (Sheet × Sheet)) (sp : SheetPlex)
    (P : Name × Intersection → Prop) (h : ∀ e ∈ sp.intersections, P e)
    (hp : ∀ e ∈ ps, ∀ nums, geo e.1 e.2 = some nums →
      P (intersectionId e.1.id e.2.id, ⟨intersectionId e.1.id e.2.id,
        [createInterSide nums (intersectionId e.1.id e.2.id) e.1 0, createInterSide nums (intersectionId e.1.id e.2.id) e.2 1]⟩)) :
    ∀ e ∈ (ps.foldl (fun sp e => createIntersection geo sp e.1 e.2) sp).intersections, P e := by
  induction ps generalizing sp with
  | nil => exact h
  | cons a ps ih =>
    rw [List.foldl_cons]
    refine ih _ ?_ fun e he => hp e (by simp [he])
    intro e he
    unfold createIntersection at he
    cases hg : geo a.1 a.2 with
    | none => rw [hg] at he; exact h e he
    | some nums =>
      rw [hg] at he
      rcases PMap.mem_set _ _ _ _ he with rfl | he
      · exact hp a (by simp) nums hg
      · exact h e he

theorem joint_sides {sp : SheetPlex} (hsp : sp.Paired) {s t : InterSide} (hj : Joint sp s t) :
    ∃ e ∈ sp.intersections, e.2.sides = [s, t] ∨ e.2.sides = [t, s] := by
  obtain ⟨h, ho⟩ := hj
  unfold SheetPlex.interside at h
  rw [bind_ok] at h
  obtain ⟨inter, hi, h⟩ := h
  rw [bind_ok] at h
  obtain ⟨t0, h0, h⟩ := h
  have hm := PMap.mem_of_get _ _ _ hi
  obtain ⟨h1, s0, s1, h2, h3, h4, h5, h6⟩ := hsp.2 _ hm
  dsimp only at h1 h2 h6
  rw [h2, (pyIndex_two s0 s1).1] at h0
  cases h0
  unfold InterSide.opposite at ho
  split_ifs at h with hc
  · cases h
    rw [(h6 s (by simp)).1, hi] at ho
    change pyIndex inter.sides (1 - (s.idx : ℤ)) = _ at ho
    rw [h3, h2, show (1 : ℤ) - ((0 : ℕ) : ℤ) = 1 from rfl, (pyIndex_two s s1).2] at ho
    cases ho
    exact ⟨_, hm, Or.inl h2⟩
  · rw [bind_ok] at h
    obtain ⟨t1, h1', h⟩ := h
    rw [h2, (pyIndex_two t0 s1).2] at h1'
    cases h1'
    split_ifs at h with hc'
    cases h
    rw [(h6 s (by simp)).1, hi] at ho
    change pyIndex inter.sides (1 - (s.idx : ℤ)) = _ at ho
    rw [h4, h2, show (1 : ℤ) - ((1 : ℕ) : ℤ) = 0 from rfl, (pyIndex_two t0 s).1] at ho
    cases ho
    exact ⟨_, hm, Or.inr h2⟩

/-- The sheets of a created sheetplex are where they were given. -/
theorem create_placed {geo : Sheet → Sheet → Option JointNums} {plates : Name → Plate} {sheets : List Sheet}
    (hd : (sheets.map Sheet.id).Nodup) (hg : GeoExact geo plates sheets) (hs : ∀ x ∈ sheets, (plates x.id).Sound) :
    (createSheetplex geo sheets).Paired ∧ (createSheetplex geo sheets).Sheeted ∧
      Placed (createSheetplex geo sheets) plates := by
  obtain ⟨h1, h2, h3⟩ := create_paired geo sheets hd
  have hn : sheets.Nodup := hd.of_map _
  have key : ∀ e ∈ (createSheetplex geo sheets).intersections, ∃ x ∈ sheets, ∃ y ∈ sheets, ∃ nums l id,
      createLine (plates x.id) (plates y.id) = some l ∧ nums.Exact (plates x.id) l 0 ∧ nums.Exact (plates y.id) l 1 ∧
      e.2.sides = [createInterSide nums id x 0, createInterSide nums id y 1] := by
    unfold createSheetplex
    rw [createOuter_eq]
    refine fold_made geo _ _ _ (by simp) fun e he nums hnums => ?_
    obtain ⟨m1, m2, -⟩ := mem_pairs sheets hn e he
    have hge := hg _ m1 _ m2
    cases hl : createLine (plates e.1.id) (plates e.2.id) with
    | none =>
      rw [hl] at hge
      rw [hge] at hnums
      cases hnums
    | some l =>
      rw [hl] at hge
      obtain ⟨nums', n1, n2, n3⟩ := hge
      rw [n1] at hnums
      cases hnums
      exact ⟨_, m1, _, m2, nums, l, _, hl, n2, n3, rfl⟩
  have hsp : (createSheetplex geo sheets).Paired := ⟨h2, h3⟩
  refine ⟨hsp, ⟨?_, fun id s h => ?_⟩, ⟨fun e he => ?_, fun s t hj => ?_⟩⟩
  · rw [h1, List.map_map]
    exact hd
  · obtain ⟨hid, t, ht, -⟩ := interside_spec _ hsp id s h
    obtain ⟨e, he, hst⟩ := joint_sides hsp (s := s) (t := t) ⟨by rw [hid]; exact h, ht⟩
    obtain ⟨x, hx, y, hy, nums, l, i, -, -, -, hsd⟩ := key e he
    rw [hsd] at hst
    rw [h1]
    rcases hst with hst | hst <;> rw [List.cons.injEq, List.cons.injEq] at hst
    · exact ⟨(x.id, x), List.mem_map_of_mem hx, by rw [← hst.1]; rfl⟩
    · exact ⟨(y.id, y), List.mem_map_of_mem hy, by rw [← hst.2.1]; rfl⟩
  · rw [h1] at he
    obtain ⟨x, hx, rfl⟩ := List.mem_map.1 he
    exact hs x hx
  · obtain ⟨e, he, hst⟩ := joint_sides hsp hj
    obtain ⟨x, hx, y, hy, nums, l, i, hl, e1, e2, hsd⟩ := key e he
    rw [hsd] at hst
    rcases hst with hst | hst <;> rw [List.cons.injEq, List.cons.injEq] at hst <;> obtain ⟨rfl, rfl, -⟩ := hst
    · exact ⟨l, exact_create e1 i x, exact_create e2 i y, Or.inl hl⟩
    · exact ⟨l, exact_create e2 i y, exact_create e1 i x, Or.inr hl⟩

theorem Placed.sounds {sp : SheetPlex} {plates : Name → Plate} (h : Placed sp plates) (hsp : sp.Paired) (hsh : sp.Sheeted)
    {s t : InterSide} (hj : Joint sp s t) : (plates s.sheet).Sound ∧ (plates t.sheet).Sound := by
  obtain ⟨e, he, h1⟩ := hsh.known _ s hj.1
  obtain ⟨f, hf, h2⟩ := hsh.known _ t (hj.symm hsp).1.1
  exact ⟨h1 ▸ h.sound e he, h2 ▸ h.sound f hf⟩

/-- C89 for a sheetplex: its joint sides are fit for the later steps. -/
theorem Placed.proper {sp : SheetPlex} {plates : Name → Plate} (h : Placed sp plates) (hsp : sp.Paired) (hsh : sp.Sheeted) :
    sp.SidesProper := by
  intro id s hs
  obtain ⟨hid, t, ht, -⟩ := interside_spec _ hsp id s hs
  have hj : Joint sp s t := ⟨by rw [hid]; exact hs, ht⟩
  obtain ⟨s1, s2⟩ := h.sounds hsp hsh hj
  obtain ⟨l, e1, e2, hl | hl⟩ := h.joint s t hj
  · exact (c89_numbers s1 s2 hl e1 e2).1
  · exact (c89_numbers s2 s1 hl e2 e1).2.1

/-- The material shared in space, for whichever sheet comes first. -/
theorem Placed.volume_le {sp : SheetPlex} {plates : Name → Plate} (h : Placed sp plates) (hsp : sp.Paired) (hsh : sp.Sheeted)
    {s t : InterSide} (hj : Joint sp s t) : s.scale = 1 ∧ t.scale = 1 ∧ ∃ d : V3, inner d d = 1 ∧
      inner (plates s.sheet).plane d = 0 ∧ inner (plates t.sheet).plane d = 0 ∧ ∀ A B L,
      volume ((plates s.sheet).solid A ∩ (plates t.sheet).solid B ∩ {x | inner d x ∈ L}) ≤
        ENNReal.ofReal (Real.sqrt (1 - inner (plates s.sheet).plane (plates t.sheet).plane ^ 2))⁻¹ *
          volume (overlap s t A B L) := by
  obtain ⟨s1, s2⟩ := h.sounds hsp hsh hj
  obtain ⟨l, e1, e2, hl | hl⟩ := h.joint s t hj
  · obtain ⟨-, -, n1, n2, -⟩ := c89_numbers s1 s2 hl e1 e2
    obtain ⟨hc, -⟩ := line_crossing s1 s2 hl
    exact ⟨n1, n2, l.direction, hc.unit, hc.first, hc.second, c90_volume s1 s2 hl e1 e2⟩
  · obtain ⟨-, -, n1, n2, -⟩ := c89_numbers s2 s1 hl e2 e1
    obtain ⟨hc, -⟩ := line_crossing s2 s1 hl
    refine ⟨n2, n1, l.direction, hc.unit, hc.second, hc.first, fun A B L => ?_⟩
    have := c90_volume s2 s1 hl e2 e1 B A L
    rw [inter_comm ((plates s.sheet).solid A), inner_eq, dot3_comm]
    refine this.trans (mul_le_mul_right (le_of_eq ?_) _)
    have mp : MeasurePreserving (MeasurableEquiv.prodCongr (MeasurableEquiv.refl ℝ) (MeasurableEquiv.prodComm (α := ℝ) (β := ℝ)))
        (volume : Measure (ℝ × ℝ × ℝ)) volume := by
      have := (MeasurePreserving.id (volume : Measure ℝ)).prod (Measure.measurePreserving_swap (μ := (volume : Measure ℝ))
        (ν := (volume : Measure ℝ)))
      exact this
    rw [← mp.measure_preimage_equiv]
    congr 1
    ext x
    constructor
    · rintro ⟨k1, k2, k3, k4, k5⟩
      exact ⟨k1, k3, k2, k5, k4⟩
    · rintro ⟨k1, k2, k3, k4, k5⟩
      exact ⟨k1, k3, k2, k5, k4⟩

/-! ### Successful runs -/

section

variable {ch : Choices} {sq : ℚ → ℚ} (hch : ch.Valid) (hsq : RootLike sq)
  (p : Canned.Params Geom2D) (ho : p.o = codeOps ch sq) (hp : p.Valid) (hgm : ValidGeoms Geom2D.Fine p.geoms)
  (sp : SheetPlex) (hsp : sp.Paired) (hsh : sp.Sheeted) (plates : Name → Plate) (hpl : Placed sp plates) (rof : Option Bool)
  (r : Canned.Result Geom2D) (h : Canned.run p sp none rof = .ok r) (hr : r.ok = true)
include hch hsq ho hp hgm hsp hsh hpl h hr

/-- C90: the solids that a successful run cuts from two crossing sheets share next to no volume, the fingers of their
other joints left aside. -/
theorem c90_run (hrad : 1 ≤ p.supportRadius)
    (hn : ∀ e ∈ sp.sheets, (p.geoms e.2.id).face0.NoIslands ∧ (p.geoms e.2.id).face1.NoIslands)
    (s t : InterSide) (hj : Joint sp s t) : ∃ d : V3, inner d d = 1 ∧ inner (plates s.sheet).plane d = 0 ∧
      inner (plates t.sheet).plane d = 0 ∧
    volume ((plates s.sheet).solid (dens Geom2D.region r.sheetCuts s.sheet \ otherFingers r.sheetbuild s) ∩
      (plates t.sheet).solid (dens Geom2D.region r.sheetCuts t.sheet \ otherFingers r.sheetbuild t) ∩
      {x | inner d x ∈ Ico (-1000) 1000}) ≤
    ENNReal.ofReal (tol7 * (s.wide * t.wide) /
      Real.sqrt (1 - inner (plates s.sheet).plane (plates t.sheet).plane ^ 2)) := by
  obtain ⟨h1, h2, d, d1, d2, d3, hv⟩ := hpl.volume_le hsp hsh hj
  have hw := c87_whole hch hsq p ho hp hgm sp hsp hsh (hpl.proper hsp hsh) rof r h hr hrad hn s t hj h1 h2
  refine ⟨d, d1, d2, d3, (hv _ _ _).trans ?_⟩
  rw [div_eq_inv_mul, ENNReal.ofReal_mul (inv_nonneg.2 (Real.sqrt_nonneg _))]
  exact mul_le_mul_right hw.le _

/-- C90 where the joint is decided, fingers of other joints included. -/
theorem c90_decided (s t : InterSide) (hj : Joint sp s t) : ∃ d : V3, inner d d = 1 ∧ inner (plates s.sheet).plane d = 0 ∧
      inner (plates t.sheet).plane d = 0 ∧
    volume ((plates s.sheet).solid (dens Geom2D.region r.sheetCuts s.sheet) ∩
      (plates t.sheet).solid (dens Geom2D.region r.sheetCuts t.sheet) ∩
      {x | inner d x ∈ pts r.sheetbuild.interChosen s.id ∪ pts r.sheetbuild.interChosen t.id}) ≤
    ENNReal.ofReal ((tol3 * (t.wide + s.wide) + 2 * tol7 * (s.wide * t.wide)) /
      Real.sqrt (1 - inner (plates s.sheet).plane (plates t.sheet).plane ^ 2)) := by
  obtain ⟨h1, h2, d, d1, d2, d3, hv⟩ := hpl.volume_le hsp hsh hj
  have hw := c87_decided hch hsq p ho hp hgm sp hsp hsh (hpl.proper hsp hsh) rof r h hr s t hj
  rw [h1, h2, div_one, div_one] at hw
  refine ⟨d, d1, d2, d3, (hv _ _ _).trans ?_⟩
  rw [div_eq_inv_mul, ENNReal.ofReal_mul (inv_nonneg.2 (Real.sqrt_nonneg _))]
  exact mul_le_mul_right hw.le _

end

end Ply
