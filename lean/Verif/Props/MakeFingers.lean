import Verif.Proofs.ArrSound
import Verif.Props.SheetPlex
import Verif.Props.Fingers

/-! # C37: fingers -/

namespace Ply
open Geom1D (Made)

/-- The point of the sheet at the joint coordinates `al` (along) and `nc` (across). -/
def InterSide.point (s : InterSide) (al nc : ℚ) : Pt :=
  ((al + s.originOffset) * s.direction.1 + nc * s.normal.1,
   (al + s.originOffset) * s.direction.2 + nc * s.normal.2)

/-- A joint side as created: a direction that is not zero and the normal at right angles to it. -/
structure InterSide.Proper (s : InterSide) : Prop where
  dir : s.direction ≠ (0, 0)
  normal : s.normal = (s.direction.2, -s.direction.1)
  width : s.minNormalOffset < s.maxNormalOffset

/-- The distance across the joint for a fraction of its width. -/
def InterSide.acrossAt (s : InterSide) (f : ℚ) : ℚ :=
  s.minNormalOffset + (s.maxNormalOffset - s.minNormalOffset) * f

theorem dir_sq_pos {d : Pt} (h : d ≠ (0, 0)) : 0 < d.1 ^ 2 + d.2 ^ 2 := by
  by_contra hc
  apply h
  have h1 : d.1 = 0 := by nlinarith [sq_nonneg d.1, sq_nonneg d.2]
  have h2 : d.2 = 0 := by nlinarith [sq_nonneg d.1, sq_nonneg d.2]
  exact Prod.ext h1 h2

/-- The joint coordinate system as an affine map. -/
def InterSide.frame (s : InterSide) : Affine where
  a := s.direction.1
  b := s.normal.1
  c := s.direction.2
  d := s.normal.2
  e := s.originOffset * s.direction.1
  f := s.originOffset * s.direction.2

theorem frame_app (s : InterSide) (al nc : ℚ) : s.frame.app (al, nc) = s.point al nc := by
  unfold Affine.app InterSide.point InterSide.frame
  ext <;> dsimp only <;> ring

theorem frame_det (s : InterSide) (h : s.Proper) : s.frame.det < 0 := by
  have := dir_sq_pos h.dir
  unfold Affine.det InterSide.frame
  simp only [h.normal]
  nlinarith

/-- Every point of the sheet has joint coordinates. -/
theorem point_surjective (s : InterSide) (h : s.Proper) (p : Pt) : ∃ al nc, p = s.point al nc := by
  have hp := dir_sq_pos h.dir
  refine ⟨(s.direction.1 * p.1 + s.direction.2 * p.2) / (s.direction.1 ^ 2 + s.direction.2 ^ 2) - s.originOffset,
    (s.direction.2 * p.1 - s.direction.1 * p.2) / (s.direction.1 ^ 2 + s.direction.2 ^ 2), ?_⟩
  unfold InterSide.point
  rw [h.normal]
  ext <;> dsimp only <;> field_simp <;> ring

theorem coords_eq (s : InterSide) (f0 f1 along : ℚ) :
    s.coords f0 f1 along 0 = s.frame.app (along, s.acrossAt f0) ∧
    s.coords f0 f1 along 1 = s.frame.app (along, s.acrossAt f1) := by
  unfold InterSide.coords Affine.app InterSide.frame InterSide.acrossAt
  constructor <;> ext <;> dsimp only <;> ring

theorem inPoly_affine (A : Affine) (hA : A.det ≠ 0) (l : List Pt) (p : Pt) :
    InPoly (l.map A.app) (A.app p) ↔ InPoly l p := by
  unfold InPoly
  rw [onBoundary_affine A hA]
  constructor
  · rintro ⟨h1, h2⟩
    rw [windingNumber_affine A hA l p h1] at h2
    exact ⟨h1, right_ne_zero_of_mul h2⟩
  · rintro ⟨h1, h2⟩
    rw [windingNumber_affine A hA l p h1]
    refine ⟨h1, mul_ne_zero ?_ h2⟩
    split_ifs <;> norm_num

theorem polygon_wellMade (pts : List Pt) (g : Geom2D) (hg : Geom2D.polygon pts true = .ok g) :
    Geom2D.WellMade g := by
  obtain ⟨h1, h2, rfl⟩ := (polygon_true_iff pts g).1 hg
  intro t ht
  rw [List.mem_singleton] at ht
  subst ht
  obtain ⟨t, ht⟩ := (c32_constructor (if 0 < shoelace pts then pts.reverse else pts) []).2 (by
    refine ⟨?_, ?_, by simp⟩
    · split_ifs
      · exact (noRepeat_reverse _).2 h1
      · exact h1
    · split_ifs with h
      · rw [shoelace_reverse]; linarith
      · exact lt_of_le_of_ne (not_lt.1 h) h2)
  have := ((SPWH.mk'_iff _ _ _).1 ht).1
  rw [ht, this]

theorem polygon_onEdge (pts : List Pt) (g : Geom2D) (hg : Geom2D.polygon pts true = .ok g) (p : Pt) :
    Geom2D.OnEdge g p ↔ OnBoundary pts p := by
  obtain ⟨h1, h2, rfl⟩ := (polygon_true_iff pts g).1 hg
  unfold Geom2D.OnEdge
  simp only [List.mem_singleton, exists_eq_left, List.not_mem_nil, false_and, exists_false, or_false]
  split_ifs
  · exact onBoundary_reverse _ _
  · rfl

/-- The rectangle made for one interval. -/
theorem finger_polygon (s : InterSide) (h : s.Proper) (f0 f1 : ℚ) (hf : f0 < f1) (a b : ℚ) (hab : a < b) :
    ∃ g, Geom2D.polygon [s.coords f0 f1 a 0, s.coords f0 f1 a 1, s.coords f0 f1 b 1, s.coords f0 f1 b 0] true
        = .ok g ∧ Geom2D.WellMade g ∧
      (∀ al nc, Geom2D.locate g (s.point al nc) = .ok 1 ↔
        a < al ∧ al < b ∧ s.acrossAt f0 < nc ∧ nc < s.acrossAt f1) ∧
      (∀ al nc, Geom2D.OnEdge g (s.point al nc) →
        a ≤ al ∧ al ≤ b ∧ s.acrossAt f0 ≤ nc ∧ nc ≤ s.acrossAt f1) ∧
      (∀ al nc, ¬ (a ≤ al ∧ al ≤ b ∧ s.acrossAt f0 ≤ nc ∧ nc ≤ s.acrossAt f1) →
        Geom2D.locate g (s.point al nc) = .ok (-1)) ∧
      (∀ al nc, a < al ∧ al < b ∧ s.acrossAt f0 < nc ∧ nc < s.acrossAt f1 →
        ¬ Geom2D.OnEdge g (s.point al nc)) := by
  have hdet := (frame_det s h).ne
  have hn : s.acrossAt f0 < s.acrossAt f1 := by
    unfold InterSide.acrossAt
    nlinarith [h.width, mul_pos (sub_pos.2 h.width) (sub_pos.2 hf)]
  have hpts : [s.coords f0 f1 a 0, s.coords f0 f1 a 1, s.coords f0 f1 b 1, s.coords f0 f1 b 0] =
      (boxLoop a (s.acrossAt f0) b (s.acrossAt f1)).map s.frame.app := by
    unfold boxLoop
    simp only [List.map_cons, List.map_nil, (coords_eq s f0 f1 _).1, (coords_eq s f0 f1 _).2]
  have hmm : min a b = a ∧ max a b = b ∧ min (s.acrossAt f0) (s.acrossAt f1) = s.acrossAt f0 ∧
      max (s.acrossAt f0) (s.acrossAt f1) = s.acrossAt f1 :=
    ⟨min_eq_left hab.le, max_eq_right hab.le, min_eq_left hn.le, max_eq_right hn.le⟩
  have hin := fun al nc => boxLoop_in a (s.acrossAt f0) b (s.acrossAt f1) hab.ne hn.ne (al, nc)
  have hbd := fun al nc => boxLoop_boundary a (s.acrossAt f0) b (s.acrossAt f1) hn.ne (al, nc)
  simp only [hmm] at hin hbd
  rw [hpts]
  have hnr : NoRepeat ((boxLoop a (s.acrossAt f0) b (s.acrossAt f1)).map s.frame.app) := by
    unfold NoRepeat
    rw [polyEdges_map]
    intro e he
    obtain ⟨e', he', rfl⟩ := List.mem_map.1 he
    intro hc
    have hinj : e'.1 = e'.2 := by
      have h1 : s.frame.app e'.1 = s.frame.app e'.2 := hc
      simp only [Affine.app, Prod.mk.injEq] at h1
      have hd : s.frame.a * s.frame.d - s.frame.b * s.frame.c ≠ 0 := hdet
      obtain ⟨h1, h2⟩ := h1
      have k1 : (s.frame.a * s.frame.d - s.frame.b * s.frame.c) * (e'.1.1 - e'.2.1) = 0 := by
        linear_combination s.frame.d * h1 - s.frame.b * h2
      have k2 : (s.frame.a * s.frame.d - s.frame.b * s.frame.c) * (e'.1.2 - e'.2.2) = 0 := by
        linear_combination s.frame.a * h2 - s.frame.c * h1
      exact Prod.ext (sub_eq_zero.1 ((mul_eq_zero.1 k1).resolve_left hd))
        (sub_eq_zero.1 ((mul_eq_zero.1 k2).resolve_left hd))
    rw [boxLoop_edges] at he'
    simp only [List.mem_cons, List.not_mem_nil, or_false] at he'
    rcases he' with rfl | rfl | rfl | rfl <;> simp only [Prod.mk.injEq] at hinj
    · exact hn.ne hinj.2
    · exact hab.ne hinj.1
    · exact hn.ne hinj.2.symm
    · exact hab.ne hinj.1.symm
  have hsh : shoelace ((boxLoop a (s.acrossAt f0) b (s.acrossAt f1)).map s.frame.app) ≠ 0 := by
    have : shoelace ((boxLoop a (s.acrossAt f0) b (s.acrossAt f1)).map s.frame.app) =
        s.frame.det * shoelace (boxLoop a (s.acrossAt f0) b (s.acrossAt f1)) := by
      rw [boxLoop_shoelace]
      unfold shoelace boxLoop
      simp only [List.map_cons, List.map_nil]
      rw [show ∀ p q r t : Pt, polyEdges [p, q, r, t] = [(p, q), (q, r), (r, t), (t, p)] from
        fun _ _ _ _ => rfl]
      simp only [List.map_cons, List.map_nil, List.sum_cons, List.sum_nil, cross, Affine.app, Affine.det]
      ring
    rw [this, boxLoop_shoelace]
    refine mul_ne_zero hdet (neg_ne_zero.2 (mul_ne_zero ?_ ?_))
    · exact sub_ne_zero.2 hab.ne'
    · exact sub_ne_zero.2 hn.ne'
  obtain ⟨g, hg⟩ := (c32_polygon _).1.2 ⟨hnr, hsh⟩
  have hgs := ((polygon_true_iff _ g).1 hg).2.2
  have hwm : Geom2D.WellMade g := polygon_wellMade _ g hg
  have hloc := ((c32_polygon _).2 g hg).2
  have hone : ∀ p, Geom2D.OnEdge g p → OnBoundary ((boxLoop a (s.acrossAt f0) b (s.acrossAt f1)).map s.frame.app) p :=
    fun p hp => (polygon_onEdge _ g hg p).1 hp
  refine ⟨g, hg, hwm, ?_, ?_, ?_, ?_⟩
  · intro al nc
    rw [← frame_app]
    obtain ⟨v, h1, h2, _⟩ := hloc (s.frame.app (al, nc))
    rw [h1, Except.ok.injEq, h2, inPoly_affine _ hdet, hin]
  · intro al nc he
    rw [← frame_app] at he
    have := hone _ he
    rw [onBoundary_affine _ hdet, hbd] at this
    exact this.1
  · intro al nc hout
    rw [← frame_app]
    obtain ⟨v, h1, _, _, h4⟩ := hloc (s.frame.app (al, nc))
    rw [h1, Except.ok.injEq, h4]
    have hb : ¬ OnBoundary ((boxLoop a (s.acrossAt f0) b (s.acrossAt f1)).map s.frame.app)
        (s.frame.app (al, nc)) := by
      rw [onBoundary_affine _ hdet, hbd]
      exact fun hc => hout hc.1
    refine ⟨hb, ?_⟩
    by_contra hw
    have := (inPoly_affine _ hdet _ _).1 ⟨hb, hw⟩
    rw [hin] at this
    exact hout ⟨this.1.le, this.2.1.le, this.2.2.1.le, this.2.2.2.le⟩
  · intro al nc hi he
    rw [← frame_app] at he
    have := hone _ he
    rw [onBoundary_affine _ hdet, hbd] at this
    exact this.2 hi

/-- All intervals of a bounded set have finite end points. -/
theorem bounded_fin (w : Geom1D) (hw : w.Made) (hb : Bornology.IsBounded (pointsOf w.intervals)) :
    ∃ ivs : List (ℚ × ℚ), w.intervals = ivs.map fun e => (Ext.fin e.1, Ext.fin e.2) := by
  have key : ∀ iv ∈ w.intervals, ∃ a b : ℚ, iv = (Ext.fin a, Ext.fin b) := by
    intro iv hiv
    have hlt := hw.nf.1 iv hiv
    have hsub : icoSet iv.1 iv.2 ⊆ pointsOf w.intervals := fun x hx => mem_pointsOf.2 ⟨iv, hiv, hx⟩
    obtain ⟨B, hB⟩ := (hb.subset hsub).exists_norm_le
    obtain ⟨i1, i2⟩ := iv
    dsimp only at hlt hB
    have h2 : ∃ b : ℚ, i2 = Ext.fin b := by
      induction i2 using WithBot.recBotCoe with
      | bot => exact absurd hlt not_lt_bot
      | coe t =>
        induction t using WithTop.recTopCoe with
        | coe q => exact ⟨q, rfl⟩
        | top =>
          exfalso
          induction i1 using WithBot.recBotCoe with
          | bot =>
            have := hB (|B| + 1) (mem_icoSet.2 ⟨bot_le, EReal.coe_lt_top _⟩)
            rw [Real.norm_eq_abs, abs_of_pos (by positivity)] at this
            linarith [le_abs_self B]
          | coe t =>
            induction t using WithTop.recTopCoe with
            | top => exact absurd hlt (lt_irrefl _)
            | coe q =>
              have := hB (|B| + 1 + |(q : ℝ)|) (mem_icoSet.2 ⟨by
                show ((q : ℝ) : EReal) ≤ _
                rw [EReal.coe_le_coe_iff]
                linarith [le_abs_self (q : ℝ), abs_nonneg B], EReal.coe_lt_top _⟩)
              rw [Real.norm_eq_abs, abs_of_pos (by positivity)] at this
              linarith [le_abs_self B, abs_nonneg (q : ℝ)]
    obtain ⟨b, rfl⟩ := h2
    have h1 : ∃ a : ℚ, i1 = Ext.fin a := by
      induction i1 using WithBot.recBotCoe with
      | bot =>
        exfalso
        have := hB (-(|B| + 1 + |(b : ℝ)|)) (mem_icoSet.2 ⟨bot_le, by
          rw [Ext.toE_fin, EReal.coe_lt_coe_iff]
          linarith [neg_abs_le (b : ℝ), abs_nonneg B]⟩)
        rw [Real.norm_eq_abs, abs_neg, abs_of_pos (by positivity)] at this
        linarith [le_abs_self B, abs_nonneg (b : ℝ)]
      | coe t =>
        induction t using WithTop.recTopCoe with
        | top => exact absurd hlt (not_lt.2 (by exact WithBot.coe_le_coe.2 le_top))
        | coe q => exact ⟨q, rfl⟩
    obtain ⟨a, rfl⟩ := h1
    exact ⟨a, b, rfl⟩
  generalize w.intervals = l at key
  induction l with
  | nil => exact ⟨[], rfl⟩
  | cons iv l ih =>
    obtain ⟨a, b, rfl⟩ := key iv (by simp)
    obtain ⟨ivs, rfl⟩ := ih fun iv h => key iv (by simp [h])
    exact ⟨(a, b) :: ivs, rfl⟩

theorem asFraction_fin (q : ℚ) : asFraction (Ext.fin q) = .ok q := rfl

/-- The rectangles made for a list of intervals. -/
def FingersOf (s : InterSide) (f0 f1 : ℚ) (e : ℚ × ℚ) (g : Geom2D) : Prop :=
  Geom2D.WellMade g ∧
  (∀ al nc, Geom2D.locate g (s.point al nc) = .ok 1 ↔
    e.1 < al ∧ al < e.2 ∧ s.acrossAt f0 < nc ∧ nc < s.acrossAt f1) ∧
  (∀ al nc, Geom2D.OnEdge g (s.point al nc) →
    e.1 ≤ al ∧ al ≤ e.2 ∧ s.acrossAt f0 ≤ nc ∧ nc ≤ s.acrossAt f1) ∧
  (∀ al nc, ¬ (e.1 ≤ al ∧ al ≤ e.2 ∧ s.acrossAt f0 ≤ nc ∧ nc ≤ s.acrossAt f1) →
    Geom2D.locate g (s.point al nc) = .ok (-1)) ∧
  (∀ al nc, e.1 < al ∧ al < e.2 ∧ s.acrossAt f0 < nc ∧ nc < s.acrossAt f1 →
    ¬ Geom2D.OnEdge g (s.point al nc))

theorem fingerLoop_spec (s : InterSide) (h : s.Proper) (f0 f1 : ℚ) (hf : f0 < f1) (ivs : List (ℚ × ℚ))
    (hivs : ∀ e ∈ ivs, e.1 < e.2) :
    ∃ res, s.fingerLoop f0 f1 (ivs.map fun e => (Ext.fin e.1, Ext.fin e.2)) = .ok res ∧
      List.Forall₂ (FingersOf s f0 f1) ivs res := by
  induction ivs with
  | nil => exact ⟨[], rfl, List.Forall₂.nil⟩
  | cons e ivs ih =>
    obtain ⟨res, h1, h2⟩ := ih fun e he => hivs e (by simp [he])
    obtain ⟨g, g1, g2⟩ := finger_polygon s h f0 f1 hf e.1 e.2 (hivs e (by simp))
    refine ⟨g :: res, ?_, List.Forall₂.cons g2 h2⟩
    rw [List.map_cons, InterSide.fingerLoop]
    dsimp only
    rw [asFraction_fin, asFraction_fin]
    show (do
      let g ← Geom2D.polygon [s.coords f0 f1 e.1 0, s.coords f0 f1 e.1 1, s.coords f0 f1 e.2 1,
        s.coords f0 f1 e.2 0] true
      let r ← s.fingerLoop f0 f1 (ivs.map fun e => (Ext.fin e.1, Ext.fin e.2))
      .ok (g :: r) : Except PyErr _) = _
    rw [g1, h1]
    rfl

/-- C37: for every bounded `where` the loop of `make_fingers` makes one rectangle per interval, spanning
exactly this interval along and the requested part of the joint across; no two overlap. -/
theorem c37_rectangles (s : InterSide) (h : s.Proper) (f0 f1 : ℚ) (hf : f0 < f1) (w : Geom1D)
    (hw : w.Made) (hb : Bornology.IsBounded (pointsOf w.intervals)) :
    ∃ (ivs : List (ℚ × ℚ)) (res : List Geom2D),
      w.intervals = (ivs.map fun e => (Ext.fin e.1, Ext.fin e.2)) ∧
      s.fingerLoop f0 f1 w.intervals = .ok res ∧ List.Forall₂ (FingersOf s f0 f1) ivs res ∧
      res.Pairwise fun g g' => ∀ p, Geom2D.locate g p = .ok 1 → Geom2D.locate g' p = .ok (-1) := by
  obtain ⟨ivs, hi⟩ := bounded_fin w hw hb
  have hnf := hw.nf
  rw [hi] at hnf
  have hlt : ∀ e ∈ ivs, e.1 < e.2 := by
    intro e he
    have := hnf.1 _ (List.mem_map_of_mem (f := fun e : ℚ × ℚ => (Ext.fin e.1, Ext.fin e.2)) he)
    exact Ext.fin_lt_fin.1 this
  obtain ⟨res, h1, h2⟩ := fingerLoop_spec s h f0 f1 hf ivs hlt
  refine ⟨ivs, res, hi, by rw [hi]; exact h1, h2, ?_⟩
  have hgap : ivs.Pairwise fun p q => p.2 < q.1 := by
    have := hnf.2
    rw [List.pairwise_map] at this
    exact this.imp fun h => Ext.fin_lt_fin.1 h
  clear h1 hi hnf hlt
  induction h2 with
  | nil => exact List.Pairwise.nil
  | cons hg hrest ih =>
    rename_i e g ivs res
    rw [List.pairwise_cons] at hgap ⊢
    refine ⟨?_, ih hgap.2⟩
    intro g' hg' p hp
    obtain ⟨i, hi, rfl⟩ := List.mem_iff_getElem.1 hg'
    have hi' : i < ivs.length := hrest.length_eq ▸ hi
    have hf' := (List.forall₂_iff_get.1 hrest).2 i hi' hi
    have hgap' := hgap.1 _ (List.getElem_mem hi')
    obtain ⟨al, nc, rfl⟩ := point_surjective s h p
    have := (hg.2.1 al nc).1 hp
    refine hf'.2.2.2.1 al nc fun hc => ?_
    have h3 := hc.1
    simp only [List.get_eq_getElem] at h3
    linarith [this.2.1]

/-- C37: an unbounded `where` is refused. -/
theorem c37_refuses (arr : Geom2D.ArrOp) (s : InterSide) (h : s.Proper) (f0 f1 : ℚ) (hf : f0 < f1) (w : Geom1D)
    (hw : w.Made) (hb : ¬ Bornology.IsBounded (pointsOf w.intervals)) :
    s.makeFingers arr w f0 f1 = .error .assertion := by
  have key : ∀ l : List Ivl, (∀ iv ∈ l, iv.1 < iv.2) → ¬ Bornology.IsBounded (pointsOf l) →
      s.fingerLoop f0 f1 l = .error .assertion := by
    intro l hl hnb
    induction l with
    | nil => exact absurd (by rw [pointsOf_nil]; exact Bornology.isBounded_empty) hnb
    | cons iv l ih =>
      rw [InterSide.fingerLoop]
      by_cases hfin : ∃ a b : ℚ, iv = (Ext.fin a, Ext.fin b)
      · obtain ⟨a, b, rfl⟩ := hfin
        have hab : a < b := Ext.fin_lt_fin.1 (hl (Ext.fin a, Ext.fin b) (by simp))
        have : ¬ Bornology.IsBounded (pointsOf l) := by
          intro hc
          apply hnb
          rw [pointsOf_cons]
          refine Bornology.IsBounded.union ?_ hc
          rw [icoSet_fin]
          exact Metric.isBounded_Ico (a : ℝ) b
        rw [asFraction_fin, asFraction_fin, ih (fun iv h => hl iv (by simp [h])) this]
        obtain ⟨g, g1, _⟩ := finger_polygon s h f0 f1 hf a b hab
        show (do
          let g ← Geom2D.polygon [s.coords f0 f1 a 0, s.coords f0 f1 a 1, s.coords f0 f1 b 1,
            s.coords f0 f1 b 0] true
          let r ← (.error .assertion : Except PyErr (List Geom2D))
          .ok (g :: r) : Except PyErr _) = _
        rw [g1]
        rfl
      · have hnot : asFraction iv.1 = .error .assertion ∨
            (∃ a, asFraction iv.1 = .ok a) ∧ asFraction iv.2 = .error .assertion := by
          obtain ⟨i1, i2⟩ := iv
          match i1, i2 with
          | none, _ => exact Or.inl rfl
          | some none, _ => exact Or.inl rfl
          | some (some a), none => exact Or.inr ⟨⟨a, rfl⟩, rfl⟩
          | some (some a), some none => exact Or.inr ⟨⟨a, rfl⟩, rfl⟩
          | some (some a), some (some b) => exact absurd ⟨a, b, rfl⟩ hfin
        rcases hnot with h1 | ⟨⟨a, h1⟩, h2⟩
        · rw [h1]; rfl
        · rw [h1, h2]; rfl
  unfold InterSide.makeFingers
  rw [key w.intervals hw.nf.1 hb]
  rfl

/-- C37, for a sound arrangement operation: the fingers contain exactly the points of the requested part
of the joint whose coordinate along the joint is in `where`. -/
theorem c37_union (arr : Geom2D.ArrOp) (ha : ArrSound arr) (s : InterSide) (h : s.Proper) (f0 f1 : ℚ)
    (hf : f0 < f1) (w : Geom1D) (hw : w.Made) (hb : Bornology.IsBounded (pointsOf w.intervals)) (r : Geom2D)
    (hr : s.makeFingers arr w f0 f1 = .ok r) :
    r.WellMade ∧
    (∀ al nc, (∃ iv ∈ w.intervals, iv.1 < Ext.fin al ∧ Ext.fin al < iv.2) →
      s.acrossAt f0 < nc → nc < s.acrossAt f1 → Geom2D.locate r (s.point al nc) = .ok 1) ∧
    (∀ al nc, r.OnEdge (s.point al nc) ∨ Geom2D.locate r (s.point al nc) = .ok 1 →
      (∃ iv ∈ w.intervals, iv.1 ≤ Ext.fin al ∧ Ext.fin al ≤ iv.2) ∧
      s.acrossAt f0 ≤ nc ∧ nc ≤ s.acrossAt f1) := by
  obtain ⟨ivs, res, hi, h1, h2, h3⟩ := c37_rectangles s h f0 f1 hf w hw hb
  unfold InterSide.makeFingers at hr
  rw [h1] at hr
  have hr' : Geom2D.union arr (res.length + 4) res = .ok r := hr
  have hres : ∀ g ∈ res, ∃ e ∈ ivs, FingersOf s f0 f1 e g := by
    intro g hg
    obtain ⟨i, hi, rfl⟩ := List.mem_iff_getElem.1 hg
    have hi' : i < ivs.length := h2.length_eq ▸ hi
    exact ⟨_, List.getElem_mem hi', (List.forall₂_iff_get.1 h2).2 i hi' hi⟩
  have hivs : ∀ e ∈ ivs, ∃ g ∈ res, FingersOf s f0 f1 e g := by
    intro e he
    obtain ⟨i, hi, rfl⟩ := List.mem_iff_getElem.1 he
    have hi' : i < res.length := h2.length_eq ▸ hi
    exact ⟨_, List.getElem_mem hi', (List.forall₂_iff_get.1 h2).2 i hi hi'⟩
  obtain ⟨u1, u2, u3⟩ := union_sound arr ha res (fun g hg => by
    obtain ⟨e, _, hfo⟩ := hres g hg
    exact hfo.1) (res.length + 4) le_rfl r hr'
  have hgap : ivs.Pairwise fun p q => p.2 < q.1 := by
    have := hw.nf.2
    rw [hi, List.pairwise_map] at this
    exact this.imp fun h => Ext.fin_lt_fin.1 h
  have hgap' : ∀ e ∈ ivs, ∀ e' ∈ ivs, e = e' ∨ e.2 < e'.1 ∨ e'.2 < e.1 := by
    intro e he e' he'
    by_cases hee : e = e'
    · exact Or.inl hee
    · right
      obtain ⟨i, hi, rfl⟩ := List.mem_iff_getElem.1 he
      obtain ⟨j, hj, rfl⟩ := List.mem_iff_getElem.1 he'
      rcases lt_trichotomy i j with hij | rfl | hij
      · exact Or.inl (List.pairwise_iff_getElem.1 hgap i j hi hj hij)
      · exact absurd rfl hee
      · exact Or.inr (List.pairwise_iff_getElem.1 hgap j i hj hi hij)
  refine ⟨u1, ?_, ?_⟩
  · rintro al nc ⟨iv, hiv, k1, k2⟩ n1 n2
    rw [hi] at hiv
    obtain ⟨e, he, rfl⟩ := List.mem_map.1 hiv
    replace k1 := Ext.fin_lt_fin.1 k1
    replace k2 := Ext.fin_lt_fin.1 k2
    rw [u3]
    · obtain ⟨g, hg, hfo⟩ := hivs e he
      exact ⟨g, hg, (hfo.2.1 al nc).2 ⟨k1, k2, n1, n2⟩⟩
    · intro g hg hon
      obtain ⟨e', he', hfo⟩ := hres g hg
      rcases hgap' e he e' he' with rfl | hlt | hlt
      · exact hfo.2.2.2.2 al nc ⟨k1, k2, n1, n2⟩ hon
      · have := hfo.2.2.1 al nc hon
        linarith [this.1]
      · have := hfo.2.2.1 al nc hon
        linarith [this.2.1]
  · intro al nc hor
    have close : ∀ e ∈ ivs, (e.1 ≤ al ∧ al ≤ e.2 ∧ s.acrossAt f0 ≤ nc ∧ nc ≤ s.acrossAt f1) →
        (∃ iv ∈ w.intervals, iv.1 ≤ Ext.fin al ∧ Ext.fin al ≤ iv.2) ∧
        s.acrossAt f0 ≤ nc ∧ nc ≤ s.acrossAt f1 := by
      intro e he hc
      refine ⟨⟨(Ext.fin e.1, Ext.fin e.2), by rw [hi]; exact List.mem_map.2 ⟨e, he, rfl⟩,
        Ext.fin_le_fin.2 hc.1, Ext.fin_le_fin.2 hc.2.1⟩, hc.2.2⟩
    by_cases hon : ∃ g ∈ res, Geom2D.OnEdge g (s.point al nc)
    · obtain ⟨g, hg, hon⟩ := hon
      obtain ⟨e, he, hfo⟩ := hres g hg
      exact close e he (hfo.2.2.1 al nc hon)
    · rcases hor with hor | hor
      · exact absurd (u2 _ hor) hon
      · rw [u3 _ (fun g hg hc => hon ⟨g, hg, hc⟩)] at hor
        obtain ⟨g, hg, hl⟩ := hor
        obtain ⟨e, he, hfo⟩ := hres g hg
        have := (hfo.2.1 al nc).1 hl
        exact close e he ⟨this.1.le, this.2.1.le, this.2.2.1.le, this.2.2.2.le⟩

/-- Just to the right of a point nothing changes, and no interval ends there. -/
theorem right_const (l : List Ivl) (x : ℝ) :
    ∃ ε > 0, ∀ y : ℝ, x ≤ y → y < x + ε →
      (y ∈ pointsOf l ↔ x ∈ pointsOf l) ∧ (x < y → ∀ iv ∈ l, iv.2.toE ≠ (y : EReal)) := by
  induction l with
  | nil => exact ⟨1, one_pos, fun y _ _ => by simp [pointsOf_nil]⟩
  | cons iv l ih =>
    obtain ⟨ε, h0, h⟩ := ih
    have point : ∀ v : EReal, ∃ δ > 0, ∀ y : ℝ, x ≤ y → y < x + δ →
        ((v ≤ (y : EReal) ↔ v ≤ (x : EReal)) ∧ (x < y → v ≠ (y : EReal))) := by
      intro v
      induction v with
      | bot => exact ⟨1, one_pos, fun y _ _ => by simp⟩
      | top => exact ⟨1, one_pos, fun y _ _ => by simp⟩
      | coe q =>
        rcases le_or_gt q x with hq | hq
        · refine ⟨1, one_pos, fun y h1 _ => ⟨?_, ?_⟩⟩
          · simp only [EReal.coe_le_coe_iff]
            exact ⟨fun _ => hq, fun _ => hq.trans h1⟩
          · intro h3 h4
            rw [EReal.coe_eq_coe_iff] at h4
            linarith
        · refine ⟨q - x, sub_pos.2 hq, fun y h1 h2 => ⟨?_, ?_⟩⟩
          · simp only [EReal.coe_le_coe_iff]
            constructor
            · intro h3; linarith
            · intro h3; linarith
          · intro h3 h4
            rw [EReal.coe_eq_coe_iff] at h4
            linarith
    obtain ⟨δ1, p1, k1⟩ := point iv.1.toE
    obtain ⟨δ2, p2, k2⟩ := point iv.2.toE
    refine ⟨min ε (min δ1 δ2), by positivity, fun y h1 h2 => ?_⟩
    have q1 : y < x + ε := lt_of_lt_of_le h2 (by gcongr; exact min_le_left _ _)
    have q2 : y < x + δ1 := lt_of_lt_of_le h2 (by gcongr; exact (min_le_right _ _).trans (min_le_left _ _))
    have q3 : y < x + δ2 := lt_of_lt_of_le h2 (by gcongr; exact (min_le_right _ _).trans (min_le_right _ _))
    obtain ⟨a1, a2⟩ := h y h1 q1
    obtain ⟨b1, _⟩ := k1 y h1 q2
    obtain ⟨c1, c2⟩ := k2 y h1 q3
    constructor
    · rw [pointsOf_cons, Set.mem_union, Set.mem_union, a1, mem_icoSet, mem_icoSet, b1, ← not_le, ← not_le, c1]
    · intro hlt iv' hiv'
      rcases List.mem_cons.1 hiv' with rfl | hiv'
      · exact c2 hlt
      · exact a2 hlt iv' hiv'

/-- C37, for a sound arrangement operation: projecting the fingers back onto the joint returns `where`
when the direction has unit length. -/
theorem c37_roundtrip (arr : Geom2D.ArrOp) (ha : ArrSound arr) (s : InterSide) (h : s.Proper)
    (hu : s.direction.1 ^ 2 + s.direction.2 ^ 2 = 1) (f0 f1 : ℚ)
    (hf : f0 < f1) (w : Geom1D) (hw : w.Made) (hb : Bornology.IsBounded (pointsOf w.intervals)) (r : Geom2D)
    (hr : s.makeFingers arr w f0 f1 = .ok r) : s.projectTo1d r = .ok w := by
  obtain ⟨k1, k2, k3⟩ := c37_union arr ha s h f0 f1 hf w hw hb r hr
  obtain ⟨g, g1, g2, _⟩ := c36_succeeds r k1 s.direction (-s.originOffset)
  have hg : s.projectTo1d r = .ok g := g1
  have hsh : ∀ al nc, shadow s.direction (-s.originOffset) (s.point al nc) = al := by
    intro al nc
    unfold shadow InterSide.point
    rw [h.normal]
    dsimp only
    linear_combination (al + s.originOffset) * hu
  have hn : s.acrossAt f0 < s.acrossAt f1 := by
    unfold InterSide.acrossAt
    nlinarith [h.width, mul_pos (sub_pos.2 h.width) (sub_pos.2 hf)]
  have hdn : s.direction.1 ≠ 0 ∨ s.direction.2 ≠ 0 := by
    by_contra hc
    push Not at hc
    exact h.dir (Prod.ext hc.1 hc.2)
  have up : ∀ q : ℚ, (∃ iv ∈ w.intervals, iv.1 < Ext.fin q ∧ Ext.fin q < iv.2) →
      (q : ℝ) ∈ pointsOf g.intervals := by
    intro q hq
    have := k2 q ((s.acrossAt f0 + s.acrossAt f1) / 2) hq (by linarith) (by linarith)
    have := (c36_covers r k1 s.direction (-s.originOffset) g g1).1 _ hdn this
    rwa [hsh] at this
  have down : ∀ q : ℚ, (q : ℝ) ∈ pointsOf g.intervals →
      ∃ iv ∈ w.intervals, iv.1 ≤ Ext.fin q ∧ Ext.fin q ≤ iv.2 := by
    intro q hq
    obtain ⟨t, ht, p, hp, hpq⟩ := c36_attained r k1 s.direction (-s.originOffset) g g1 q hq
    obtain ⟨al, nc, rfl⟩ := point_surjective s h p
    rw [hsh] at hpq
    subst hpq
    exact (k3 al nc (Or.inl ⟨t, ht, Or.inl hp⟩)).1
  rw [hg]
  congr 1
  refine Geom1D.c03_canonical g w ((Geom1D.made_iff_nf _).2 g2) hw fun x => ?_
  obtain ⟨ε, e0, he⟩ := right_const g.intervals x
  obtain ⟨δ, d0, hd⟩ := right_const w.intervals x
  obtain ⟨q, q1, q2⟩ := exists_rat_btwn (show x < x + min ε δ from by linarith [lt_min e0 d0])
  obtain ⟨a1, _⟩ := he q q1.le (lt_of_lt_of_le q2 (by gcongr; exact min_le_left _ _))
  obtain ⟨b1, b2⟩ := hd q q1.le (lt_of_lt_of_le q2 (by gcongr; exact min_le_right _ _))
  constructor
  · intro hx
    obtain ⟨iv, hiv, i1, i2⟩ := down q (a1.2 hx)
    rw [← b1]
    refine mem_pointsOf.2 ⟨iv, hiv, ?_, ?_⟩
    · rw [← Ext.toE_fin]; exact Ext.toE_le.2 i1
    · refine lt_of_le_of_ne ?_ (b2 q1 iv hiv).symm
      rw [← Ext.toE_fin]; exact Ext.toE_le.2 i2
  · intro hx
    by_contra hnx
    obtain ⟨iv, hiv, i1, i2⟩ := mem_pointsOf.1 hx
    -- a rational strictly inside the interval, right of `x`
    have hlt : ∃ q' : ℚ, x < q' ∧ (q' : ℝ) < x + ε ∧ iv.1 < Ext.fin q' ∧ Ext.fin q' < iv.2 := by
      obtain ⟨m, m1, m2⟩ : ∃ m : ℝ, x < m ∧ (m : EReal) ≤ iv.2.toE ∧ m ≤ x + ε := by
        generalize iv.2.toE = v at i2
        induction v with
        | bot => exact absurd i2 not_lt_bot
        | top => exact ⟨x + ε, by linarith, le_top, le_rfl⟩
        | coe t =>
          rw [EReal.coe_lt_coe_iff] at i2
          exact ⟨min t (x + ε), lt_min i2 (by linarith), EReal.coe_le_coe_iff.2 (min_le_left _ _),
            min_le_right _ _⟩
      obtain ⟨q', r1, r2⟩ := exists_rat_btwn m1
      refine ⟨q', r1, lt_of_lt_of_le r2 m2.2, ?_, ?_⟩
      · rw [← Ext.toE_lt, Ext.toE_fin]
        exact lt_of_le_of_lt i1 (EReal.coe_lt_coe_iff.2 r1)
      · rw [← Ext.toE_lt, Ext.toE_fin]
        exact lt_of_lt_of_le (EReal.coe_lt_coe_iff.2 r2) m2.1
    obtain ⟨q', r1, r2, r3, r4⟩ := hlt
    have := (he q' r1.le r2).1
    exact hnx (this.1 (up q' ⟨iv, hiv, r3, r4⟩))

/-- A joint side along (3/5, 4/5), three units wide. -/
def side345 : InterSide where
  id := ([], [])
  intersection := []
  idx := 0
  sheet := []
  direction := (3 / 5, 4 / 5)
  normal := (4 / 5, -(3 / 5))
  originOffset := 2
  minNormalOffset := 1
  maxNormalOffset := 4

theorem side345_proper : side345.Proper := by
  refine ⟨?_, rfl, by norm_num [side345]⟩
  unfold side345
  simp

example : ∃ w res, Geom1D.construct [(.mpq 0, .mpq 3), (.mpq 5, .mpq 7)] = .ok w ∧
    side345.fingerLoop 0 1 w.intervals = .ok res ∧ res.length = 2 := by
  refine ⟨⟨[(Ext.fin 0, Ext.fin 3), (Ext.fin 5, Ext.fin 7)]⟩, ?_⟩
  obtain ⟨res, h1, h2⟩ := fingerLoop_spec side345 side345_proper 0 1 (by norm_num) [(0, 3), (5, 7)] (by norm_num)
  refine ⟨res, ?_, h1, h2.length_eq.symm⟩
  exact Geom1D.construct_of_nf (g := ⟨[(Ext.fin 0, Ext.fin 3), (Ext.fin 5, Ext.fin 7)]⟩)
    ⟨by simp [Ext.fin_lt_fin]; norm_num, by simp [Ext.fin_lt_fin]; norm_num⟩

end Ply
