import Verif.Props.Shapes
import Verif.Proofs.Triangle
import Verif.Props.Buffer2D

/-!
# The geoms made for a sheet
-/

namespace Ply

open Arr

/-! ### The faces -/

theorem inTriangle_rev (a b c p : Pt) : InTriangle c b a p ↔ InTriangle a b c p := by
  constructor <;> rintro ⟨u, v, w, u0, v0, w0, hs, rfl⟩ <;>
    exact ⟨w, v, u, w0, v0, u0, by linarith, by ext <;> simp only <;> ring⟩

theorem single_has {L : List Pt} (hL : L ≠ []) (p : Pt) :
    Geom2D.Has [⟨L, []⟩] p ↔ InPoly L p ∨ OnBoundary L p := by
  obtain ⟨v, h1, h2, h3, -⟩ := locate_single L hL p
  unfold Geom2D.Has
  rw [h1, Except.ok.injEq, Except.ok.injEq, h2, h3]

/-- The polygon of a triangle. -/
theorem triangle_geom {a b c : Pt} {g : Geom2D} (h : Geom2D.polygon [a, b, c] true = .ok g) :
    g.Fine ∧ ∀ p, g.Has p ↔ InTriangle a b c p := by
  obtain ⟨-, h0, rfl⟩ := (polygon_true_iff _ _).1 h
  have key : ∀ {a b c : Pt}, shoelace [a, b, c] < 0 →
      Geom2D.Fine [⟨[a, b, c], []⟩] ∧ ∀ p, Geom2D.Has [⟨[a, b, c], []⟩] p ↔ InTriangle a b c p := by
    intro a b c hs
    have hR := triangle_simple hs.ne
    refine ⟨single_fine ((SPWH.mk'_iff _ _ _).2 ⟨rfl, fun _ he => hR.pos he, hs, by simp⟩) (hR.outline hs), fun p => ?_⟩
    rw [single_has (by simp), triangle_iff hs]
  by_cases hs : 0 < shoelace [a, b, c]
  · rw [if_pos hs]
    have hs' : shoelace [c, b, a] < 0 := by
      have := shoelace_reverse [a, b, c]
      have e : [a, b, c].reverse = [c, b, a] := rfl
      rw [e] at this
      linarith
    refine ⟨(key hs').1, fun p => ?_⟩
    rw [← inTriangle_rev]
    exact (key hs').2 p
  · rw [if_neg hs]
    exact key (lt_of_le_of_ne (not_lt.1 hs) h0)

theorem faceLoop_has (ch : Choices) (hch : ch.Valid) (ts : List (Pt × Pt × Pt)) {acc r : Geom2D} (ha : acc.Fine)
    (h : Geom2D.faceLoop (arrangementOp ch) acc ts = .ok r) :
    r.Fine ∧ ∀ p, r.Has p ↔ acc.Has p ∨ ∃ t ∈ ts, InTriangle t.1 t.2.1 t.2.2 p := by
  induction ts generalizing acc with
  | nil => cases h; exact ⟨ha, by simp⟩
  | cons t ts ih =>
    rw [Geom2D.faceLoop, bind_ok] at h
    obtain ⟨g, h1, h⟩ := h
    rw [bind_ok] at h
    obtain ⟨m, h2, h3⟩ := h
    obtain ⟨f1, f2⟩ := triangle_geom h1
    obtain ⟨i1, i2⟩ := ih (or_fine ch hch ha f1 h2) h3
    refine ⟨i1, fun p => ?_⟩
    rw [i2, c78_or ch hch ha f1 h2, f2]
    simp only [List.mem_cons, exists_eq_or_imp, or_assoc]

/-- C80: the face of a sheet made from triangles is exactly the union of the triangles, whatever their
directions. -/
theorem c80_face (ch : Choices) (hch : ch.Valid) (ts : List (Pt × Pt × Pt)) {r : Geom2D}
    (h : Geom2D.faceLoop (arrangementOp ch) Geom2D.empty ts = .ok r) :
    r.Fine ∧ ∀ p, r.Has p ↔ ∃ t ∈ ts, InTriangle t.1 t.2.1 t.2.2 p := by
  obtain ⟨h1, h2⟩ := faceLoop_has ch hch ts fine_empty h
  refine ⟨h1, fun p => ?_⟩
  rw [h2]
  have : ¬ Geom2D.Has Geom2D.empty p := by
    have e : Geom2D.locate Geom2D.empty p = .ok (-1) := rfl
    unfold Geom2D.Has
    rw [e]; decide
  tauto

/-- C80: a facet with a flat triangle makes no face: the program stops. -/
theorem c80_flat (ch : Choices) (ts : List (Pt × Pt × Pt)) (acc : Geom2D) {t : Pt × Pt × Pt} (ht : t ∈ ts)
    (hf : shoelace [t.1, t.2.1, t.2.2] = 0) (r : Geom2D) : Geom2D.faceLoop (arrangementOp ch) acc ts ≠ .ok r := by
  intro h
  induction ts generalizing acc with
  | nil => simp at ht
  | cons t' ts ih =>
    rw [Geom2D.faceLoop, bind_ok] at h
    obtain ⟨g, h1, h⟩ := h
    rw [bind_ok] at h
    obtain ⟨m, h2, h3⟩ := h
    rcases List.mem_cons.1 ht with rfl | ht
    · exact ((polygon_true_iff _ _).1 h1).2.1 hf
    · exact ih m ht h3

/-! ### The slices -/

theorem reduce_or_loop (ch : Choices) (hch : ch.Valid) (gs : List Geom2D) (hg : ∀ g ∈ gs, Geom2D.Fine g) {a r : Geom2D}
    (ha : a.Fine) (h : gs.foldlM (Geom2D.or (arrangementOp ch)) a = .ok r) :
    r.Fine ∧ ∀ p, r.Has p ↔ ∃ g ∈ a :: gs, Geom2D.Has g p := by
  induction gs generalizing a with
  | nil => cases h; exact ⟨ha, by simp⟩
  | cons g gs ih =>
    rw [List.foldlM_cons, bind_ok] at h
    obtain ⟨m, h1, h2⟩ := h
    have hf := hg g List.mem_cons_self
    obtain ⟨i1, i2⟩ := ih (fun g hg' => hg g (List.mem_cons_of_mem _ hg')) (or_fine ch hch ha hf h1) h2
    refine ⟨i1, fun p => ?_⟩
    rw [i2]
    simp only [List.mem_cons, exists_eq_or_imp, or_assoc, c78_or ch hch ha hf h1]

theorem reduce_and_loop (ch : Choices) (hch : ch.Valid) (gs : List Geom2D) (hg : ∀ g ∈ gs, Geom2D.Fine g) {a r : Geom2D}
    (ha : a.Fine) (h : gs.foldlM (Geom2D.and (arrangementOp ch)) a = .ok r) :
    r.Fine ∧ ∀ p, Geom2D.locate r p = .ok 1 ↔ ∀ g ∈ a :: gs, Geom2D.locate g p = .ok 1 := by
  induction gs generalizing a with
  | nil => cases h; exact ⟨ha, by simp⟩
  | cons g gs ih =>
    rw [List.foldlM_cons, bind_ok] at h
    obtain ⟨m, h1, h2⟩ := h
    have hf := hg g List.mem_cons_self
    obtain ⟨i1, i2⟩ := ih (fun g hg' => hg g (List.mem_cons_of_mem _ hg')) (and_fine ch hch ha.usable hf.usable h1) h2
    refine ⟨i1, fun p => ?_⟩
    rw [i2]
    simp only [List.mem_cons, forall_eq_or_imp, and_assoc, c78_and ch hch ha hf h1]

/-- C81: `slices_max` is exactly the union of the slices. -/
theorem c81_max (ch : Choices) (hch : ch.Valid) (gs : List Geom2D) (hg : ∀ g ∈ gs, Geom2D.Fine g) {r : Geom2D}
    (h : Geom2D.reduce (Geom2D.or (arrangementOp ch)) gs = .ok r) : r.Fine ∧ ∀ p, r.Has p ↔ ∃ g ∈ gs, Geom2D.Has g p := by
  cases gs with
  | nil => cases h
  | cons g gs => exact reduce_or_loop ch hch gs (fun x hx => hg x (List.mem_cons_of_mem _ hx)) (hg g List.mem_cons_self) h

/-- C81: the inner points of `slices_min` are exactly the common inner points of all slices. -/
theorem c81_min (ch : Choices) (hch : ch.Valid) (gs : List Geom2D) (hg : ∀ g ∈ gs, Geom2D.Fine g) {r : Geom2D}
    (h : Geom2D.reduce (Geom2D.and (arrangementOp ch)) gs = .ok r) :
    r.Fine ∧ ∀ p, Geom2D.locate r p = .ok 1 ↔ ∀ g ∈ gs, Geom2D.locate g p = .ok 1 := by
  cases gs with
  | nil => cases h
  | cons g gs => exact reduce_and_loop ch hch gs (fun x hx => hg x (List.mem_cons_of_mem _ hx)) (hg g List.mem_cons_self) h

/-! ### All geoms of a sheet -/

/-- The slice is present and consists of the polygons. -/
def SliceOf (o : Option Shape) (S : List Rings) : Prop := ∃ sh, o = some sh ∧ sh.Of S

/-- The slice consists of the polygons, or is absent. -/
def OutsideOf (o : Option Shape) (S : List Rings) : Prop := SliceOf o S ∨ o = none ∧ S = []

/-- The polygons of all slices, which are valid and meet only in corners. -/
structure Sourced (d : SheetSource) (out ins : List (List Rings)) : Prop where
  outside : List.Forall₂ OutsideOf d.outside out
  slices : List.Forall₂ SliceOf d.slices ins
  valid : ∀ S ∈ out ++ ins, ValidShape S ∧ Noded S

/-- The point is in the shape or on one of its rings. -/
def OnShape (S : List Rings) (p : Pt) : Prop := (∃ s ∈ S, InRegion s.1 s.2 p) ∨ ∃ L ∈ allRings S, OnBoundary L p

/-- The point is in the shape, off its rings. -/
def InShape (S : List Rings) (p : Pt) : Prop := ∃ s ∈ S, InRegion s.1 s.2 p

/-- The geom is exactly the shape. -/
structure Geom2D.Exactly (g : Geom2D) (S : List Rings) : Prop where
  fine : g.Fine
  inner : ∀ p, Geom2D.locate g p = .ok 1 ↔ InShape S p
  has : ∀ p, g.Has p ↔ OnShape S p

theorem fromShapely_exactly {S : List Rings} (hS : ValidShape S) (hN : Noded S) {sh : Shape} (h : sh.Of S) {g : Geom2D}
    (hg : Geom2D.fromShapely sh = .ok g) : g.Exactly S := by
  obtain ⟨h1, h2⟩ := c79_noded hS hN h hg
  obtain ⟨g', k1, k2, -⟩ := c79_from_shapely hS h
  rw [hg, Except.ok.injEq] at k1
  subst k1
  exact ⟨h1, k2, h2⟩

theorem exactly_empty : Geom2D.Exactly Geom2D.empty [] := by
  have e : ∀ p, Geom2D.locate Geom2D.empty p = .ok (-1) := fun p => rfl
  refine ⟨fine_empty, fun p => ?_, fun p => ?_⟩
  · rw [e]; simp [InShape]
  · unfold Geom2D.Has; rw [e]; simp [OnShape, allRings]

theorem presentSlices_ok {l : List (Option Shape)} {ins : List (List Rings)} (h : List.Forall₂ SliceOf l ins) :
    ∃ p, presentSlices l = .ok p ∧ List.Forall₂ Shape.Of p ins := by
  induction h with
  | nil => exact ⟨[], rfl, List.Forall₂.nil⟩
  | cons h1 _ ih =>
    obtain ⟨p, i1, i2⟩ := ih
    obtain ⟨sh, rfl, h2⟩ := h1
    refine ⟨sh :: p, ?_, List.Forall₂.cons h2 i2⟩
    rw [presentSlices, i1]
    rfl

theorem mapM_exactly {α : Type} {f : α → Except PyErr Geom2D} {R : α → List Rings → Prop} {l : List α} {ins : List (List Rings)}
    (h : List.Forall₂ R l ins) (hf : ∀ a S, R a S → S ∈ ins → ∃ g, f a = .ok g ∧ g.Exactly S) :
    ∃ gs, l.mapM f = .ok gs ∧ List.Forall₂ Geom2D.Exactly gs ins := by
  induction h with
  | nil => exact ⟨[], rfl, List.Forall₂.nil⟩
  | cons h1 _ ih =>
    obtain ⟨gs, i1, i2⟩ := ih fun a S ha hS => hf a S ha (List.mem_cons_of_mem _ hS)
    obtain ⟨g, g1, g2⟩ := hf _ _ h1 List.mem_cons_self
    refine ⟨g :: gs, ?_, List.Forall₂.cons g2 i2⟩
    rw [List.mapM_cons, g1, i1]
    rfl

/-- C82: the geoms of a sheet.  If the slices are valid shapes, and all 2D operations succeed, then all geoms are
fit for the 2D operations of the later stages, and consist of exactly the points wanted. -/
theorem c82_parts (ch : Choices) (hch : ch.Valid) {d : SheetSource} {out ins : List (List Rings)} (hd : Sourced d out ins)
    {r : SheetParts} (h : sheetParts (arrangementOp ch) d = .ok r) :
    (r.face0.Fine ∧ ∀ p, r.face0.Has p ↔ ∃ t ∈ d.same, InTriangle t.1 t.2.1 t.2.2 p) ∧
    (r.face1.Fine ∧ ∀ p, r.face1.Has p ↔ ∃ t ∈ d.opposed, InTriangle t.1 t.2.1 t.2.2 p) ∧
    (r.bothFaces.Fine ∧ ∀ p, Geom2D.locate r.bothFaces p = .ok 1 ↔
      Geom2D.locate r.face0 p = .ok 1 ∧ Geom2D.locate r.face1 p = .ok 1) ∧
    (r.slicesMax.Fine ∧ ∀ p, r.slicesMax.Has p ↔ ∃ S ∈ ins, OnShape S p) ∧
    (r.slicesMin.Fine ∧ ∀ p, Geom2D.locate r.slicesMin p = .ok 1 ↔ ∀ S ∈ ins, InShape S p) ∧
    List.Forall₂ Geom2D.Exactly r.outside out ∧
    (∀ p, Geom2D.locate r.slicesMin p = .ok 1 → r.slicesMax.Has p) := by
  unfold sheetParts at h
  have ex : ∀ S ∈ out ++ ins, ∀ sh : Shape, sh.Of S → ∃ g, Geom2D.fromShapely sh = .ok g ∧ g.Exactly S := by
    intro S hS sh ho
    obtain ⟨v, n⟩ := hd.valid S hS
    obtain ⟨g, g1, -⟩ := c79_from_shapely v ho
    exact ⟨g, g1, fromShapely_exactly v n ho g1⟩
  obtain ⟨o, o1, o2⟩ := mapM_exactly (f := outsideSlice) hd.outside fun a S ha hS => by
    rcases ha with ⟨sh, rfl, ho⟩ | ⟨rfl, rfl⟩
    · exact ex S (List.mem_append_left _ hS) sh ho
    · exact ⟨_, rfl, exactly_empty⟩
  obtain ⟨ps, p1, p2⟩ := presentSlices_ok hd.slices
  obtain ⟨gs, s1, s2⟩ := mapM_exactly (f := Geom2D.fromShapely) p2 fun a S ha hS =>
    ex S (List.mem_append_right _ hS) a ha
  rw [o1] at h
  replace h : (presentSlices d.slices >>= _) = .ok r := h
  rw [p1] at h
  replace h : (ps.mapM Geom2D.fromShapely >>= _) = .ok r := h
  rw [s1] at h
  replace h : (Geom2D.faceLoop (arrangementOp ch) Geom2D.empty d.same >>= _) = .ok r := h
  rw [bind_ok] at h
  obtain ⟨f0, e0, h⟩ := h
  rw [bind_ok] at h
  obtain ⟨f1, e1, h⟩ := h
  rw [bind_ok] at h
  obtain ⟨smax, e2, h⟩ := h
  rw [bind_ok] at h
  obtain ⟨smin, e3, h⟩ := h
  rw [bind_ok] at h
  obtain ⟨both, e4, h⟩ := h
  cases h
  have hf : ∀ g ∈ gs, Geom2D.Fine g := fun g hg => by
    obtain ⟨S, -, hS⟩ := forall₂_left s2 hg
    exact hS.fine
  have a0 := c80_face ch hch d.same e0
  have a1 := c80_face ch hch d.opposed e1
  have amax : smax.Fine ∧ ∀ p, smax.Has p ↔ ∃ S ∈ ins, OnShape S p := by
    obtain ⟨m1, m2⟩ := c81_max ch hch gs hf e2
    refine ⟨m1, fun p => ?_⟩
    rw [m2]
    constructor
    · rintro ⟨g, hg, hp⟩
      obtain ⟨S, hS, hx⟩ := forall₂_left s2 hg
      exact ⟨S, hS, (hx.has p).1 hp⟩
    · rintro ⟨S, hS, hp⟩
      obtain ⟨g, hg, hx⟩ := forall₂_right s2 hS
      exact ⟨g, hg, (hx.has p).2 hp⟩
  have amin : smin.Fine ∧ ∀ p, Geom2D.locate smin p = .ok 1 ↔ ∀ S ∈ ins, InShape S p := by
    obtain ⟨m1, m2⟩ := c81_min ch hch gs hf e3
    refine ⟨m1, fun p => ?_⟩
    rw [m2]
    constructor
    · intro hp S hS
      obtain ⟨g, hg, hx⟩ := forall₂_right s2 hS
      exact (hx.inner p).1 (hp g hg)
    · intro hp g hg
      obtain ⟨S, hS, hx⟩ := forall₂_left s2 hg
      exact (hx.inner p).2 (hp S hS)
  refine ⟨a0, a1, ⟨and_fine ch hch a0.1.usable a1.1.usable e4, c78_and ch hch a0.1 a1.1 e4⟩, amax, amin, o2, fun p hp => ?_⟩
  obtain ⟨S, hS⟩ : ∃ S, S ∈ ins := by
    cases gs with
    | nil => cases e2
    | cons g gs =>
      obtain ⟨S, hS, -⟩ := forall₂_left s2 (List.mem_cons_self (a := g) (l := gs))
      exact ⟨S, hS⟩
  exact (amax.2 p).2 ⟨S, hS, Or.inl ((amin.2 p).1 hp S hS)⟩

/-- C82: a slice within the sheet that is empty stops the program. -/
theorem c82_absent (ch : Choices) (d : SheetSource) (hn : none ∈ d.slices) (r : SheetParts) :
    sheetParts (arrangementOp ch) d ≠ .ok r := by
  have key : ∀ l : List (Option Shape), none ∈ l → ∀ p, presentSlices l ≠ .ok p := by
    intro l hl
    induction l with
    | nil => simp at hl
    | cons a l ih =>
      cases a with
      | none => intro p hp; cases hp
      | some s =>
        intro p hp
        rw [presentSlices, bind_ok] at hp
        obtain ⟨q, h1, -⟩ := hp
        exact ih (by simpa using hl) q h1
  intro h
  unfold sheetParts at h
  rw [bind_ok] at h
  obtain ⟨o, -, h⟩ := h
  rw [bind_ok] at h
  obtain ⟨p, h1, -⟩ := h
  exact key _ hn p h1

/-- C82: a sheet needs a slice. -/
theorem c82_none (ch : Choices) (d : SheetSource) (hn : d.slices = []) (r : SheetParts) :
    sheetParts (arrangementOp ch) d ≠ .ok r := by
  intro h
  unfold sheetParts at h
  rw [hn] at h
  rw [bind_ok] at h
  obtain ⟨o, -, h⟩ := h
  rw [bind_ok] at h
  obtain ⟨p, hp, h⟩ := h
  cases hp
  rw [bind_ok] at h
  obtain ⟨p, hp, h⟩ := h
  cases hp
  rw [bind_ok] at h
  obtain ⟨f0, -, h⟩ := h
  rw [bind_ok] at h
  obtain ⟨f1, -, h⟩ := h
  rw [bind_ok] at h
  obtain ⟨m, hm, h⟩ := h
  cases hm

end Ply
