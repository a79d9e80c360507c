import Verif.Props.Lawful2D
import Verif.Props.Buffer
import Verif.Proofs.Octagon

/-!
# The results of the 2D operations, fingers and `buffer` can be given to `buffer` again
-/

namespace Ply

open Arr MeasureTheory

/-- The polygons cover each point at most once, all their loops are outlines, and each edge is between the
inside and the outside of the geom. -/
structure Geom2D.Fine (g : Geom2D) : Prop where
  proper : g.Proper
  outlined : g.Outlined
  crisp : g.Crisp

/-- An operand of an arrangement. -/
structure Geom2D.Usable (g : Geom2D) : Prop where
  made : g.WellMade
  cutting : g.Cutting

theorem Geom2D.Fine.usable {g : Geom2D} (h : g.Fine) : g.Usable := ⟨h.proper.made, h.outlined.cutting⟩

theorem fine_empty : Geom2D.Fine [] := ⟨proper_empty, fun s hs => by simp at hs, fun s hs => by simp at hs⟩

theorem arr_fine (ch : Choices) (hch : ch.Valid) (gs : List Geom2D) (op : List Bool → Bool) (r : Geom2D)
    (hop : op (gs.map fun _ => false) = false) (hg : ∀ g ∈ gs, Geom2D.Usable g)
    (h : arrangementOp ch gs op = .ok r) : r.Fine := by
  have := arrangementOp_outlined ch hch gs op r (fun g h => (hg g h).made) (fun g h => (hg g h).cutting) h
  exact ⟨arrangementOp_proper ch hch gs op r hop (fun g h => (hg g h).made) h, this.1, this.2 hop⟩

theorem union_small_fine (ch : Choices) (hch : ch.Valid) (fuel : ℕ) (gs : List Geom2D) (hg : ∀ g ∈ gs, Geom2D.Usable g)
    (hl : gs.length ≤ 64) (r : Geom2D) (h : Geom2D.union (arrangementOp ch) fuel gs = .ok r) : r.Fine := by
  cases fuel with
  | zero => rw [Geom2D.union] at h; cases h
  | succ f =>
    rw [Geom2D.union, if_neg (by unfold Geom2D.unionN; omega)] at h
    exact arr_fine ch hch gs _ r (by simp) hg h

theorem unionPass_fine (ch : Choices) (hch : ch.Valid) (fuel : ℕ) (gs : List Geom2D)
    (hg : ∀ g ∈ gs, Geom2D.Usable g) (xs : List Geom2D) (h : Geom2D.unionPass (arrangementOp ch) fuel gs = .ok xs) :
    (∀ x ∈ xs, Geom2D.Usable x) ∧ (1 < gs.length → xs.length ≤ 1 → ∀ x ∈ xs, Geom2D.Fine x) := by
  induction fuel generalizing gs xs with
  | zero => rw [Geom2D.unionPass] at h; cases h
  | succ f ih =>
    cases gs with
    | nil => rw [Geom2D.unionPass] at h; cases h; simp
    | cons g gs =>
      rw [Geom2D.unionPass] at h
      obtain ⟨x, h1, h⟩ := (bind_ok _ _ _).1 h
      obtain ⟨rest, h2, h⟩ := (bind_ok _ _ _).1 h
      cases h
      have hx : Geom2D.Usable x ∧ (1 < (g :: gs).length → Geom2D.Fine x) := by
        split_ifs at h1 with hc
        · have := union_small_fine ch hch f _ (fun y hy => hg y (List.mem_of_mem_take hy))
            (by simp [Geom2D.unionN]) x h1
          exact ⟨this.usable, fun _ => this⟩
        · have hl : (g :: gs).length ≤ 1 := by
            simp only [List.length_take, Geom2D.unionN] at hc
            omega
          have : gs = [] := by
            rw [List.length_cons] at hl
            exact List.length_eq_zero_iff.1 (by omega)
          subst this
          have h1' : Geom2D.onlyElem [g] = .ok x := h1
          cases h1'
          exact ⟨hg g (by simp), fun h => by simp at h⟩
      obtain ⟨i1, _⟩ := ih _ (fun y hy => hg y (List.mem_of_mem_drop hy)) rest h2
      refine ⟨?_, fun hl hx1 => ?_⟩
      · intro y hy
        rcases List.mem_cons.1 hy with rfl | hy
        · exact hx.1
        · exact i1 y hy
      · intro y hy
        have : rest = [] := List.length_eq_zero_iff.1 (by rw [List.length_cons] at hx1; omega)
        subst this
        rw [List.mem_singleton] at hy
        rw [hy]
        exact hx.2 hl

theorem unionTree_fine (ch : Choices) (hch : ch.Valid) (fuel : ℕ) (gs : List Geom2D)
    (hg : ∀ g ∈ gs, Geom2D.Usable g) (hl : 1 < gs.length ∨ ∀ g ∈ gs, Geom2D.Fine g) (r : Geom2D)
    (h : Geom2D.unionTree (arrangementOp ch) fuel gs = .ok r) : r.Fine := by
  induction fuel generalizing gs with
  | zero => rw [Geom2D.unionTree] at h; cases h
  | succ f ih =>
    rw [Geom2D.unionTree.eq_def] at h
    dsimp only at h
    split_ifs at h with hc
    · obtain ⟨nxt, h1, h⟩ := (bind_ok _ _ _).1 h
      obtain ⟨p1, p2⟩ := unionPass_fine ch hch f gs hg nxt h1
      refine ih nxt p1 ?_ h
      by_cases h2 : 1 < nxt.length
      · exact Or.inl h2
      · exact Or.inr (p2 hc (not_lt.1 h2))
    · cases gs with
      | nil => cases h; exact fine_empty
      | cons g gs =>
        cases h
        rcases hl with hl | hl
        · exact absurd hl hc
        · exact hl r List.mem_cons_self

theorem union_fine (ch : Choices) (hch : ch.Valid) (fuel : ℕ) (gs : List Geom2D) (hg : ∀ g ∈ gs, Geom2D.Usable g)
    (r : Geom2D) (h : Geom2D.union (arrangementOp ch) fuel gs = .ok r) : r.Fine := by
  by_cases hl : gs.length ≤ 64
  · exact union_small_fine ch hch fuel gs hg hl r h
  · cases fuel with
    | zero => rw [Geom2D.union] at h; cases h
    | succ f =>
      rw [Geom2D.union, if_pos (by unfold Geom2D.unionN; omega)] at h
      exact unionTree_fine ch hch f gs hg (Or.inl (by omega)) r h

/-! ### Single polygons -/

/-- A polygon made of one outline. -/
theorem single_fine {o : List Pt} {s : SPWH} (h : SPWH.mk' o [] = .ok s) (ho : Outline o) :
    Geom2D.Fine [s] := by
  obtain ⟨rfl, hv⟩ := (SPWH.mk'_iff _ _ _).1 h
  obtain ⟨t1, t2, -⟩ := single_sound h (T := bothWays o) (fun p => onAny_bothWays.2)
  have hone := t1.made
  have hS := ho.sides
  have hne := hv.wf.1
  refine ⟨⟨hone, fun p hp => ?_⟩, ?_, ?_⟩
  · have hoff : ¬ OnBoundary o p := fun hc => hp ⟨_, List.mem_singleton.2 rfl, Or.inl hc⟩
    have : Geom2D.windSum [⟨o, []⟩] p = -windingNumber o p := by simp [Geom2D.windSum, Geom2D.signed]
    rw [this]
    have ht := t2 p
    rcases hS.winding hne hoff with hw | hw
    · rw [if_neg fun hc => (ht.1 hc).2 hw, hw]; rfl
    · rw [if_pos (ht.2 ⟨hoff, by rw [hw]; decide⟩), hw]; rfl
  · intro s hs
    rw [List.mem_singleton] at hs
    subst hs
    exact ⟨ho, by simp⟩
  · intro s hs
    rw [List.mem_singleton] at hs
    subst hs
    refine ⟨fun e he => ?_, by simp⟩
    have see : ∀ k ∈ bothWays o, ∀ p, Sees (bothWays o) k p → windingNumber o p = if k ∈ polyEdges o then -1 else 0 := by
      intro k hk p hp
      obtain ⟨t, v, t0, t1, hvv, rfl, hτ⟩ := hp
      have near : ∀ ε : ℚ, 0 < ε → ε ≤ 1 → windingNumber o (along k t + v) = windingNumber o (along k t + ε • v) :=
        fun ε e0 e1 => (same_near hτ e0 e1).winding fun e he => mem_bothWays.2 (Or.inl he)
      split_ifs with hk'
      · obtain ⟨ε, e0, hw, e1⟩ := small_exists ((hS.right k hk' t t0 t1 v hvv).and (small_lt 1 one_pos))
        rw [near ε e0 e1.le, hw]
      · have hk2 := (mem_bothWays.1 hk).resolve_left hk'
        have hv' : 0 < cross (dir (k.2, k.1)) v := by
          have : dir (k.2, k.1) = -dir k := by unfold dir; simp
          rw [this, cross_neg_left]; linarith
        obtain ⟨ε, e0, hw, e1⟩ := small_exists ((hS.left _ hk2 (1 - t) (by linarith) (by linarith) v hv').and (small_lt 1 one_pos))
        rw [along_rev, sub_sub_cancel] at hw
        rw [near ε e0 e1.le, hw]
    have hno : (e.2, e.1) ∉ polyEdges o := fun hc => by
      have h1 := ho.inner e he _ hc (1 / 2) (by norm_num) (by norm_num) (by
        rw [← onSeg_rev]
        exact ⟨1 / 2, by norm_num, by norm_num, rfl⟩)
      have := congrArg Prod.fst h1
      exact ho.pos e he this.symm
    refine parts_of hS.planar hone (fun x hx => t1.edge x hx) (mem_bothWays.2 (Or.inl he)) (fun p hp => ?_) (fun p hp => ?_)
    · rw [t2]
      refine ⟨fun hc => hp.off (onAny_bothWays.2 hc), ?_⟩
      rw [see e (mem_bothWays.2 (Or.inl he)) p hp, if_pos he]
      decide
    · intro hc
      apply ((t2 p).1 hc).2
      rw [see _ (mem_bothWays.2 (Or.inr he)) p hp, if_neg hno]

/-! ### Fingers -/

theorem quad_forward {p q r t : Pt} (h : p + r = q + t) (ha : shoelace [p, q, r, t] ≠ 0) : Forward [p, q, r, t] := by
  have ht : t = p + r - q := by rw [h]; abel
  subst ht
  have := forward_plain (v := q) (c := p - q) (d := r - q) (by
    intro hc
    apply ha
    have e : shoelace [p, q, r, p + r - q] = -cross (p - q) (r - q) := by
      unfold shoelace cross
      simp only [polyEdges, Prod.fst_sub, Prod.snd_sub]
      simp
      ring
    rw [e, hc, neg_zero])
  have e1 : q + (p - q) = p := by abel
  have e2 : q + (r - q) = r := by abel
  have e3 : r + (p - q) = p + r - q := by abel
  rwa [e1, e2, e3] at this

theorem quad_usable {p q r t : Pt} (h : p + r = q + t) {g : Geom2D} (hg : Geom2D.polygon [p, q, r, t] true = .ok g) :
    g.Usable := by
  obtain ⟨-, h2, h3⟩ := (polygon_true_iff _ _).1 hg
  refine ⟨polygon_wellMade _ _ hg, ?_⟩
  have hc := (quad_forward h h2).cuts
  subst h3
  intro s hs
  rw [List.mem_singleton] at hs
  subst hs
  refine ⟨?_, by simp⟩
  dsimp only
  split_ifs
  · exact hc.reverse
  · exact hc

theorem fingerLoop_usable (s : InterSide) (f0 f1 : ℚ) (ivs : List Ivl) (res : List Geom2D)
    (h : s.fingerLoop f0 f1 ivs = .ok res) : ∀ g ∈ res, Geom2D.Usable g := by
  induction ivs generalizing res with
  | nil => rw [InterSide.fingerLoop] at h; cases h; simp
  | cons iv ivs ih =>
    rw [InterSide.fingerLoop] at h
    obtain ⟨a, _, h⟩ := (bind_ok _ _ _).1 h
    obtain ⟨b, _, h⟩ := (bind_ok _ _ _).1 h
    obtain ⟨g, h1, h⟩ := (bind_ok _ _ _).1 h
    obtain ⟨r, h2, h⟩ := (bind_ok _ _ _).1 h
    cases h
    intro x hx
    rcases List.mem_cons.1 hx with rfl | hx
    · refine quad_usable ?_ h1
      unfold InterSide.coords
      ext <;> simp only [Prod.fst_add, Prod.snd_add] <;> ring
    · exact ih r h2 x hx

theorem makeFingers_fine (ch : Choices) (hch : ch.Valid) (s : InterSide) (v : Geom1D) (f0 f1 : ℚ) (r : Geom2D)
    (h : s.makeFingers (arrangementOp ch) v f0 f1 = .ok r) : r.Fine := by
  unfold InterSide.makeFingers at h
  obtain ⟨res, h1, h⟩ := (bind_ok _ _ _).1 h
  exact union_fine ch hch _ res (fingerLoop_usable s f0 f1 _ res h1) r h

/-! ### Operators -/

theorem pair_usable {a b : Geom2D} (ha : a.Usable) (hb : b.Usable) : ∀ g ∈ [a, b], Geom2D.Usable g := by
  intro g hg
  simp only [List.mem_cons, List.not_mem_nil, or_false] at hg
  rcases hg with rfl | rfl
  · exact ha
  · exact hb

theorem and_fine (ch : Choices) (hch : ch.Valid) {a b r : Geom2D} (ha : a.Usable) (hb : b.Usable)
    (h : Geom2D.and (arrangementOp ch) a b = .ok r) : r.Fine :=
  arr_fine ch hch [a, b] _ r rfl (pair_usable ha hb) h

theorem or_fine (ch : Choices) (hch : ch.Valid) {a b r : Geom2D} (ha : a.Fine) (hb : b.Fine)
    (h : Geom2D.or (arrangementOp ch) a b = .ok r) : r.Fine := by
  unfold Geom2D.or at h
  split_ifs at h
  · cases h; exact hb
  · cases h; exact ha
  · exact arr_fine ch hch [a, b] _ r rfl (pair_usable ha.usable hb.usable) h

theorem sub_fine (ch : Choices) (hch : ch.Valid) {a b r : Geom2D} (ha : a.Fine) (hb : b.Usable)
    (h : Geom2D.sub (arrangementOp ch) a b = .ok r) : r.Fine := by
  unfold Geom2D.sub at h
  split_ifs at h
  · cases h; exact ha
  · exact arr_fine ch hch [a, b] _ r rfl (pair_usable ha.usable hb) h

theorem sub_usable (ch : Choices) (hch : ch.Valid) {a b r : Geom2D} (ha : a.Usable) (hb : b.Usable)
    (h : Geom2D.sub (arrangementOp ch) a b = .ok r) : r.Usable := by
  unfold Geom2D.sub at h
  split_ifs at h
  · cases h; exact ha
  · exact (arr_fine ch hch [a, b] _ r rfl (pair_usable ha hb) h).usable

theorem or_usable (ch : Choices) (hch : ch.Valid) {a b r : Geom2D} (ha : a.Usable) (hb : b.Usable)
    (h : Geom2D.or (arrangementOp ch) a b = .ok r) : r.Usable := by
  unfold Geom2D.or at h
  split_ifs at h
  · cases h; exact hb
  · cases h; exact ha
  · exact (arr_fine ch hch [a, b] _ r rfl (pair_usable ha hb) h).usable

theorem fine_lawful (ch : Choices) (hch : ch.Valid) (buffer : Geom2D → ℚ → Except PyErr Geom2D) :
    Lawful (geom2dOps (arrangementOp ch) buffer) (ae (volume : Measure (ℝ × ℝ))) Geom2D.Fine Geom2D.region where
  empty := ⟨fine_empty, Filter.Eventually.of_forall region_empty⟩
  or a b c ha hb h := ⟨or_fine ch hch ha hb h,
    (operators_region' ch hch a b c ha.proper.made hb.proper.made Or (Or.inl ⟨h, rfl⟩)).2⟩
  and a b c ha hb h := ⟨and_fine ch hch ha.usable hb.usable h,
    (operators_region' ch hch a b c ha.proper.made hb.proper.made And (Or.inr (Or.inl ⟨h, rfl⟩))).2⟩
  sub a b c ha hb h := ⟨sub_fine ch hch ha hb.usable h,
    (operators_region' ch hch a b c ha.proper.made hb.proper.made _ (Or.inr (Or.inr ⟨h, rfl⟩))).2⟩
  fingers s v f _ h := makeFingers_fine ch hch s v 0 1 f h
  project s g v _ h := geom2d_projectMade (arrangementOp ch) buffer s g v h
  isEmpty a ha h := (c70_lawful ch hch buffer).isEmpty a ha.proper h

theorem usable_lawful (ch : Choices) (hch : ch.Valid) (buffer : Geom2D → ℚ → Except PyErr Geom2D) :
    Lawful (geom2dOps (arrangementOp ch) buffer) (ae (volume : Measure (ℝ × ℝ))) Geom2D.Usable Geom2D.region where
  empty := ⟨fine_empty.usable, Filter.Eventually.of_forall region_empty⟩
  or a b c ha hb h := ⟨or_usable ch hch ha hb h,
    (operators_region' ch hch a b c ha.made hb.made Or (Or.inl ⟨h, rfl⟩)).2⟩
  and a b c ha hb h := ⟨(and_fine ch hch ha hb h).usable,
    (operators_region' ch hch a b c ha.made hb.made And (Or.inr (Or.inl ⟨h, rfl⟩))).2⟩
  sub a b c ha hb h := ⟨sub_usable ch hch ha hb h,
    (operators_region' ch hch a b c ha.made hb.made _ (Or.inr (Or.inr ⟨h, rfl⟩))).2⟩
  fingers s v f _ h := (makeFingers_fine ch hch s v 0 1 f h).usable
  project s g v _ h := geom2d_projectMade (arrangementOp ch) buffer s g v h
  isEmpty a ha h := (wellMade_lawful ch hch buffer).isEmpty a ha.made h

theorem fine_area (arr : Geom2D.ArrOp) (buffer : Geom2D → ℚ → Except PyErr Geom2D) :
    LawfulArea (geom2dOps arr buffer) (ae (volume : Measure (ℝ × ℝ))) Geom2D.Fine Geom2D.region
      (fun S => volume S) where
  mono _ _ h := measure_mono h
  union _ _ := measure_union_le _ _
  area a q ha h := (proper_area a ha.proper q h).1
  null S h := by
    rw [ae_iff] at h
    simpa using h

theorem fine_polygons (ch : Choices) (hch : ch.Valid) (buffer : Geom2D → ℚ → Except PyErr Geom2D) :
    LawfulPolygons (geom2dOps (arrangementOp ch) buffer) (ae (volume : Measure (ℝ × ℝ))) Geom2D.Fine Geom2D.Usable
      Geom2D.region where
  lawful := usable_lawful ch hch buffer
  weak g h := h.usable
  polygons g h p hp := by
    obtain ⟨s, hs, rfl⟩ := List.mem_map.1 hp
    have key : ∀ t ∈ [s], t ∈ g := by
      intro t ht
      rw [List.mem_singleton] at ht
      rwa [ht]
    exact ⟨fun t ht => h.proper.made t (key t ht), fun t ht => h.outlined.cutting t (key t ht)⟩
  and a b c ha hb h := and_fine ch hch ha hb h
  sub a b c ha hb h := sub_fine ch hch ha hb h

/-! ### `buffer` -/

theorem extGeom_usable {E : List Pt} (hE : E ≠ []) (hc : Cuts E) {r : Geom2D} (h : extGeom (0, 0) E = .ok r) :
    r.Usable := by
  refine ⟨(extGeom_sound hE h (T := polyEdges E) fun p ⟨e, he, ho⟩ => ⟨e, he, ho⟩).1.made, ?_⟩
  unfold extGeom at h
  obtain ⟨a, ha, h⟩ := (bind_ok _ _ _).1 h
  dsimp only at h
  rw [map_add_zero] at h
  obtain ⟨s, hs, h⟩ := (bind_ok _ _ _).1 h
  cases h
  obtain ⟨rfl, -⟩ := (SPWH.mk'_iff _ _ _).1 hs
  intro s hs
  rw [List.mem_singleton] at hs
  subst hs
  refine ⟨?_, by simp⟩
  dsimp only
  split_ifs
  · exact hc.reverse
  · exact hc

theorem minkowskiPoly_fine {C : List Pt} (hC : Conv C) {σ : ℤ} (hσ : σ = 1 ∨ σ = -1) {s : SPWH} (hs : s.Valid)
    (hL : Outline s.outer) {o : Geom2D} {ext : List Geom2D} (h : minkowskiPoly (0, 0) C σ s = .ok (o, ext)) :
    o.Fine ∧ ∀ e ∈ ext, Geom2D.Usable e := by
  unfold minkowskiPoly at h
  obtain ⟨t, ht, h⟩ := (bind_ok _ _ _).1 h
  obtain ⟨s', hs', h⟩ := (bind_ok _ _ _).1 h
  obtain ⟨exts, hexts, h⟩ := (bind_ok _ _ _).1 h
  obtain ⟨ext', hext, h⟩ := (bind_ok _ _ _).1 h
  cases h
  rw [transformed_zero hs ht] at hs'
  obtain ⟨exts', S, h1, h2, -⟩ := hC.ribbon hσ hs.wf.1 hL.sides.nd
  rw [hexts] at h1
  cases h1
  have hf := Geom1D.mapM_except_inv _ _ _ hext
  refine ⟨single_fine hs' hL, fun e he => ?_⟩
  obtain ⟨E, hE, hEe⟩ := forall₂_mem_right hf he
  exact extGeom_usable (List.length_pos_iff.1 (by have := (h2 E hE).1; omega)) (h2 E hE).2.2 hEe

theorem minkowskiPolys_fine {C : List Pt} (hC : Conv C) {σ : ℤ} (hσ : σ = 1 ∨ σ = -1) {g : Geom2D}
    (hg : ∀ s ∈ g, s.Valid ∧ Outline s.outer) {pos neg : List Geom2D}
    (h : minkowskiPolys (0, 0) C σ g = .ok (pos, neg)) :
    (∀ x ∈ pos, Geom2D.Usable x) ∧ (pos.length ≤ 1 → ∀ x ∈ pos, Geom2D.Fine x) ∧ ∀ x ∈ neg, Geom2D.Usable x := by
  induction g generalizing pos neg with
  | nil => cases h; simp
  | cons s g ih =>
    unfold minkowskiPolys at h
    obtain ⟨⟨o, ext⟩, h1, h⟩ := (bind_ok _ _ _).1 h
    obtain ⟨⟨pos', neg'⟩, h2, h⟩ := (bind_ok _ _ _).1 h
    obtain ⟨v, hL⟩ := hg s (List.mem_cons_self ..)
    obtain ⟨a1, a2⟩ := minkowskiPoly_fine hC hσ v hL h1
    obtain ⟨b1, -, b3⟩ := ih (fun s hs => hg s (List.mem_cons_of_mem _ hs)) h2
    have first : ∀ l : List Geom2D, (o :: l).length ≤ 1 → ∀ x ∈ o :: l, Geom2D.Fine x := by
      intro l hl x hx
      have : l = [] := List.length_eq_zero_iff.1 (by rw [List.length_cons] at hl; omega)
      subst this
      rw [List.mem_singleton] at hx
      rwa [hx]
    dsimp only at h
    split_ifs at h
    · cases h
      refine ⟨?_, first _, b3⟩
      intro x hx
      rw [List.mem_append, List.mem_cons] at hx
      rcases hx with (rfl | hx) | hx
      · exact a1.usable
      · exact a2 x hx
      · exact b1 x hx
    · cases h
      refine ⟨?_, first _, ?_⟩
      · intro x hx
        rcases List.mem_cons.1 hx with rfl | hx
        · exact a1.usable
        · exact b1 x hx
      · intro x hx
        rcases List.mem_append.1 hx with hx | hx
        · exact a2 x hx
        · exact b3 x hx

theorem unionTree_usable (ch : Choices) (hch : ch.Valid) (gs : List Geom2D) (hg : ∀ g ∈ gs, Geom2D.Usable g)
    (r : Geom2D) (h : unionTreeAll (arrangementOp ch) gs = .ok r) : r.Usable := by
  by_cases hl : 1 < gs.length
  · exact (unionTree_fine ch hch _ gs hg (Or.inl hl) r h).usable
  · unfold unionTreeAll at h
    rw [Geom2D.unionTree.eq_def] at h
    dsimp only at h
    rw [if_neg hl] at h
    cases gs with
    | nil => cases h; exact fine_empty.usable
    | cons g gs => cases h; exact hg r List.mem_cons_self

theorem op_fine_step (ch : Choices) (hch : ch.Valid) {C : List Pt} (hC : Conv C) {σ : ℤ} (hσ : σ = 1 ∨ σ = -1)
    (hsh : minkowskiShift C σ = .ok ((0, 0), C)) {g : Geom2D} (hg : ∀ s ∈ g, s.Valid ∧ Outline s.outer)
    {fuel : ℕ} (hH : ∀ s ∈ g, ∀ h ∈ s.holes, ∀ s' r', SPWH.mk' h [] = .ok s' →
      minkowskiConvexOp (arrangementOp ch) fuel [s'] C (-σ) = .ok r' → r'.Usable)
    {r : Geom2D} (hr : minkowskiConvexOp (arrangementOp ch) (fuel + 1) g C σ = .ok r) : r.Fine := by
  unfold minkowskiConvexOp at hr
  rw [hsh] at hr
  obtain ⟨⟨off, C'⟩, hr1, hr⟩ := (bind_ok _ _ _).1 hr
  cases hr1
  obtain ⟨⟨pos, neg⟩, hpn, hr⟩ := (bind_ok _ _ _).1 hr
  obtain ⟨hs, hhs, hr⟩ := (bind_ok _ _ _).1 hr
  obtain ⟨gpos, hgpos, hr⟩ := (bind_ok _ _ _).1 hr
  obtain ⟨gneg, hgneg, hr⟩ := (bind_ok _ _ _).1 hr
  obtain ⟨a1, a2, a3⟩ := minkowskiPolys_fine hC hσ hg hpn
  have hf := Geom1D.mapM_except_inv _ _ _ hhs
  refine sub_fine ch hch (unionTree_fine ch hch _ pos a1 ?_ gpos hgpos) (unionTree_usable ch hch _ (fun x hx => ?_) gneg hgneg) hr
  · by_cases h : 1 < pos.length
    · exact Or.inl h
    · exact Or.inr (a2 (by omega))
  · rcases List.mem_append.1 hx with hx | hx
    · exact a3 x hx
    · obtain ⟨h, hm, hb⟩ := forall₂_mem_right hf hx
      obtain ⟨s', e1, e2⟩ := (bind_ok _ _ _).1 hb
      obtain ⟨s, hs, hh⟩ := List.mem_flatMap.1 hm
      exact hH s hs h hh s' x e1 e2

/-- What the Minkowski steps give for a geom whose loops are all outlines. -/
theorem op_fine (ch : Choices) (hch : ch.Valid) {C : List Pt} (hC : Conv C) {σ : ℤ} (hσ : σ = 1 ∨ σ = -1)
    (hsh : ∀ σ : ℤ, σ = 1 ∨ σ = -1 → minkowskiShift C σ = .ok ((0, 0), C)) {g : Geom2D} (hg : g.WellMade)
    (ho : g.Outlined) {r : Geom2D} (hr : minkowskiConvexOp (arrangementOp ch) 2 g C σ = .ok r) : r.Fine := by
  have hσ' : -σ = 1 ∨ -σ = -1 := by rcases hσ with rfl | rfl <;> simp
  refine op_fine_step ch hch hC hσ (hsh σ hσ) (fun s hs => ⟨((SPWH.mk'_iff _ _ _).1 (hg s hs)).2, (ho s hs).1⟩) ?_ hr
  intro s hs h hh s' r' h1 h2
  obtain ⟨rfl, hv⟩ := (SPWH.mk'_iff _ _ _).1 h1
  refine (op_fine_step ch hch hC hσ' (hsh _ hσ') (g := [⟨h, []⟩]) (fuel := 0) (fun s'' hs'' => ?_) (fun s'' hs'' h' hh' => ?_) h2).usable
  · rw [List.mem_singleton] at hs''
    subst hs''
    exact ⟨hv, (ho s hs).2 h hh⟩
  · rw [List.mem_singleton] at hs''
    subst hs''
    simp at hh'

/-- The `sqrt` used by `buffer_of_size`, as far as it matters: of 1 and of 2. -/
structure RootLike (sq : ℚ → ℚ) : Prop where
  pos : 0 < sq 1
  lt : sq 1 < sq 2
  lt2 : sq 2 < 2 * sq 1

/-- The polygon of `buffer`. -/
def bufOct (sq : ℚ → ℚ) (amount : ℚ) : List Pt := octagon (|amount| / sq 1) (|amount| / sq 2)

theorem RootLike.oct {sq : ℚ → ℚ} (h : RootLike sq) {amount : ℚ} (h0 : amount ≠ 0) :
    0 < |amount| / sq 2 ∧ |amount| / sq 2 < |amount| / sq 1 ∧ |amount| / sq 1 < 2 * (|amount| / sq 2) := by
  have ha : 0 < |amount| := abs_pos.2 h0
  have h2 : 0 < sq 2 := h.pos.trans h.lt
  refine ⟨div_pos ha h2, div_lt_div_of_pos_left ha h.pos h.lt, ?_⟩
  rw [← mul_div_assoc, div_lt_div_iff₀ h.pos h2]
  nlinarith [h.lt2]

theorem bufOct_conv {sq : ℚ → ℚ} (h : RootLike sq) {amount : ℚ} (h0 : amount ≠ 0) : Conv (bufOct sq amount) := by
  obtain ⟨a, b, c⟩ := h.oct h0
  exact octagon_conv a b c

theorem bufOct_symm {sq : ℚ → ℚ} (h : RootLike sq) {amount : ℚ} (h0 : amount ≠ 0) (w : Pt) :
    InConvex (bufOct sq amount) (-w) ↔ InConvex (bufOct sq amount) w := by
  obtain ⟨a, b, c⟩ := h.oct h0
  exact octagon_symm a b c w

theorem bufOct_shift {sq : ℚ → ℚ} (h : RootLike sq) {amount : ℚ} (h0 : amount ≠ 0) (σ : ℤ) (hσ : σ = 1 ∨ σ = -1) :
    minkowskiShift (bufOct sq amount) σ = .ok ((0, 0), bufOct sq amount) := by
  obtain ⟨a, b, _⟩ := h.oct h0
  exact octagon_shift a b (by rcases hσ with rfl | rfl <;> decide)

theorem bufferBy_eq (arr : Geom2D.ArrOp) {sq : ℚ → ℚ} (h : RootLike sq) (g : Geom2D) {amount : ℚ} (h0 : amount ≠ 0) :
    Geom2D.bufferBy arr sq g amount =
      minkowskiConvexOp arr 2 g (bufOct sq amount) (if amount > 0 then 1 else -1) := by
  unfold Geom2D.bufferBy
  rw [if_neg h0, buffer_octagon sq _ (abs_pos.2 h0).ne' h.pos.ne' (h.pos.trans h.lt).ne']
  rfl

/-- Given a geom whose loops are outlines, `buffer` gives one too, and its polygons do not overlap and none
of its edges has the same side on its left and on its right. -/
theorem buffer_fine (ch : Choices) (hch : ch.Valid) {sq : ℚ → ℚ} (hsq : RootLike sq) {g : Geom2D} (hg : g.WellMade)
    (ho : g.Outlined) {amount : ℚ} (h0 : amount ≠ 0) {r : Geom2D}
    (h : Geom2D.bufferBy (arrangementOp ch) sq g amount = .ok r) : r.Fine := by
  rw [bufferBy_eq _ hsq g h0] at h
  refine op_fine ch hch (bufOct_conv hsq h0) ?_ (bufOct_shift hsq h0) hg ho h
  split_ifs <;> simp

theorem buffer_fine' (ch : Choices) (hch : ch.Valid) {sq : ℚ → ℚ} (hsq : RootLike sq) {g : Geom2D} (hg : g.Fine)
    {amount : ℚ} {r : Geom2D} (h : Geom2D.bufferBy (arrangementOp ch) sq g amount = .ok r) : r.Fine := by
  by_cases h0 : amount = 0
  · unfold Geom2D.bufferBy at h
    rw [if_pos h0] at h
    cases h; exact hg
  · exact buffer_fine ch hch hsq hg.proper.made hg.outlined h0 h

end Ply
