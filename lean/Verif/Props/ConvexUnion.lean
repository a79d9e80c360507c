import Verif.Props.BoxUnion
import Verif.Props.ConvexRing

/-!
# C112: the union of two convex polygons
-/

namespace Ply

open Arr

/-- All constraints `α + t γ ≤ 0` that hold for `t = 0` hold for all `t ≥ 0`, or exactly up to some `t`. -/
theorem last_time (F : List (ℚ × ℚ)) (h : ∀ f ∈ F, f.1 ≤ 0) :
    (∀ f ∈ F, f.2 ≤ 0) ∨ ∃ M, ∀ t, 0 ≤ t → ((∀ f ∈ F, f.1 + t * f.2 ≤ 0) ↔ t ≤ M) := by
  induction F with
  | nil => left; simp
  | cons f F ih =>
    obtain ⟨α, γ⟩ := f
    have h0 : α ≤ 0 := h _ List.mem_cons_self
    have one : 0 < γ → ∀ t, (α + t * γ ≤ 0 ↔ t ≤ -α / γ) := fun hg t => by
      rw [le_div_iff₀ hg]
      constructor <;> intro _ <;> linarith
    rcases ih fun f hf => h f (List.mem_cons_of_mem _ hf) with ih | ⟨M, hM⟩
    · rcases le_or_gt γ 0 with hg | hg
      · exact Or.inl (List.forall_mem_cons.2 ⟨hg, ih⟩)
      · refine Or.inr ⟨-α / γ, fun t ht => ?_⟩
        rw [List.forall_mem_cons]
        dsimp only
        rw [one hg t, and_iff_left]
        intro f hf
        have := h f (List.mem_cons_of_mem _ hf)
        have := mul_nonpos_of_nonneg_of_nonpos ht (ih f hf)
        linarith
    · rcases le_or_gt γ 0 with hg | hg
      · refine Or.inr ⟨M, fun t ht => ?_⟩
        rw [List.forall_mem_cons, hM t ht, and_iff_right]
        have := mul_nonpos_of_nonneg_of_nonpos ht hg
        dsimp only
        linarith
      · refine Or.inr ⟨min (-α / γ) M, fun t ht => ?_⟩
        rw [List.forall_mem_cons, hM t ht, le_min_iff]
        dsimp only
        rw [one hg t]

/-- A short way from a point inside stays inside. -/
theorem short_way (S : List Seg) (p q : Pt) (h : ∀ e ∈ S, orient e.1 e.2 p < 0) :
    ∃ ε, 0 < ε ∧ ε ≤ 1 ∧ ∀ δ, 0 ≤ δ → δ ≤ ε → ∀ e ∈ S, orient e.1 e.2 (along (p, q) δ) < 0 := by
  induction S with
  | nil => exact ⟨1, one_pos, le_rfl, by simp⟩
  | cons a S ih =>
    obtain ⟨ε, e0, e1, hε⟩ := ih fun e he => h e (List.mem_cons_of_mem _ he)
    obtain ⟨A, hA⟩ : ∃ A, A = orient a.1 a.2 p := ⟨_, rfl⟩
    obtain ⟨B, hB⟩ : ∃ B, B = orient a.1 a.2 q := ⟨_, rfl⟩
    have hneg : A < 0 := hA ▸ h a List.mem_cons_self
    have hpos : 0 < 2 * (-A + |B|) := by have := abs_nonneg B; linarith
    refine ⟨min ε (-A / (2 * (-A + |B|))), lt_min e0 (div_pos (by linarith) hpos), (min_le_left _ _).trans e1, fun δ d0 d1 => ?_⟩
    refine List.forall_mem_cons.2 ⟨?_, hε δ d0 (d1.trans (min_le_left _ _))⟩
    rw [orient_on_edge]
    dsimp only
    rw [← hA, ← hB]
    have hd := d1.trans (min_le_right _ _)
    rw [le_div_iff₀ hpos] at hd
    have := mul_le_mul_of_nonneg_left (le_abs_self B) d0
    nlinarith

section

variable {P Q : List Pt} (hP : ConvexRing P) (hQ : ConvexRing Q) (hn : ∀ p, InPoly P p → ¬ InPoly Q p)
include hP hQ hn

theorem convex_apart {p : Pt} (h1 : InPoly P p) (h2 : ∀ e ∈ polyEdges Q, orient e.1 e.2 p ≤ 0) : False := by
  obtain ⟨q, hq⟩ := hQ.inner
  obtain ⟨ε, e0, e1, hε⟩ := short_way _ p q ((hP.inPoly_iff p).1 h1)
  refine hn (along (p, q) ε) ((hP.inPoly_iff _).2 (hε ε e0.le le_rfl)) ((hQ.inPoly_iff _).2 fun e he => ?_)
  rw [orient_on_edge]
  have a := h2 e he
  have b := (hQ.inPoly_iff q).1 hq e he
  dsimp only
  have := mul_nonpos_of_nonneg_of_nonpos (sub_nonneg.2 e1) a
  have := mul_neg_of_pos_of_neg e0 b
  linarith

theorem convex_common (p : Pt) : OnBoundary P p ∧ OnBoundary Q p ↔ ∀ e ∈ polyEdges P ++ polyEdges Q, orient e.1 e.2 p ≤ 0 := by
  rw [List.forall_mem_append]
  constructor
  · exact fun h => ⟨(hP.closed_iff p).1 (Or.inr h.1), (hQ.closed_iff p).1 (Or.inr h.2)⟩
  · rintro ⟨h1, h2⟩
    exact ⟨((hP.closed_iff p).2 h1).resolve_left fun hi => convex_apart hP hQ hn hi h2,
      ((hQ.closed_iff p).2 h2).resolve_left fun hi => convex_apart hQ hP (fun p a b => hn p b a) hi h1⟩

/-- Convex rings that do not overlap have at most one common point, or their common points are one straight stretch. -/
theorem convex_seam : (∀ p q, OnBoundary P p ∧ OnBoundary Q p → OnBoundary P q ∧ OnBoundary Q q → p = q) ∨
      ∃ x y, x ≠ y ∧ ∀ p, OnBoundary P p ∧ OnBoundary Q p ↔ OnSeg (x, y) p := by
  simp only [convex_common hP hQ hn]
  obtain ⟨F, hF⟩ : ∃ F, F = polyEdges P ++ polyEdges Q := ⟨_, rfl⟩
  have line : ∀ x y z, (∀ e ∈ F, orient e.1 e.2 x ≤ 0) → (∀ e ∈ F, orient e.1 e.2 y ≤ 0) → (∀ e ∈ F, orient e.1 e.2 z ≤ 0) →
      orient x y z = 0 := by
    intro x y z hx hy hz
    by_contra hc
    rw [hF, List.forall_mem_append] at hx hy hz
    exact hn _ (hP.middle hx.1 hy.1 hz.1 hc) (hQ.middle hx.2 hy.2 hz.2 hc)
  have lead : ∀ w : Pt, w ≠ 0 → ∃ e ∈ F, 0 < cross (dir e) w := fun w hw => by
    obtain ⟨e, he, h0⟩ := hP.leads hw
    exact ⟨e, by rw [hF]; exact List.mem_append_left _ he, h0⟩
  rw [← hF]
  clear hP hQ hn hF
  by_cases hone : ∀ p q, (∀ e ∈ F, orient e.1 e.2 p ≤ 0) → (∀ e ∈ F, orient e.1 e.2 q ≤ 0) → p = q
  · exact Or.inl hone
  right
  push Not at hone
  obtain ⟨x, y, hx, hy, hxy⟩ := hone
  have val : ∀ (e : Seg) (t : ℚ), orient e.1 e.2 (along (x, y) t) = orient e.1 e.2 x + t * cross (dir e) (y - x) := by
    intro e t
    unfold orient along cross dir
    simp only [Prod.fst_sub, Prod.snd_sub]
    ring
  have hw : y - x ≠ 0 := sub_ne_zero.2 hxy.symm
  have up : ∀ σ : ℚ, σ ≠ 0 → ∃ M, ∀ t, 0 ≤ t → ((∀ e ∈ F, orient e.1 e.2 x + t * (σ * cross (dir e) (y - x)) ≤ 0) ↔ t ≤ M) := by
    intro σ hσ
    rcases last_time (F.map fun e => (orient e.1 e.2 x, σ * cross (dir e) (y - x))) (by
      intro f hf
      obtain ⟨e, he, rfl⟩ := List.mem_map.1 hf
      exact hx e he) with h | ⟨M, hM⟩
    · obtain ⟨e, he, h0⟩ := lead (σ • (y - x)) (smul_ne_zero hσ hw)
      have := h _ (List.mem_map.2 ⟨e, he, rfl⟩)
      dsimp only at this
      have e1 : cross (dir e) (σ • (y - x)) = σ * cross (dir e) (y - x) := by
        unfold cross; simp only [Prod.smul_fst, Prod.smul_snd, smul_eq_mul]; ring
      rw [e1] at h0
      linarith
    · refine ⟨M, fun t ht => ?_⟩
      rw [← hM t ht, List.forall_mem_map]
  obtain ⟨M, hM⟩ := up 1 one_ne_zero
  obtain ⟨N, hN⟩ := up (-1) (by norm_num)
  have hM1 : 1 ≤ M := (hM 1 zero_le_one).1 fun e he => by
    have := hy e he
    have e1 : along (x, y) 1 = y := by unfold along; ext <;> simp
    rw [← e1, val] at this
    linarith
  have hN0 : 0 ≤ N := (hN 0 le_rfl).1 fun e he => by
    have := hx e he
    linarith
  have all : ∀ t, (∀ e ∈ F, orient e.1 e.2 (along (x, y) t) ≤ 0) ↔ -N ≤ t ∧ t ≤ M := by
    intro t
    simp only [val]
    rcases le_total 0 t with ht | ht
    · rw [and_iff_right (by linarith), ← hM t ht]
      simp only [one_mul]
    · rw [and_iff_left (by linarith), neg_le, ← hN (-t) (by linarith)]
      simp only [neg_mul, one_mul, mul_neg, neg_neg]
  have hd : -N < M := by linarith
  have aff : ∀ s, along (along (x, y) (-N), along (x, y) M) s = along (x, y) (-N + s * (M + N)) := by
    intro s
    unfold along
    ext <;> simp only <;> ring
  have inj : ∀ s t, along (x, y) s = along (x, y) t → s = t := by
    intro s t he
    by_contra hc
    unfold along at he
    rw [Prod.mk.injEq] at he
    obtain ⟨h1, h2⟩ := he
    dsimp only at h1 h2
    have k1 : (s - t) * (y.1 - x.1) = 0 := by linear_combination h1
    have k2 : (s - t) * (y.2 - x.2) = 0 := by linear_combination h2
    have m1 := (mul_eq_zero.1 k1).resolve_left (sub_ne_zero.2 hc)
    have m2 := (mul_eq_zero.1 k2).resolve_left (sub_ne_zero.2 hc)
    exact hxy (Prod.ext (by linarith) (by linarith))
  refine ⟨along (x, y) (-N), along (x, y) M, fun he => hd.ne (inj _ _ he), fun p => ?_⟩
  constructor
  · intro hp
    obtain ⟨t, rfl⟩ : ∃ t, p = along (x, y) t := by
      have h0 := line x y p hx hy hp
      unfold orient at h0
      by_cases h1 : y.1 - x.1 = 0
      · have h2 : y.2 - x.2 ≠ 0 := fun h2 => hxy (Prod.ext (by linarith) (by linarith))
        refine ⟨(p.2 - x.2) / (y.2 - x.2), ?_⟩
        unfold along
        ext
        · dsimp only
          rw [h1] at h0 ⊢
          have := (mul_eq_zero.1 (by linarith : (y.2 - x.2) * (p.1 - x.1) = 0)).resolve_left h2
          linarith
        · dsimp only; field_simp; ring
      · refine ⟨(p.1 - x.1) / (y.1 - x.1), ?_⟩
        unfold along
        ext
        · dsimp only; field_simp; ring
        · dsimp only; field_simp; linarith
    obtain ⟨h1, h2⟩ := (all t).1 hp
    have hpos : 0 < M + N := by linarith
    refine ⟨(t + N) / (M + N), div_nonneg (by linarith) hpos.le, (div_le_one hpos).2 (by linarith), ?_⟩
    rw [aff, div_mul_cancel₀ _ hpos.ne']
    congr 1; ring
  · rintro ⟨s, s0, s1, rfl⟩
    rw [aff]
    exact (all _).2 ⟨by nlinarith, by nlinarith⟩

end

/-- C112: the union of two convex polygons never raises, however they lie to each other, and it holds exactly their points. -/
theorem c112_or (ch : Choices) (hch : ch.Valid) {P Q : List Pt} (hP : ConvexRing P) (hQ : ConvexRing Q) (re : Bool) :
    ∃ a b r, Geom2D.polygon P re = .ok a ∧ Geom2D.polygon Q re = .ok b ∧ Geom2D.or (arrangementOp ch) a b = .ok r ∧ r.Fine ∧
      ∀ p, r.Has p ↔ (∀ e ∈ polyEdges P, orient e.1 e.2 p ≤ 0) ∨ ∀ e ∈ polyEdges Q, orient e.1 e.2 p ≤ 0 := by
  obtain ⟨o, ho⟩ := hP.inner
  obtain ⟨o', ho'⟩ := hQ.inner
  have sP : StarRing o P := ⟨hP.simple, (hP.inPoly_iff o).1 ho⟩
  have sQ : StarRing o' Q := ⟨hQ.simple, (hQ.inPoly_iff o').1 ho'⟩
  have has : ∀ {L : List Pt}, ConvexRing L → L ≠ [] → ∀ p, (ringGeom L).Has p ↔ ∀ e ∈ polyEdges L, orient e.1 e.2 p ≤ 0 := by
    intro L hL h0 p
    obtain ⟨v, h1, h2, h3, -⟩ := locate_single L h0 p
    unfold Geom2D.Has ringGeom
    rw [h1, Except.ok.injEq, Except.ok.injEq, h2, h3, hL.closed_iff]
  suffices h : ∃ r, Geom2D.or (arrangementOp ch) (ringGeom P) (ringGeom Q) = .ok r by
    obtain ⟨r, hr⟩ := h
    exact ⟨_, _, r, sP.polygon re, sQ.polygon re, hr, or_fine ch hch sP.fine sQ.fine hr, fun p => by
      rw [c78_or ch hch sP.fine sQ.fine hr, has hP sP.ne, has hQ sQ.ne]⟩
  by_cases h : ∃ p, InPoly P p ∧ InPoly Q p
  · obtain ⟨c, h1, h2⟩ := h
    obtain ⟨⟨R, hR, -⟩, -⟩ := c104_step ch hch (o := c) ⟨hP.simple, (hP.inPoly_iff c).1 h1⟩ ⟨hQ.simple, (hQ.inPoly_iff c).1 h2⟩
    exact ⟨_, hR⟩
  · have hn : ∀ p, InPoly P p → ¬ InPoly Q p := fun p h1 h2 => h ⟨p, h1, h2⟩
    obtain ⟨r, hr, -⟩ := c96_or ch hch (touching_pair hP.simple hQ.simple hP.cw hQ.cw hn (convex_seam hP hQ hn)) _ _ sP.fine sQ.fine
      (by intro s hs; simp only [ringGeom, List.mem_singleton] at hs; subst hs; simp)
      (by intro s hs; simp only [ringGeom, List.mem_singleton] at hs; subst hs; simp)
    exact ⟨r, hr⟩

/-- C112: if the polygons overlap, the union is one simple ring without holes; its corners are corners of the polygons or
crossings of their edges. -/
theorem c112_one (ch : Choices) (hch : ch.Valid) {P Q : List Pt} (hP : ConvexRing P) (hQ : ConvexRing Q) (re : Bool) {c : Pt}
    (h1 : ∀ e ∈ polyEdges P, orient e.1 e.2 c < 0) (h2 : ∀ e ∈ polyEdges Q, orient e.1 e.2 c < 0) :
    ∃ a b R, Geom2D.polygon P re = .ok a ∧ Geom2D.polygon Q re = .ok b ∧ Geom2D.or (arrangementOp ch) a b = .ok [⟨R, []⟩] ∧
      SimpleRing R ∧ ∀ v ∈ R, EventPoint (polyEdges P ++ polyEdges Q) v := by
  have sP : StarRing c P := ⟨hP.simple, h1⟩
  have sQ : StarRing c Q := ⟨hQ.simple, h2⟩
  obtain ⟨⟨R, hR, hS, -⟩, -⟩ := c104_step ch hch sP sQ
  refine ⟨_, _, R, sP.polygon re, sQ.polygon re, hR, hS.simple, fun v hv => ?_⟩
  have := c108_operators ch hch sP.fine.proper.made sQ.fine.proper.made (Or.inl hR) (s := ⟨R, []⟩) (by simp [ringGeom]) (Or.inl hv)
  simpa [ringGeom, Geom2D.allSegments, SPWH.segments, edgesIter_eq] using this

/-- Convex rings whose insides are apart and that make no closed chain. -/
theorem convex_touching {Ls : List (List Pt)} (hL : ∀ L ∈ Ls, ConvexRing L) (ha : ∀ L ∈ Ls, ∀ M ∈ Ls, ∀ p, InPoly L p → InPoly M p → L = M)
    (hf : ∀ F : List (List Pt), F ≠ [] → F.Nodup → (∀ L ∈ F, L ∈ Ls) →
      ∃ L ∈ F, ∀ M ∈ F, ∀ N ∈ F, M ≠ L → N ≠ L → Meet L M → Meet L N → M = N) : Touching Ls where
  clear := ⟨fun L h => (hL L h).simple, fun L h => (hL L h).cw, ha⟩
  seam L h1 M h2 hn := convex_seam (hL L h1) (hL M h2) fun p a b => hn (ha L h1 M h2 p a b)
  forest := hf

/-- C112: the same for the union of at most 64 convex polygons that do not overlap, if they make no closed chain. -/
theorem c112_union (ch : Choices) (hch : ch.Valid) {Ls : List (List Pt)} (hL : ∀ L ∈ Ls, ConvexRing L)
    (ha : ∀ L ∈ Ls, ∀ M ∈ Ls, ∀ p, InPoly L p → InPoly M p → L = M)
    (hf : ∀ F : List (List Pt), F ≠ [] → F.Nodup → (∀ L ∈ F, L ∈ Ls) →
      ∃ L ∈ F, ∀ M ∈ F, ∀ N ∈ F, M ≠ L → N ≠ L → Meet L M → Meet L N → M = N)
    (hn : Ls.length ≤ 64) (fuel : ℕ) (hfuel : Ls.length + 4 ≤ fuel) :
    ∃ r, Geom2D.union (arrangementOp ch) fuel (Ls.map ringGeom) = .ok r ∧ r.Fine ∧
      ∀ p, r.Has p ↔ ∃ L ∈ Ls, ∀ e ∈ polyEdges L, orient e.1 e.2 p ≤ 0 := by
  have fine : ∀ L ∈ Ls, (ringGeom L).Fine ∧ ∀ p, (ringGeom L).Has p ↔ ∀ e ∈ polyEdges L, orient e.1 e.2 p ≤ 0 := by
    intro L h
    obtain ⟨o, ho⟩ := (hL L h).inner
    have sL : StarRing o L := ⟨(hL L h).simple, ((hL L h).inPoly_iff o).1 ho⟩
    refine ⟨sL.fine, fun p => ?_⟩
    obtain ⟨v, h1, h2, h3, -⟩ := locate_single L sL.ne p
    unfold Geom2D.Has ringGeom
    rw [h1, Except.ok.injEq, Except.ok.injEq, h2, h3, (hL L h).closed_iff]
  obtain ⟨r, h1, h2, h3⟩ := c96_union ch hch (convex_touching hL ha hf) (Ls.map ringGeom)
    (List.forall_mem_map.2 fun L h => (fine L h).1)
    (List.forall_mem_map.2 fun L h s hs => by simp only [ringGeom, List.mem_singleton] at hs; subst hs; exact ⟨h, rfl⟩)
    (by rwa [List.length_map]) fuel (by rwa [List.length_map])
  refine ⟨r, h1, h2, fun p => ?_⟩
  rw [h3]
  constructor
  · rintro ⟨g, hg, hp⟩
    obtain ⟨L, h, rfl⟩ := List.mem_map.1 hg
    exact ⟨L, h, ((fine L h).2 p).1 hp⟩
  · rintro ⟨L, h, hp⟩
    exact ⟨_, List.mem_map.2 ⟨L, h, rfl⟩, ((fine L h).2 p).2 hp⟩

/-! ### Example -/

def triP : List Pt := [(0, 0), (0, 6), (6, 0)]
def triQ : List Pt := [(1, 5), (6, 6), (4, 2)]

theorem triP_bulge : Bulge triP where
  long := by simp [triP]
  nodup := by simp [triP]
  strict e he v hv := by
    simp only [triP, polyEdges, List.cons_append, List.nil_append, List.zip_cons_cons, List.zip_nil_right, List.mem_cons,
      List.not_mem_nil, or_false] at he hv
    rcases he with rfl | rfl | rfl <;> rcases hv with rfl | rfl | rfl <;> norm_num [orient]

theorem triP_convex : ConvexRing triP :=
  ⟨triP_bulge.simple, by norm_num [shoelace, triP, polyEdges, cross], fun _ he _ hv => triP_bulge.le he hv⟩

theorem triQ_bulge : Bulge triQ where
  long := by simp [triQ]
  nodup := by simp [triQ]
  strict e he v hv := by
    simp only [triQ, polyEdges, List.cons_append, List.nil_append, List.zip_cons_cons, List.zip_nil_right, List.mem_cons,
      List.not_mem_nil, or_false] at he hv
    rcases he with rfl | rfl | rfl <;> rcases hv with rfl | rfl | rfl <;> norm_num [orient]

theorem triQ_convex : ConvexRing triQ :=
  ⟨triQ_bulge.simple, by norm_num [shoelace, triQ, polyEdges, cross], fun _ he _ hv => triQ_bulge.le he hv⟩

/-- C112: two triangles that touch along a part of a slanting edge, for all orders of sets and dictionaries.  The points
of the common stretch are in the union, points beside its ends are not. -/
theorem c112_example (ch : Choices) (hch : ch.Valid) :
    ∃ a b r, Geom2D.polygon triP true = .ok a ∧ Geom2D.polygon triQ true = .ok b ∧ Geom2D.or (arrangementOp ch) a b = .ok r ∧
      r.Has (3, 3) ∧ r.Has (5, 5) ∧ ¬ r.Has (1 / 2, 6) ∧ ¬ r.Has (5, 2) := by
  obtain ⟨a, b, r, h1, h2, h3, -, hp⟩ := c112_or ch hch triP_convex triQ_convex true
  refine ⟨a, b, r, h1, h2, h3, ?_, ?_, ?_, ?_⟩ <;> rw [hp] <;> norm_num [triP, triQ, polyEdges, orient]

def triR : List Pt := [(6, 6), (6, 9), (9, 9)]

theorem triR_bulge : Bulge triR where
  long := by simp [triR]
  nodup := by simp [triR]
  strict e he v hv := by
    simp only [triR, polyEdges, List.cons_append, List.nil_append, List.zip_cons_cons, List.zip_nil_right, List.mem_cons,
      List.not_mem_nil, or_false] at he hv
    rcases he with rfl | rfl | rfl <;> rcases hv with rfl | rfl | rfl <;> norm_num [orient]

theorem triR_convex : ConvexRing triR :=
  ⟨triR_bulge.simple, by norm_num [shoelace, triR, polyEdges, cross], fun _ he _ hv => triR_bulge.le he hv⟩

/-- C112: three triangles; the third one touches the second one in a corner. -/
theorem c112_chain (ch : Choices) (hch : ch.Valid) :
    ∃ r, Geom2D.union (arrangementOp ch) 7 [ringGeom triP, ringGeom triQ, ringGeom triR] = .ok r ∧ r.Has (3, 3) ∧ r.Has (6, 6) ∧
      r.Has (7, 8) ∧ ¬ r.Has (7, 6) := by
  have mem : ∀ L ∈ [triP, triQ, triR], L = triP ∨ L = triQ ∨ L = triR := by simp
  have hL : ∀ L ∈ [triP, triQ, triR], ConvexRing L := fun L h => by
    rcases mem L h with rfl | rfl | rfl
    exacts [triP_convex, triQ_convex, triR_convex]
  have iP : ∀ p, InPoly triP p → p.1 + p.2 < 6 := fun p h => by
    have := (triP_convex.inPoly_iff p).1 h ((0, 6), (6, 0)) (by simp [triP, polyEdges])
    unfold orient at this; linarith
  have iQ : ∀ p, InPoly triQ p → 6 < p.1 + p.2 ∧ 5 * p.2 - p.1 < 24 := fun p h => by
    have a := (triQ_convex.inPoly_iff p).1 h ((4, 2), (1, 5)) (by simp [triQ, polyEdges])
    have b := (triQ_convex.inPoly_iff p).1 h ((1, 5), (6, 6)) (by simp [triQ, polyEdges])
    unfold orient at a b; constructor <;> linarith
  have iR : ∀ p, InPoly triR p ∨ OnBoundary triR p → 6 ≤ p.1 ∧ p.1 ≤ p.2 := fun p h => by
    have a := (triR_convex.closed_iff p).1 h ((6, 6), (6, 9)) (by simp [triR, polyEdges])
    have b := (triR_convex.closed_iff p).1 h ((9, 9), (6, 6)) (by simp [triR, polyEdges])
    unfold orient at a b; constructor <;> linarith
  have apart : ∀ p, ¬ (InPoly triP p ∧ InPoly triQ p) ∧ ¬ (InPoly triP p ∧ InPoly triR p) ∧ ¬ (InPoly triQ p ∧ InPoly triR p) := fun p =>
    ⟨fun h => by have := iP p h.1; have := iQ p h.2; linarith, fun h => by have := iP p h.1; have := iR p (Or.inl h.2); linarith,
      fun h => by have := iQ p h.1; have := iR p (Or.inl h.2); linarith⟩
  have far : ¬ Meet triP triR := by
    rintro ⟨p, h1, h2⟩
    have a := (triP_convex.closed_iff p).1 (Or.inr h1) ((0, 6), (6, 0)) (by simp [triP, polyEdges])
    have b := iR p (Or.inr h2)
    unfold orient at a; linarith
  obtain ⟨r, h1, -, hp⟩ := c112_union ch hch hL (by
    intro L hl M hm p h1 h2
    obtain ⟨a, b, c⟩ := apart p
    rcases mem L hl with rfl | rfl | rfl <;> rcases mem M hm with rfl | rfl | rfl
    exacts [rfl, (a ⟨h1, h2⟩).elim, (b ⟨h1, h2⟩).elim, (a ⟨h2, h1⟩).elim, rfl, (c ⟨h1, h2⟩).elim, (b ⟨h2, h1⟩).elim, (c ⟨h2, h1⟩).elim,
      rfl]) (by
    intro F hF _ hs
    by_cases hP : triP ∈ F
    · refine ⟨triP, hP, fun M hM N hN m n m1 n1 => ?_⟩
      have key : ∀ M ∈ F, M ≠ triP → Meet triP M → M = triQ := fun M hM m m1 => by
        rcases mem M (hs M hM) with rfl | rfl | rfl
        · exact absurd rfl m
        · rfl
        · exact absurd m1 far
      rw [key M hM m m1, key N hN n n1]
    · obtain ⟨L, hL⟩ := List.exists_mem_of_ne_nil F hF
      refine ⟨L, hL, fun M hM N hN m n _ _ => ?_⟩
      have key : ∀ M ∈ F, M = triQ ∨ M = triR := fun M hM => by
        rcases mem M (hs M hM) with rfl | h
        · exact absurd hM hP
        · exact h
      rcases key L hL with rfl | rfl <;> rcases key M hM with rfl | rfl <;> rcases key N hN with rfl | rfl <;>
        first | rfl | exact absurd rfl m | exact absurd rfl n) (by simp) 7 (by simp)
  refine ⟨r, h1, ?_, ?_, ?_, ?_⟩ <;> rw [hp] <;>
    simp only [List.exists_mem_cons_iff, List.not_mem_nil, false_and, exists_false, or_false, triP, triQ, triR, polyEdges,
      List.cons_append, List.nil_append, List.zip_cons_cons, List.zip_nil_right, List.forall_mem_cons] <;> norm_num [orient]

end Ply
