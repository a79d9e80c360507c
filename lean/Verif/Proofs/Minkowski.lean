import Verif.Proofs.Octagon
import Verif.Proofs.Outline
import Verif.Proofs.ArrSound

/-! # The Minkowski operations off finitely many segments -/

namespace Ply

/-- Every polygon passed the constructor and the edges are on given segments. -/
structure Geom2D.Tame (T : List Seg) (g : Geom2D) : Prop where
  made : g.WellMade
  edge : ∀ p, g.OnEdge p → OnAny T p

theorem OnAny.mono {S T : List Seg} (h : ∀ s ∈ S, s ∈ T) {p : Pt} (hp : OnAny S p) : OnAny T p :=
  let ⟨s, hs, ho⟩ := hp; ⟨s, h s hs, ho⟩

theorem Geom2D.Tame.mono {S T : List Seg} (h : ∀ s ∈ S, s ∈ T) {g : Geom2D} (hg : g.Tame S) : g.Tame T :=
  ⟨hg.made, fun p hp => (hg.edge p hp).mono h⟩

theorem Geom2D.tame_nil (T : List Seg) : Geom2D.Tame T [] :=
  ⟨by intro s hs; simp at hs, by rintro q ⟨s, hs, _⟩; simp at hs⟩

theorem locate_one {g : Geom2D} (hg : g.WellMade) (p : Pt) :
    Geom2D.locate g p = .ok 1 ↔ ∃ s ∈ g, InRegion s.outer s.holes p := by
  obtain ⟨v, h1, h2, _⟩ := c31_locate g hg p
  rw [h1, Except.ok.injEq, h2]

theorem unionTreeAll_sound {arr : Geom2D.ArrOp} (ha : ArrSound arr) {gs : List Geom2D} {T : List Seg}
    (hg : ∀ g ∈ gs, Geom2D.Tame T g) {r : Geom2D} (hr : unionTreeAll arr gs = .ok r) :
    r.Tame T ∧ ∀ p, ¬ OnAny T p → (Geom2D.locate r p = .ok 1 ↔ ∃ g ∈ gs, Geom2D.locate g p = .ok 1) := by
  have step : ∀ gs r, arr gs (fun args => args.any id) = .ok r → (∀ g ∈ gs, Geom2D.Tame T g) →
      r.Tame T ∧ ∀ p, ¬ OnAny T p → (Geom2D.locate r p = .ok 1 ↔ ∃ g ∈ gs, Geom2D.locate g p = .ok 1) := by
    intro gs r h hgood
    obtain ⟨a, b, c⟩ := ha gs _ r (by simp) (fun g hg => (hgood g hg).made) h
    refine ⟨⟨a, fun q hq => ?_⟩, fun p hp => ?_⟩
    · obtain ⟨g, hg, hq'⟩ := b q hq
      exact (hgood g hg).edge q hq'
    · rw [c p fun g hg hq => hp ((hgood g hg).edge p hq)]
      simp
  constructor
  · rcases Geom2D.unionTree_spec arr (fun _ => False) (Geom2D.Tame T)
      (fun gs r h hgood => ⟨(step gs r h hgood).1, by simp⟩) (Geom2D.tame_nil T) (by simp) _ gs
      (by omega : gs.length + 3 ≤ gs.length + 4) with ⟨r', h1, h2⟩ | ⟨e, _, h1, _⟩
    · rw [show Geom2D.unionTree arr (gs.length + 4) gs = .ok r from hr] at h1
      cases h1
      exact (h2 hg).1
    · rw [show Geom2D.unionTree arr (gs.length + 4) gs = .ok r from hr] at h1; cases h1
  · intro p hp
    rcases Geom2D.unionTree_spec arr (fun g => Geom2D.locate g p = .ok 1) (Geom2D.Tame T)
      (fun gs r h hgood => ⟨(step gs r h hgood).1, (step gs r h hgood).2 p hp⟩) (Geom2D.tame_nil T)
      (by intro hc; cases hc) _ gs
      (by omega : gs.length + 3 ≤ gs.length + 4) with ⟨r', h1, h2⟩ | ⟨e, _, h1, _⟩
    · rw [show Geom2D.unionTree arr (gs.length + 4) gs = .ok r from hr] at h1
      cases h1
      exact (h2 hg).2
    · rw [show Geom2D.unionTree arr (gs.length + 4) gs = .ok r from hr] at h1; cases h1

theorem sub_sound {arr : Geom2D.ArrOp} (ha : ArrSound arr) {a b r : Geom2D} {T : List Seg} (hga : a.Tame T)
    (hgb : b.Tame T) (hr : Geom2D.sub arr a b = .ok r) :
    r.Tame T ∧ ∀ p, ¬ OnAny T p →
      (Geom2D.locate r p = .ok 1 ↔ Geom2D.locate a p = .ok 1 ∧ ¬ Geom2D.locate b p = .ok 1) := by
  unfold Geom2D.sub at hr
  split_ifs at hr with h
  · cases hr
    have hb : b = [] := by simpa [Geom2D.isEmpty] using h
    subst hb
    refine ⟨hga, fun p _ => ?_⟩
    have : ¬ Geom2D.locate [] p = .ok 1 := by intro hc; cases hc
    simp [this]
  · obtain ⟨h1, h2, h3⟩ := ha [a, b] _ r (by simp) (by
      intro g hg
      simp only [List.mem_cons, List.not_mem_nil, or_false] at hg
      rcases hg with rfl | rfl
      · exact hga.made
      · exact hgb.made) hr
    have both : ∀ p, (∃ g ∈ [a, b], Geom2D.OnEdge g p) → OnAny T p := by
      rintro p ⟨g, hg, ho⟩
      simp only [List.mem_cons, List.not_mem_nil, or_false] at hg
      rcases hg with rfl | rfl
      · exact hga.edge p ho
      · exact hgb.edge p ho
    refine ⟨⟨h1, fun p hp => both p (h2 p hp)⟩, fun p hp => ?_⟩
    rw [h3 p fun g hg ho => hp (both p ⟨g, hg, ho⟩)]
    simp

theorem inRegion_nil (o : List Pt) (p : Pt) : InRegion o [] p ↔ InPoly o p := by simp [InRegion]

/-- A geom of one polygon without holes. -/
theorem single_sound {o : List Pt} {s : SPWH} (h : SPWH.mk' o [] = .ok s) {T : List Seg}
    (hT : ∀ p, OnBoundary o p → OnAny T p) :
    Geom2D.Tame T [s] ∧ (∀ p, Geom2D.locate [s] p = .ok 1 ↔ InPoly o p) ∧ s.outer = o ∧ s.holes = [] := by
  obtain ⟨rfl, hv⟩ := (SPWH.mk'_iff _ _ _).1 h
  have hm : Geom2D.WellMade [⟨o, []⟩] := by
    intro s hs
    rw [List.mem_singleton] at hs
    subst hs
    exact h
  refine ⟨⟨hm, ?_⟩, fun p => ?_, rfl, rfl⟩
  · rintro q ⟨s, hs, hq⟩
    rw [List.mem_singleton] at hs
    subst hs
    rcases hq with hq | ⟨h, hh, _⟩
    · exact hT q hq
    · simp at hh
  · rw [locate_one hm]
    simp [inRegion_nil]

theorem map_add_zero (l : List Pt) : l.map (· + ((0, 0) : Pt)) = l := by
  have : ((0, 0) : Pt) = 0 := rfl
  rw [this]
  simp

theorem extGeom_sound {E : List Pt} (hE : E ≠ []) {r : Geom2D} (h : extGeom (0, 0) E = .ok r) {T : List Seg}
    (hT : ∀ p, OnBoundary E p → OnAny T p) :
    r.Tame T ∧ ∀ p, ¬ OnAny T p → (Geom2D.locate r p = .ok 1 ↔ windingNumber E p ≠ 0) := by
  unfold extGeom at h
  rw [area_eq_shoelace E hE] at h
  obtain ⟨a, ha, h⟩ := (bind_ok _ _ _).1 h
  cases ha
  dsimp only at h
  rw [map_add_zero] at h
  obtain ⟨s, hs, h⟩ := (bind_ok _ _ _).1 h
  cases h
  split_ifs at hs with hc
  · obtain ⟨h1, h2, _⟩ := single_sound hs (T := T) (fun p hp => hT p ((onBoundary_reverse E p).1 hp))
    refine ⟨h1, fun p hp => ?_⟩
    rw [h2]
    unfold InPoly
    rw [onBoundary_reverse, windingNumber_reverse]
    exact ⟨fun h => by simpa using h.2, fun h => ⟨fun hb => hp (hT p hb), by simpa using h⟩⟩
  · obtain ⟨h1, h2, _⟩ := single_sound hs (T := T) hT
    refine ⟨h1, fun p hp => ?_⟩
    rw [h2]
    exact ⟨fun h => h.2, fun h => ⟨fun hb => hp (hT p hb), h⟩⟩

/-- Some point of the boundary is in the shape placed at the point. -/
def Reach (C : List Pt) (σ : ℤ) (L : List Pt) (p : Pt) : Prop := ∃ z, OnBoundary L z ∧ InConvex C ((σ : ℚ) • (p - z))

theorem transformed_zero {s t : SPWH} (hs : s.Valid) (h : s.transformedWith (fun l => l.map (· + ((0, 0) : Pt))) = .ok t) :
    t.outer = s.outer := by
  unfold SPWH.transformedWith at h
  obtain ⟨o, ho, h⟩ := (bind_ok _ _ _).1 h
  obtain ⟨hs', _, h⟩ := (bind_ok _ _ _).1 h
  obtain ⟨rfl, _⟩ := (SPWH.mk'_iff _ _ _).1 h
  unfold fpoly at ho
  dsimp only at ho
  rw [map_add_zero, area_eq_shoelace _ hs.wf.1] at ho
  obtain ⟨a, ha, ho⟩ := (bind_ok _ _ _).1 ho
  cases ha
  rw [if_neg (by linarith [hs.2.1])] at ho
  cases ho
  rfl

theorem forall₂_exists {α β : Type} {R : α → β → Prop} {l : List α} {r : List β} (h : List.Forall₂ R l r)
    {P : α → Prop} {Q : β → Prop} (hPQ : ∀ a ∈ l, ∀ b, R a b → (Q b ↔ P a)) : (∃ b ∈ r, Q b) ↔ ∃ a ∈ l, P a := by
  induction h with
  | nil => simp
  | @cons a b l r h _ ih =>
    simp only [List.exists_mem_cons_iff]
    rw [ih fun a ha => hPQ a (List.mem_cons_of_mem _ ha), hPQ a (List.mem_cons_self ..) b h]

theorem forall₂_mem_right {α β : Type} {R : α → β → Prop} {l : List α} {r : List β} (h : List.Forall₂ R l r) {b : β}
    (hb : b ∈ r) : ∃ a ∈ l, R a b := by
  induction h with
  | nil => simp at hb
  | cons h _ ih =>
    rcases List.mem_cons.1 hb with rfl | hb
    · exact ⟨_, List.mem_cons_self .., h⟩
    · obtain ⟨a, ha, hab⟩ := ih hb
      exact ⟨a, List.mem_cons_of_mem _ ha, hab⟩

theorem forall₂_imp_mem {α β : Type} {R S : α → β → Prop} {l : List α} {r : List β} (h : List.Forall₂ R l r)
    (hS : ∀ a ∈ l, ∀ b, R a b → S a b) : List.Forall₂ S l r := by
  induction h with
  | nil => exact .nil
  | cons h _ ih =>
    exact .cons (hS _ (List.mem_cons_self ..) _ h) (ih fun a ha => hS a (List.mem_cons_of_mem _ ha))

theorem holes_tame {H : List Pt → Pt → Prop} {l : List (List Pt)} {hs : List Geom2D}
    (hf : List.Forall₂ (fun h r' => ∃ T : List Seg, Geom2D.Tame T r' ∧ ∀ p, ¬ OnAny T p →
      (Geom2D.locate r' p = .ok 1 ↔ H h p)) l hs) :
    ∃ T : List Seg, (∀ x ∈ hs, Geom2D.Tame T x) ∧ ∀ p, ¬ OnAny T p →
      ((∃ x ∈ hs, Geom2D.locate x p = .ok 1) ↔ ∃ h ∈ l, H h p) := by
  induction hf with
  | nil => exact ⟨[], by simp, by simp⟩
  | @cons h x l r h1 _ ih =>
    obtain ⟨T, c1, c2⟩ := h1
    obtain ⟨T', d1, d2⟩ := ih
    have i1 : ∀ x ∈ T, x ∈ T ++ T' := fun x hx => List.mem_append_left _ hx
    have i2 : ∀ x ∈ T', x ∈ T ++ T' := fun x hx => List.mem_append_right _ hx
    refine ⟨T ++ T', ?_, fun p hp => ?_⟩
    · rw [List.forall_mem_cons]; exact ⟨c1.mono i1, fun x hx => (d1 x hx).mono i2⟩
    · rw [List.exists_mem_cons_iff, List.exists_mem_cons_iff, c2 p fun h => hp (h.mono i1), d2 p fun h => hp (h.mono i2)]

/-- What the pieces along one outline do. -/
structure PolyPart (C : List Pt) (σ : ℤ) (s : SPWH) (o : Geom2D) (ext : List Geom2D) (p : Pt) : Prop where
  off : ¬ OnBoundary s.outer p
  body : Geom2D.locate o p = .ok 1 ↔ InPoly s.outer p
  reach : (∃ e ∈ ext, Geom2D.locate e p = .ok 1) → Reach C σ s.outer p
  grow : σ = 1 → Reach C σ s.outer p → InPoly s.outer p ∨ ∃ e ∈ ext, Geom2D.locate e p = .ok 1
  shrink : σ = -1 → Reach C σ s.outer p → InPoly s.outer p → ∃ e ∈ ext, Geom2D.locate e p = .ok 1

theorem minkowskiPoly_sound {C : List Pt} (hC : Conv C) {σ : ℤ} (hσ : σ = 1 ∨ σ = -1) {s : SPWH} (hs : s.Valid)
    (hL : Outline s.outer) {o : Geom2D} {ext : List Geom2D} (h : minkowskiPoly (0, 0) C σ s = .ok (o, ext)) :
    ∃ T : List Seg, o.Tame T ∧ (∀ e ∈ ext, Geom2D.Tame T e) ∧ ∀ p, ¬ OnAny T p → PolyPart C σ s o ext p := by
  unfold minkowskiPoly at h
  obtain ⟨t, ht, h⟩ := (bind_ok _ _ _).1 h
  obtain ⟨s', hs', h⟩ := (bind_ok _ _ _).1 h
  obtain ⟨exts, hexts, h⟩ := (bind_ok _ _ _).1 h
  obtain ⟨ext', hext, h⟩ := (bind_ok _ _ _).1 h
  cases h
  rw [transformed_zero hs ht] at hs'
  have hS := hL.sides
  obtain ⟨exts', S, h1, h2, h3⟩ := hC.ribbon hσ hs.wf.1 hS.nd
  rw [hexts] at h1
  cases h1
  have hf := Geom1D.mapM_except_inv _ _ _ hext
  set T : List Seg := polyEdges s.outer ++ (exts.flatMap polyEdges ++ S) with hT
  have onO : ∀ p, OnBoundary s.outer p → OnAny T p := fun p ⟨e, he, ho⟩ => ⟨e, by simp [hT, he], ho⟩
  have onE : ∀ E ∈ exts, ∀ p, OnBoundary E p → OnAny T p := fun E hE p ⟨e, he, ho⟩ =>
    ⟨e, by simp only [hT, List.mem_append, List.mem_flatMap]; exact Or.inr (Or.inl ⟨E, hE, he⟩), ho⟩
  have onS : ∀ p, OnAny S p → OnAny T p := fun p ⟨e, he, ho⟩ => ⟨e, by simp [hT, he], ho⟩
  obtain ⟨t1, t2, -⟩ := single_sound hs' (T := T) onO
  have key : ∀ E ∈ exts, ∀ e, extGeom (0, 0) E = .ok e → e.Tame T ∧ ∀ p, ¬ OnAny T p →
      (Geom2D.locate e p = .ok 1 ↔ windingNumber E p ≠ 0) := fun E hE e he =>
    extGeom_sound (List.length_pos_iff.1 (by have := (h2 E hE).1; omega)) he (onE E hE)
  refine ⟨T, t1, fun e he => ?_, fun p hp => ?_⟩
  · obtain ⟨E, hE, hEe⟩ := forall₂_mem_right hf he
    exact (key E hE e hEe).1
  · have hoff : ¬ OnBoundary s.outer p := fun h => hp (onO p h)
    obtain ⟨-, k2, k3⟩ := h3 p fun h => hp (onS p h)
    have hex : (∃ e ∈ ext, Geom2D.locate e p = .ok 1) ↔ ∃ E ∈ exts, windingNumber E p ≠ 0 :=
      forall₂_exists hf fun E hE e he => (key E hE e he).2 p hp
    refine ⟨hoff, t2 p, fun h => k2 (hex.1 h), ?_, ?_⟩
    · rintro rfl ⟨z, hz, hin⟩
      by_cases hw : windingNumber s.outer p = 0
      · refine Or.inr (hex.2 (k3 (Or.inl ⟨rfl, covered hC hS hoff hw hz (by simpa using hin)⟩)))
      · exact Or.inl ⟨hoff, hw⟩
    · rintro rfl ⟨z, hz, hin⟩ ⟨_, hw⟩
      have hw' : windingNumber s.outer.reverse p = 1 := by
        rw [windingNumber_reverse]
        rcases hS.winding hs.wf.1 hoff with h | h
        · exact absurd h hw
        · omega
      refine hex.2 (k3 (Or.inr ⟨rfl, covered hC.neg (a := 1) (b := 0) (by simpa using hS.reverse) (fun h => hoff ((onBoundary_reverse _ _).1 h)) hw'
        ((onBoundary_reverse _ _).2 hz) ((inConvex_neg hC _).2 ?_)⟩))
      simpa using hin


/-- What the pieces along all outlines do. -/
structure PolysPart (C : List Pt) (σ : ℤ) (g : Geom2D) (pos neg : List Geom2D) (p : Pt) : Prop where
  off : ∀ s ∈ g, ¬ OnBoundary s.outer p
  grow : σ = 1 → neg = [] ∧ ((∃ x ∈ pos, Geom2D.locate x p = .ok 1) ↔ ∃ s ∈ g, InPoly s.outer p ∨ Reach C σ s.outer p)
  body : σ = -1 → ((∃ x ∈ pos, Geom2D.locate x p = .ok 1) ↔ ∃ s ∈ g, InPoly s.outer p)
  reach : σ = -1 → (∃ x ∈ neg, Geom2D.locate x p = .ok 1) → ∃ s ∈ g, Reach C σ s.outer p
  shrink : σ = -1 → (∃ s ∈ g, InPoly s.outer p ∧ Reach C σ s.outer p) → ∃ x ∈ neg, Geom2D.locate x p = .ok 1

theorem minkowskiPolys_sound {C : List Pt} (hC : Conv C) {σ : ℤ} (hσ : σ = 1 ∨ σ = -1) {g : Geom2D}
    (hg : ∀ s ∈ g, s.Valid ∧ Outline s.outer) {pos neg : List Geom2D}
    (h : minkowskiPolys (0, 0) C σ g = .ok (pos, neg)) :
    ∃ T : List Seg, (∀ x ∈ pos, Geom2D.Tame T x) ∧ (∀ x ∈ neg, Geom2D.Tame T x) ∧
      ∀ p, ¬ OnAny T p → PolysPart C σ g pos neg p := by
  induction g generalizing pos neg with
  | nil =>
    cases h
    refine ⟨[], by simp, by simp, fun p _ => ⟨by simp, fun _ => by simp, fun _ => by simp, fun _ => by simp, fun _ => by simp⟩⟩
  | cons s g ih =>
    unfold minkowskiPolys at h
    obtain ⟨⟨o, ext⟩, h1, h⟩ := (bind_ok _ _ _).1 h
    obtain ⟨⟨pos', neg'⟩, h2, h⟩ := (bind_ok _ _ _).1 h
    obtain ⟨v, hL⟩ := hg s (List.mem_cons_self ..)
    obtain ⟨T1, a1, a2, a3⟩ := minkowskiPoly_sound hC hσ v hL h1
    obtain ⟨T2, b1, b2, b3⟩ := ih (fun s hs => hg s (List.mem_cons_of_mem _ hs)) h2
    have i1 : ∀ x ∈ T1, x ∈ T1 ++ T2 := fun x hx => List.mem_append_left _ hx
    have i2 : ∀ x ∈ T2, x ∈ T1 ++ T2 := fun x hx => List.mem_append_right _ hx
    rcases hσ with rfl | rfl
    · simp only [Int.one_pos, gt_iff_lt, if_true] at h
      cases h
      refine ⟨T1 ++ T2, ?_, fun x hx => (b2 x hx).mono i2, fun p hp => ?_⟩
      · intro x hx
        rw [List.mem_append, List.mem_cons] at hx
        rcases hx with (rfl | hx) | hx
        · exact a1.mono i1
        · exact (a2 x hx).mono i1
        · exact (b1 x hx).mono i2
      · have A := a3 p fun h => hp (h.mono i1)
        have B := b3 p fun h => hp (h.mono i2)
        refine ⟨?_, fun _ => ⟨(B.grow rfl).1, ?_⟩, fun h => absurd h (by decide), fun h => absurd h (by decide), fun h => absurd h (by decide)⟩
        · rw [List.forall_mem_cons]; exact ⟨A.off, B.off⟩
        · rw [List.exists_mem_cons_iff, ← (B.grow rfl).2]
          constructor
          · rintro ⟨x, hx, hl⟩
            rw [List.mem_append, List.mem_cons] at hx
            rcases hx with (rfl | hx) | hx
            · exact Or.inl (Or.inl (A.body.1 hl))
            · exact Or.inl (Or.inr (A.reach ⟨x, hx, hl⟩))
            · exact Or.inr ⟨x, hx, hl⟩
          · have body : InPoly s.outer p → ∃ x ∈ o :: ext ++ pos', Geom2D.locate x p = .ok 1 := fun h =>
              ⟨o, by simp, A.body.2 h⟩
            rintro ((h | h) | ⟨x, hx, h⟩)
            · exact body h
            · rcases A.grow rfl h with h | ⟨e, he, h⟩
              · exact body h
              · exact ⟨e, by simp [he], h⟩
            · exact ⟨x, by simp [hx], h⟩
    · have hn : ¬ ((-1 : ℤ) > 0) := by decide
      dsimp only at h
      rw [if_neg hn] at h
      cases h
      refine ⟨T1 ++ T2, ?_, ?_, fun p hp => ?_⟩
      · intro x hx
        rcases List.mem_cons.1 hx with rfl | hx
        · exact a1.mono i1
        · exact (b1 x hx).mono i2
      · intro x hx
        rcases List.mem_append.1 hx with hx | hx
        · exact (a2 x hx).mono i1
        · exact (b2 x hx).mono i2
      · have A := a3 p fun h => hp (h.mono i1)
        have B := b3 p fun h => hp (h.mono i2)
        refine ⟨?_, fun h => absurd h (by decide), fun _ => ?_, fun _ => ?_, fun _ => ?_⟩
        · rw [List.forall_mem_cons]; exact ⟨A.off, B.off⟩
        · rw [List.exists_mem_cons_iff, List.exists_mem_cons_iff, ← B.body rfl, A.body]
        · rintro ⟨x, hx, hl⟩
          rw [List.exists_mem_cons_iff]
          rcases List.mem_append.1 hx with hx | hx
          · exact Or.inl (A.reach ⟨x, hx, hl⟩)
          · exact Or.inr (B.reach rfl ⟨x, hx, hl⟩)
        · rw [List.exists_mem_cons_iff]
          rintro (⟨h1, h2⟩ | h)
          · obtain ⟨e, he, h⟩ := A.shrink rfl h2 h1
            exact ⟨e, List.mem_append_left _ he, h⟩
          · obtain ⟨e, he, h⟩ := B.shrink rfl h
            exact ⟨e, List.mem_append_right _ he, h⟩

/-- What the operation does, given what the calls on the holes do. -/
structure OpPart (C : List Pt) (σ : ℤ) (H : List Pt → Pt → Prop) (g r : Geom2D) (p : Pt) : Prop where
  off : ∀ s ∈ g, ¬ OnBoundary s.outer p
  grow : σ = 1 → (Geom2D.locate r p = .ok 1 ↔ (∃ s ∈ g, InPoly s.outer p ∨ Reach C σ s.outer p) ∧
    ∀ s ∈ g, ∀ h ∈ s.holes, ¬ H h p)
  inside : σ = -1 → Geom2D.locate r p = .ok 1 → (∃ s ∈ g, InPoly s.outer p) ∧
    (∀ s ∈ g, InPoly s.outer p → ¬ Reach C σ s.outer p) ∧ ∀ s ∈ g, ∀ h ∈ s.holes, ¬ H h p
  shrink : σ = -1 → (∃ s ∈ g, InPoly s.outer p) → (∀ s ∈ g, ¬ Reach C σ s.outer p) →
    (∀ s ∈ g, ∀ h ∈ s.holes, ¬ H h p) → Geom2D.locate r p = .ok 1

theorem op_step {arr : Geom2D.ArrOp} (ha : ArrSound arr) {C : List Pt} (hC : Conv C) {σ : ℤ} (hσ : σ = 1 ∨ σ = -1)
    (hsh : minkowskiShift C σ = .ok ((0, 0), C)) {g : Geom2D} (hg : ∀ s ∈ g, s.Valid ∧ Outline s.outer)
    {H : List Pt → Pt → Prop} {fuel : ℕ} (hH : ∀ s ∈ g, ∀ h ∈ s.holes, ∀ s' r', SPWH.mk' h [] = .ok s' →
      minkowskiConvexOp arr fuel [s'] C (-σ) = .ok r' →
      ∃ T : List Seg, r'.Tame T ∧ ∀ p, ¬ OnAny T p → (Geom2D.locate r' p = .ok 1 ↔ H h p))
    {r : Geom2D} (hr : minkowskiConvexOp arr (fuel + 1) g C σ = .ok r) :
    ∃ T : List Seg, r.Tame T ∧ ∀ p, ¬ OnAny T p → OpPart C σ H g r p := by
  unfold minkowskiConvexOp at hr
  rw [hsh] at hr
  obtain ⟨⟨off, C'⟩, hr1, hr⟩ := (bind_ok _ _ _).1 hr
  cases hr1
  obtain ⟨⟨pos, neg⟩, hpn, hr⟩ := (bind_ok _ _ _).1 hr
  obtain ⟨hs, hhs, hr⟩ := (bind_ok _ _ _).1 hr
  obtain ⟨gpos, hgpos, hr⟩ := (bind_ok _ _ _).1 hr
  obtain ⟨gneg, hgneg, hr⟩ := (bind_ok _ _ _).1 hr
  obtain ⟨T1, a1, a2, a3⟩ := minkowskiPolys_sound hC hσ hg hpn
  have hf := Geom1D.mapM_except_inv _ _ _ hhs
  have hf' : List.Forall₂ (fun h r' => ∃ T : List Seg, Geom2D.Tame T r' ∧ ∀ p, ¬ OnAny T p →
      (Geom2D.locate r' p = .ok 1 ↔ H h p)) (g.flatMap SPWH.holes) hs := by
    refine forall₂_imp_mem hf fun h hm r' hb => ?_
    obtain ⟨s', e1, e2⟩ := (bind_ok _ _ _).1 hb
    obtain ⟨s, hs, hh⟩ := List.mem_flatMap.1 hm
    exact hH s hs h hh s' r' e1 e2
  obtain ⟨T2, b1, b2⟩ := holes_tame hf'
  have i1 : ∀ x ∈ T1, x ∈ T1 ++ T2 := fun x hx => List.mem_append_left _ hx
  have i2 : ∀ x ∈ T2, x ∈ T1 ++ T2 := fun x hx => List.mem_append_right _ hx
  obtain ⟨c1, c2⟩ := unionTreeAll_sound ha (T := T1 ++ T2) (fun x hx => (a1 x hx).mono i1) hgpos
  obtain ⟨d1, d2⟩ := unionTreeAll_sound ha (T := T1 ++ T2) (fun x hx => by
    rcases List.mem_append.1 hx with hx | hx
    · exact (a2 x hx).mono i1
    · exact (b1 x hx).mono i2) hgneg
  obtain ⟨e1, e2⟩ := sub_sound ha c1 d1 hr
  refine ⟨T1 ++ T2, e1, fun p hp => ?_⟩
  have A := a3 p fun h => hp (h.mono i1)
  have B := b2 p fun h => hp (h.mono i2)
  have hneg : Geom2D.locate gneg p = .ok 1 ↔ (∃ x ∈ neg, Geom2D.locate x p = .ok 1) ∨ ∃ s ∈ g, ∃ h ∈ s.holes, H h p := by
    rw [d2 p hp]
    constructor
    · rintro ⟨x, hx, hl⟩
      rcases List.mem_append.1 hx with hx | hx
      · exact Or.inl ⟨x, hx, hl⟩
      · obtain ⟨h, hh, hl⟩ := B.1 ⟨x, hx, hl⟩
        obtain ⟨s, hs, hh⟩ := List.mem_flatMap.1 hh
        exact Or.inr ⟨s, hs, h, hh, hl⟩
    · rintro (⟨x, hx, hl⟩ | ⟨s, hs, h, hh, hl⟩)
      · exact ⟨x, List.mem_append_left _ hx, hl⟩
      · obtain ⟨x, hx, hl⟩ := B.2 ⟨h, List.mem_flatMap.2 ⟨s, hs, hh⟩, hl⟩
        exact ⟨x, List.mem_append_right _ hx, hl⟩
  have hres := e2 p hp
  rw [c2 p hp, hneg] at hres
  refine ⟨A.off, fun h1 => ?_, fun h1 h => ?_, fun h1 h2 h3 h4 => ?_⟩
  · obtain ⟨n0, n1⟩ := A.grow h1
    rw [hres, n1, n0]
    simp
  · obtain ⟨k1, k2⟩ := hres.1 h
    push Not at k2
    refine ⟨(A.body h1).1 k1, fun s hs hi hR => ?_, k2.2⟩
    obtain ⟨x, hx, hl⟩ := A.shrink h1 ⟨s, hs, hi, hR⟩
    exact k2.1 x hx hl
  · refine hres.2 ⟨(A.body h1).2 h2, ?_⟩
    rintro (h | ⟨s, hs, h, hh, hl⟩)
    · obtain ⟨s, hs, hR⟩ := A.reach h1 h
      exact h3 s hs hR
    · exact h4 s hs h hh hl

/-- What the operation does on a geom whose loops are all outlines. -/
theorem op_sound {arr : Geom2D.ArrOp} (ha : ArrSound arr) {C : List Pt} (hC : Conv C) {σ : ℤ} (hσ : σ = 1 ∨ σ = -1)
    (hsh : ∀ σ : ℤ, σ = 1 ∨ σ = -1 → minkowskiShift C σ = .ok ((0, 0), C)) {g : Geom2D} (hg : g.WellMade)
    (ho : ∀ s ∈ g, Outline s.outer ∧ ∀ h ∈ s.holes, Outline h)
    {r : Geom2D} (hr : minkowskiConvexOp arr 2 g C σ = .ok r) :
    ∃ T : List Seg, r.Tame T ∧ ∀ p, ¬ OnAny T p →
      OpPart C σ (fun h p => if σ = 1 then InPoly h p ∧ ¬ Reach C (-1) h p else InPoly h p ∨ Reach C 1 h p) g r p := by
  have hσ' : -σ = 1 ∨ -σ = -1 := by rcases hσ with rfl | rfl <;> simp
  refine op_step ha hC hσ (hsh σ hσ) (fun s hs => ⟨((SPWH.mk'_iff _ _ _).1 (hg s hs)).2, (ho s hs).1⟩) ?_ hr
  intro s hs h hh s' r' h1 h2
  obtain ⟨rfl, hv⟩ := (SPWH.mk'_iff _ _ _).1 h1
  obtain ⟨T, t1, t2⟩ := op_step ha hC hσ' (hsh _ hσ') (g := [⟨h, []⟩]) (H := fun _ _ => False) (fuel := 0) (by
    intro s'' hs''
    rw [List.mem_singleton] at hs''
    subst hs''
    exact ⟨hv, (ho s hs).2 h hh⟩) (by
    intro s'' hs'' h' hh'
    rw [List.mem_singleton] at hs''
    subst hs''
    simp at hh') h2
  refine ⟨T, t1, fun p hp => ?_⟩
  obtain ⟨-, p2, p3, p4⟩ := t2 p hp
  rcases hσ with rfl | rfl
  · rw [if_pos rfl]
    constructor
    · intro hl
      obtain ⟨q1, q2, -⟩ := p3 rfl hl
      have q1' : InPoly h p := by simpa using q1
      exact ⟨q1', q2 _ (List.mem_singleton.2 rfl) q1'⟩
    · rintro ⟨q1, q2⟩
      exact p4 rfl ⟨_, List.mem_singleton.2 rfl, q1⟩ (by simpa using q2) (by simp)
  · rw [if_neg (by decide)]
    have := p2 rfl
    simpa using this

end Ply
