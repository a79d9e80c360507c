import Verif.Props.StarUnion

/-!
# Unions and intersections of polygons seen from one point can be combined further (C104)
-/

namespace Ply

open Arr Geom2D

/-- An outline all of whose edges have the point on their right is a simple ring. -/
theorem outline_star {o : Pt} {L : List Pt} (hO : Outline L) (hne : L ≠ []) (h : ∀ e ∈ polyEdges L, orient e.1 e.2 o < 0) :
    StarRing o L := by
  have hoff : ¬ OnBoundary L o := by
    rintro ⟨e, he, hx⟩
    have h1 := h e he
    rw [orient_cross, cross_on e o hx] at h1
    exact lt_irrefl _ h1
  have hw : windingNumber L o = -1 := by
    have h1 := loop_around hne h
    rcases hO.sides.winding hne hoff with e | e <;> omega
  have hnd : L.Nodup := by
    by_contra hn
    obtain ⟨x, hx⟩ : ∃ x, 2 ≤ L.count x := by
      by_contra hc
      push Not at hc
      exact hn (List.nodup_iff_count_le_one.2 fun x => by have := hc x; omega)
    obtain ⟨A, B, rfl⟩ := List.append_of_mem (List.count_pos_iff.1 (by omega : 0 < L.count x))
    have hrot : (A ++ x :: B).rotate A.length = x :: B ++ A := by simp
    have hp := polyEdges_rotate (A ++ x :: B) A.length
    rw [hrot] at hp
    obtain ⟨C, D, hCD⟩ : ∃ C D, B ++ A = C ++ x :: D := by
      refine List.append_of_mem (List.count_pos_iff.1 ?_)
      simp only [List.count_append, List.count_cons_self] at hx ⊢
      omega
    rw [List.cons_append, hCD] at hp
    have hs : polyEdges (x :: (C ++ x :: D)) = polyEdges (x :: C) ++ polyEdges (x :: D) := by
      simp only [polyEdges]
      rw [← List.cons_append, show C ++ x :: D ++ [x] = (C ++ [x]) ++ (D ++ [x]) by simp, List.zip_append (by simp)]
    rw [hs] at hp
    have hr : ∀ e ∈ polyEdges (x :: C) ++ polyEdges (x :: D), orient e.1 e.2 o < 0 := fun e he => h e (hp.mem_iff.1 he)
    have w1 := loop_around (m := x :: C) (by simp) fun e he => hr e (List.mem_append_left _ he)
    have w2 := loop_around (m := x :: D) (by simp) fun e he => hr e (List.mem_append_right _ he)
    have := (hp.map fun e => crossing o e.1 e.2).sum_eq
    rw [List.map_append, List.sum_append] at this
    unfold windingNumber at w1 w2 hw
    omega
  have hback : ∀ u v, (u, v) ∈ polyEdges L → (v, u) ∉ polyEdges L := by
    intro u v h1 h2
    have a := h _ h1
    have b := h _ h2
    rw [orient_swap] at b
    linarith
  refine ⟨⟨?_, hnd, ?_⟩, h⟩
  · rcases L with _ | ⟨a, _ | ⟨b, _ | ⟨c, l⟩⟩⟩
    · exact absurd rfl hne
    · exact absurd rfl (hO.pos (a, a) (by simp [polyEdges]))
    · exact absurd (by simp [polyEdges] : (b, a) ∈ polyEdges [a, b]) (hback a b (by simp [polyEdges]))
    · simp
  · intro e he k hk x hx hy
    by_cases hke : k = e
    · exact Or.inl hke
    · right
      have fs : ∀ u v w, (u, v) ∈ polyEdges L → (u, w) ∈ polyEdges L → v = w := fun u v w h1 h2 =>
        congrArg Prod.snd (List.inj_on_of_nodup_map (by rw [polyEdges_map_fst]; exact hnd) h1 h2 rfl)
      have sn : ∀ u v w, (u, w) ∈ polyEdges L → (v, w) ∈ polyEdges L → u = v := fun u v w h1 h2 =>
        congrArg Prod.fst (List.inj_on_of_nodup_map ((CellMerger.polyEdges_bal L).nodup_iff.1 (by rw [polyEdges_map_fst]; exact hnd)) h1 h2 rfl)
      have ends : ∀ e ∈ polyEdges L, ∀ k ∈ polyEdges L, k ≠ e → OnSeg e x → OnSeg k x → x = e.1 ∨ x = e.2 := by
        rintro e he k hk hke ⟨t, t0, t1, rfl⟩ hy
        rcases t0.eq_or_lt with rfl | t0
        · left; unfold along; simp
        · rcases t1.eq_or_lt with rfl | t1
          · right; unfold along; simp
          · exact absurd (hO.inner e he k hk t t0 t1 hy) hke
      rcases ends e he k hk hke hx hy with h1 | h1 <;> rcases ends k hk e he (Ne.symm hke) hy hx with h2 | h2
      · exact absurd (Prod.ext (h2.symm.trans h1) (fs k.1 k.2 e.2 hk (by rw [← h2, h1]; exact he))) hke
      · exact Or.inl ⟨h1, h2⟩
      · exact Or.inr ⟨h1, h2⟩
      · exact absurd (Prod.ext (sn k.1 e.1 k.2 hk (by rw [← h2, h1]; exact he)) (h2.symm.trans h1)) hke

/-- The result of an operation that selects the more the more is inside is one polygon without holes seen from the point. -/
theorem star_closed (ch : Choices) (hch : ch.Valid) {o : Pt} {P Q : List Pt} (hP : StarRing o P) (hQ : StarRing o Q)
    (op : List Bool → Bool) (hop : op [false, false] = false) (hop1 : op [true, true] = true)
    (hmono : ∀ a b a' b', (a = true → a' = true) → (b = true → b' = true) → op [a, b] = true → op [a', b'] = true) {r : Geom2D}
    (h : arrangementOp ch [ringGeom P, ringGeom Q] op = .ok r) : ∃ R, r = ringGeom R ∧ StarRing o R := by
  have hg : ∀ g ∈ [ringGeom P, ringGeom Q], WellMade g := by
    intro g hg
    simp only [List.mem_cons, List.not_mem_nil, or_false] at hg
    rcases hg with rfl | rfl
    · exact hP.fine.proper.made
    · exact hQ.fine.proper.made
  obtain ⟨r', hr', hfine, hpts⟩ := c103_any ch hch hP hQ op hop
  obtain rfl : r' = r := by rw [h] at hr'; cases hr'; rfl
  unfold arrangementOp at h
  obtain ⟨A, hA, h⟩ := (bind_ok _ _ _).1 h
  obtain ⟨cells, hcells, h⟩ := (bind_ok _ _ _).1 h
  obtain ⟨polys, hpolys, h⟩ := (bind_ok _ _ _).1 h
  obtain ⟨_, hcheck, h⟩ := (bind_ok _ _ _).1 h
  cases h
  obtain ⟨hB, -⟩ := build_spec ch hch _ (segments_ne _ hg) A hA
  have hF : Arr.Full A := by
    obtain ⟨A', hA', hF⟩ := build_ok hch (loops_geoms [ringGeom P, ringGeom Q] hg (by
      intro g hg
      simp only [List.mem_cons, List.not_mem_nil, or_false] at hg
      rcases hg with rfl | rfl
      · exact hP.fine.usable.cutting
      · exact hQ.fine.usable.cutting))
    rw [hA] at hA'
    cases hA'
    exact hF
  have hR := two_net ch hch hP hQ hA hB hF
  have hS : ∀ L ∈ [P, Q], StarRing o L := by
    intro L hL
    simp only [List.mem_cons, List.not_mem_nil, or_false] at hL
    rcases hL with rfl | rfl
    · exact hP
    · exact hQ
  have hsub := selectCells_spec _ op A.cells cells hcells
  have hself : ∀ c ∈ A.cells, ∀ e ∈ polyEdges c.vertices, (e.2, e.1) ∉ polyEdges c.vertices := by
    rintro c hc ⟨u, v⟩ h1 h2
    obtain ⟨L, hL, h | h⟩ := al_exists hR ((cell_ok' hR hc).sub _ h1)
    · have e1 := (cell_in hR hS hL hc h1).1 h
      have e2 := (cell_in hR hS hL hc h2).2 h
      omega
    · have e1 := (cell_in hR hS hL hc h1).2 h
      have e2 := (cell_in hR hS hL hc h2).1 h
      omega
  obtain ⟨-, e1⟩ := polyCells_spec ch hch A cells ((allEdges_sublist hsub).nodup hB.nodup) r' hpolys
  obtain ⟨-, e2⟩ := polyCells_sides ch hch hB hself cells hsub r' hpolys
  have inn : ∀ {L : List Pt}, L ∈ [P, Q] → ∀ c ∈ A.cells, decide (locate (ringGeom L) c.point = .ok 1) = true ↔ windingNumber L c.point ≠ 0 := by
    intro L hL c hc
    obtain ⟨v, h1, h2, -⟩ := locate_single L (hS L hL).ne c.point
    unfold ringGeom
    rw [h1, decide_eq_true_eq, Except.ok.injEq, h2]
    exact ⟨fun h => h.2, fun h => ⟨fun hx => hB.off c hc ((hR.on _).2 ⟨L, hL, hx⟩), h⟩⟩
  have hmem : ∀ c ∈ A.cells, c.vertices ∈ cells ↔
      op [decide (locate (ringGeom P) c.point = .ok 1), decide (locate (ringGeom Q) c.point = .ok 1)] = true := by
    intro c hc
    rw [selectCells_eq _ op A.cells cells hcells, List.mem_map]
    constructor
    · rintro ⟨d, hd, e⟩
      obtain ⟨d1, d2⟩ := List.mem_filter.1 hd
      rw [← cell_eq hF d1 hc e]
      exact d2
    · intro h
      exact ⟨c, List.mem_filter.2 ⟨hc, h⟩, rfl⟩
  have main : ∀ e : Seg, e ∈ allEdges cells → (e.2, e.1) ∉ allEdges cells → orient e.1 e.2 o < 0 := by
    rintro ⟨u, v⟩ he hne
    obtain ⟨x, hx, he⟩ := List.mem_flatMap.1 he
    obtain ⟨c, hc, rfl⟩ := List.mem_map.1 (hsub.subset hx)
    have huv := (cell_ok' hR hc).sub _ he
    obtain ⟨d, hd, hf⟩ := hB.every _ (hB.planar.rev _ huv)
    have hdn : d.vertices ∉ cells := fun h => hne (List.mem_flatMap.2 ⟨_, h, hf⟩)
    by_contra hcon
    have nal : ∀ L ∈ [P, Q], ¬ Al A L u v := fun L hL al => hcon (al_right hS hL al)
    have imp : ∀ L ∈ [P, Q], windingNumber L c.point ≠ 0 → windingNumber L d.point ≠ 0 := by
      intro L hL hw
      by_cases al : Al A L v u
      · have := (cell_in hR hS hL hd hf).1 al
        omega
      · rw [← cell_across hR hL hc hd he hf (nal L hL) al]
        exact hw
    refine hdn ((hmem d hd).2 (hmono _ _ _ _ ?_ ?_ ((hmem c hc).1 hx)))
    · rw [inn (by simp) c hc, inn (by simp) d hd]
      exact imp P (by simp)
    · rw [inn (by simp) c hc, inn (by simp) d hd]
      exact imp Q (by simp)
  have outer : ∀ s ∈ r', StarRing o s.outer := fun s hs =>
    outline_star (hfine.outlined s hs).1 (by
      have := ((SPWH.mk'_iff _ _ _).1 (hfine.proper.made s hs)).2.2.1
      exact ne_nil_of_shoelace this) fun e he => main e ((e1 s hs).1 e he) ((e2 s hs).1 e he)
  have holes : ∀ s ∈ r', s.holes = [] := by
    intro s hs
    by_contra hne
    obtain ⟨k, hk⟩ := List.exists_mem_of_ne_nil _ hne
    have hkn : k ≠ [] := ne_nil_of_shoelace (((SPWH.mk'_iff _ _ _).1 (hfine.proper.made s hs)).2.2.2 k hk).1
    have hr : ∀ e ∈ polyEdges k.reverse, orient e.1 e.2 o < 0 := by
      intro e he
      obtain ⟨f, hf, rfl⟩ := List.mem_map.1 ((polyEdges_reverse k).mem_iff.1 he)
      exact main _ ((e1 s hs).2 k hk f hf) ((e2 s hs).2 k hk f hf)
    have w1 := loop_around (by simpa using hkn) hr
    rw [windingNumber_reverse] at w1
    have hoff : ¬ OnBoundary k o := by
      rw [← onBoundary_reverse]
      rintro ⟨e, he, hx⟩
      have h1 := hr e he
      rw [orient_cross, cross_on e o hx] at h1
      exact lt_irrefl _ h1
    rcases ((hfine.outlined s hs).2 k hk).sides.winding hkn hoff with e | e <;> omega
  have hin : locate r' o = .ok 1 := by
    rw [hpts o hP.off hQ.off, decide_eq_true, decide_eq_true, hop1]
    · have := loop_around hQ.ne hQ.right; omega
    · have := loop_around hP.ne hP.right; omega
  have hoff : ¬ OnEdge r' o := by
    rintro ⟨s, hs, h | ⟨k, hk, -⟩⟩
    · exact (outer s hs).off h
    · rw [holes s hs] at hk; cases hk
  have hsum := hfine.proper.once o hoff
  rw [if_pos hin] at hsum
  have hlen : r'.windSum o = r'.length := by
    have : ∀ l : List SPWH, (∀ s ∈ l, s ∈ r') → (l.map fun s => ((s.holes.map fun l => windingNumber l o).sum - windingNumber s.outer o)).sum = (l.length : ℤ) := by
      intro l
      induction l with
      | nil => simp
      | cons s l ih =>
        intro hl
        have hs := hl s List.mem_cons_self
        have w : windingNumber s.outer o = -1 := by
          have h1 := loop_around (outer s hs).ne (outer s hs).right
          rcases (outer s hs).sides.winding (outer s hs).ne (outer s hs).off with e | e <;> omega
        rw [List.map_cons, List.sum_cons, ih fun s h => hl s (List.mem_cons_of_mem _ h), holes s hs, w]
        simp
        ring
    exact this r' fun s h => h
  rw [hlen] at hsum
  obtain ⟨s, rfl⟩ := List.length_eq_one_iff.1 (by exact_mod_cast hsum : List.length r' = 1)
  refine ⟨s.outer, ?_, outer s (by simp)⟩
  unfold ringGeom
  rw [← holes s (by simp)]

/-- What the program computes for an expression. -/
def RingExpr.eval (arr : ArrOp) : RingExpr → Except PyErr Geom2D
  | .ring L => Geom2D.polygon L true
  | .or a b => do
    let x ← a.eval arr
    let y ← b.eval arr
    Geom2D.or arr x y
  | .and a b => do
    let x ← a.eval arr
    let y ← b.eval arr
    Geom2D.and arr x y

/-- One step: `|` and `&` of two polygons seen from one point return such a polygon. -/
theorem c104_step (ch : Choices) (hch : ch.Valid) {o : Pt} {P Q : List Pt} (hP : StarRing o P) (hQ : StarRing o Q) :
    (∃ R, Geom2D.or (arrangementOp ch) (ringGeom P) (ringGeom Q) = .ok (ringGeom R) ∧ StarRing o R ∧
      (∀ p, OnBoundary R p → OnBoundary P p ∨ OnBoundary Q p) ∧
      ∀ p, ¬ OnBoundary P p → ¬ OnBoundary Q p → (InPoly R p ↔ InPoly P p ∨ InPoly Q p)) ∧
    ∃ R, Geom2D.and (arrangementOp ch) (ringGeom P) (ringGeom Q) = .ok (ringGeom R) ∧ StarRing o R ∧
      (∀ p, OnBoundary R p → OnBoundary P p ∨ OnBoundary Q p) ∧
      ∀ p, ¬ OnBoundary P p → ¬ OnBoundary Q p → (InPoly R p ↔ InPoly P p ∧ InPoly Q p) := by
  have hg : ∀ g ∈ [ringGeom P, ringGeom Q], WellMade g := by
    intro g hg
    simp only [List.mem_cons, List.not_mem_nil, or_false] at hg
    rcases hg with rfl | rfl
    · exact hP.fine.proper.made
    · exact hQ.fine.proper.made
  have edge : ∀ L p, OnEdge (ringGeom L) p ↔ OnBoundary L p := by
    intro L p
    constructor
    · rintro ⟨s, hs, h | ⟨k, hk, -⟩⟩
      · rw [List.mem_singleton.1 hs] at h; exact h
      · rw [List.mem_singleton.1 hs] at hk; cases hk
    · exact fun h => ⟨_, List.mem_singleton.2 rfl, Or.inl h⟩
  have key : ∀ (op : List Bool → Bool) (F : Prop → Prop → Prop), op [false, false] = false → op [true, true] = true →
      (∀ a b a' b', (a = true → a' = true) → (b = true → b' = true) → op [a, b] = true → op [a', b'] = true) →
      (∀ a b : Prop, ∀ (_ : Decidable a) (_ : Decidable b), op [decide a, decide b] = true ↔ F a b) →
      ∃ R, arrangementOp ch [ringGeom P, ringGeom Q] op = .ok (ringGeom R) ∧ StarRing o R ∧
        (∀ p, OnBoundary R p → OnBoundary P p ∨ OnBoundary Q p) ∧
        ∀ p, ¬ OnBoundary P p → ¬ OnBoundary Q p → (InPoly R p ↔ F (InPoly P p) (InPoly Q p)) := by
    intro op F h0 h1 h2 h3
    obtain ⟨r, hr, -, hpts⟩ := c103_any ch hch hP hQ op h0
    obtain ⟨R, rfl, hR⟩ := star_closed ch hch hP hQ op h0 h1 h2 hr
    refine ⟨R, hr, hR, fun p hp => ?_, fun p n1 n2 => ?_⟩
    · obtain ⟨g, hg', hx⟩ := (arrangementOp_sound ch hch [ringGeom P, ringGeom Q] op _ h0 hg hr).2.1 p ((edge R p).2 hp)
      simp only [List.mem_cons, List.not_mem_nil, or_false] at hg'
      rcases hg' with rfl | rfl
      · exact Or.inl ((edge P p).1 hx)
      · exact Or.inr ((edge Q p).1 hx)
    · obtain ⟨v, e1, e2, -⟩ := locate_single R hR.ne p
      have e3 := hpts p n1 n2
      unfold ringGeom at e3
      rw [e1, Except.ok.injEq, e2, h3] at e3
      rw [e3]
      have w : ∀ {L : List Pt}, ¬ OnBoundary L p → (windingNumber L p ≠ 0) = InPoly L p := fun n =>
        propext ⟨fun h => ⟨n, h⟩, fun h => h.2⟩
      rw [w n1, w n2]
  constructor
  · exact key (fun v => match v with | [x, y] => x || y | _ => false) Or rfl rfl (by decide) (by simp)
  · exact key (fun v => match v with | [x, y] => x && y | _ => false) And rfl rfl (by decide) (by simp)

/-- C104: an expression of `|` and `&` over polygons that are all seen from one point never raises, whatever the order of the
sets inside; the result is again one polygon without holes seen from this point, with exactly the points described. -/
theorem c104_expr (ch : Choices) (hch : ch.Valid) {o : Pt} (x : RingExpr) (hx : ∀ L ∈ x.rings, StarRing o L) :
    ∃ R, x.eval (arrangementOp ch) = .ok (ringGeom R) ∧ StarRing o R ∧
      (∀ p, OnBoundary R p → ∃ L ∈ x.rings, OnBoundary L p) ∧
      ∀ p, (∀ L ∈ x.rings, ¬ OnBoundary L p) → (InPoly R p ↔ x.Inside p) := by
  induction x with
  | ring L =>
    have hL := hx L (by simp [RingExpr.rings])
    exact ⟨L, hL.polygon true, hL, fun p hp => ⟨L, by simp [RingExpr.rings], hp⟩, fun p _ => Iff.rfl⟩
  | or a b iha ihb =>
    obtain ⟨R, r1, r2, r3, r4⟩ := iha fun L hL => hx L (List.mem_append_left _ hL)
    obtain ⟨S, s1, s2, s3, s4⟩ := ihb fun L hL => hx L (List.mem_append_right _ hL)
    obtain ⟨T, t1, t2, t3, t4⟩ := (c104_step ch hch r2 s2).1
    refine ⟨T, ?_, t2, fun p hp => ?_, fun p hp => ?_⟩
    · rw [RingExpr.eval, r1, s1]; exact t1
    · rcases t3 p hp with h | h
      · obtain ⟨L, hL, h⟩ := r3 p h
        exact ⟨L, List.mem_append_left _ hL, h⟩
      · obtain ⟨L, hL, h⟩ := s3 p h
        exact ⟨L, List.mem_append_right _ hL, h⟩
    · have n1 : ∀ L ∈ a.rings, ¬ OnBoundary L p := fun L hL => hp L (List.mem_append_left _ hL)
      have n2 : ∀ L ∈ b.rings, ¬ OnBoundary L p := fun L hL => hp L (List.mem_append_right _ hL)
      rw [t4 p (fun h => by obtain ⟨L, hL, h⟩ := r3 p h; exact n1 L hL h) (fun h => by obtain ⟨L, hL, h⟩ := s3 p h; exact n2 L hL h),
        r4 p n1, s4 p n2]
      rfl
  | and a b iha ihb =>
    obtain ⟨R, r1, r2, r3, r4⟩ := iha fun L hL => hx L (List.mem_append_left _ hL)
    obtain ⟨S, s1, s2, s3, s4⟩ := ihb fun L hL => hx L (List.mem_append_right _ hL)
    obtain ⟨T, t1, t2, t3, t4⟩ := (c104_step ch hch r2 s2).2
    refine ⟨T, ?_, t2, fun p hp => ?_, fun p hp => ?_⟩
    · rw [RingExpr.eval, r1, s1]; exact t1
    · rcases t3 p hp with h | h
      · obtain ⟨L, hL, h⟩ := r3 p h
        exact ⟨L, List.mem_append_left _ hL, h⟩
      · obtain ⟨L, hL, h⟩ := s3 p h
        exact ⟨L, List.mem_append_right _ hL, h⟩
    · have n1 : ∀ L ∈ a.rings, ¬ OnBoundary L p := fun L hL => hp L (List.mem_append_left _ hL)
      have n2 : ∀ L ∈ b.rings, ¬ OnBoundary L p := fun L hL => hp L (List.mem_append_right _ hL)
      rw [t4 p (fun h => by obtain ⟨L, hL, h⟩ := r3 p h; exact n1 L hL h) (fun h => by obtain ⟨L, hL, h⟩ := s3 p h; exact n2 L hL h),
        r4 p n1, s4 p n2]
      rfl

/-- C104: the difference of two such expressions does not raise either. -/
theorem c104_sub (ch : Choices) (hch : ch.Valid) {o : Pt} (x y : RingExpr) (hx : ∀ L ∈ x.rings, StarRing o L)
    (hy : ∀ L ∈ y.rings, StarRing o L) :
    ∃ a b d, x.eval (arrangementOp ch) = .ok a ∧ y.eval (arrangementOp ch) = .ok b ∧ Geom2D.sub (arrangementOp ch) a b = .ok d ∧
      d.Fine ∧ ∀ p, (∀ L ∈ x.rings ++ y.rings, ¬ OnBoundary L p) → (locate d p = .ok 1 ↔ x.Inside p ∧ ¬ y.Inside p) := by
  obtain ⟨R, r1, r2, r3, r4⟩ := c104_expr ch hch x hx
  obtain ⟨S, s1, s2, s3, s4⟩ := c104_expr ch hch y hy
  obtain ⟨a, b, -, -, d, ha, hb, -, -, hd, -, -, hf, -, -, h⟩ := c103_ops ch hch r2 s2 true
  rw [r2.polygon] at ha
  rw [s2.polygon] at hb
  cases ha; cases hb
  refine ⟨_, _, d, r1, s1, hd, hf, fun p hp => ?_⟩
  have n1 : ∀ L ∈ x.rings, ¬ OnBoundary L p := fun L hL => hp L (List.mem_append_left _ hL)
  have n2 : ∀ L ∈ y.rings, ¬ OnBoundary L p := fun L hL => hp L (List.mem_append_right _ hL)
  have m : ¬ OnBoundary S p := fun h => by obtain ⟨L, hL, h⟩ := s3 p h; exact n2 L hL h
  rw [h, r4 p n1, ← s4 p n2]
  exact and_congr_right fun _ => ⟨fun h h' => h'.2 h.2, fun h => ⟨m, by by_contra hc; exact h ⟨m, hc⟩⟩⟩

/-! ### Example -/

/-- Two bars that cross, cut to a square. -/
def barsExpr : RingExpr := .and (.or (.ring (boxLoop 0 3 10 6)) (.ring (boxLoop 3 0 6 10))) (.ring (boxLoop 1 1 7 7))

theorem barsExpr_star : ∀ L ∈ barsExpr.rings, StarRing (4, 4) L := by
  intro L hL
  simp only [barsExpr, RingExpr.rings, List.cons_append, List.nil_append, List.mem_cons, List.not_mem_nil, or_false] at hL
  rcases hL with rfl | rfl | rfl <;> exact boxLoop_star (by norm_num) (by norm_num) (by norm_num) (by norm_num)

/-- C104: the bars, in any order of the sets. -/
theorem c104_run (ch : Choices) (hch : ch.Valid) : ∃ R, barsExpr.eval (arrangementOp ch) = .ok (ringGeom R) ∧
    InPoly R (2, 4) ∧ InPoly R (4, 2) ∧ ¬ InPoly R (2, 2) ∧ ¬ InPoly R (8, 4) := by
  obtain ⟨R, h1, -, -, h2⟩ := c104_expr ch hch barsExpr barsExpr_star
  have off : ∀ p : Pt, (∀ L ∈ barsExpr.rings, ¬ OnBoundary L p) ↔ ¬ OnBoundary (boxLoop 0 3 10 6) p ∧
      ¬ OnBoundary (boxLoop 3 0 6 10) p ∧ ¬ OnBoundary (boxLoop 1 1 7 7) p := by
    intro p
    simp [barsExpr, RingExpr.rings]
  have go : ∀ p : Pt, (∀ L ∈ barsExpr.rings, ¬ OnBoundary L p) → (InPoly R p ↔
      ((0 < p.1 ∧ p.1 < 10 ∧ 3 < p.2 ∧ p.2 < 6) ∨ 3 < p.1 ∧ p.1 < 6 ∧ 0 < p.2 ∧ p.2 < 10) ∧ 1 < p.1 ∧ p.1 < 7 ∧ 1 < p.2 ∧ p.2 < 7) := by
    intro p hp
    rw [h2 p hp]
    simp only [barsExpr, RingExpr.Inside]
    rw [boxLoop_in _ _ _ _ (by norm_num) (by norm_num), boxLoop_in _ _ _ _ (by norm_num) (by norm_num),
      boxLoop_in _ _ _ _ (by norm_num) (by norm_num)]
    norm_num
  refine ⟨R, h1, ?_, ?_, ?_, ?_⟩
  all_goals
    rw [go]
    · norm_num
    · rw [off, boxLoop_boundary _ _ _ _ (by norm_num), boxLoop_boundary _ _ _ _ (by norm_num), boxLoop_boundary _ _ _ _ (by norm_num)]
      norm_num

end Ply
