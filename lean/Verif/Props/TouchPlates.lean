import Verif.Proofs.TotalGroups
import Verif.Props.TouchRings
import Verif.Proofs.Shapes
import Verif.Proofs.RingMerge

/-!
# Uniting plates with holes that touch along straight stretches (C101)
-/

namespace Ply

open Arr Geom2D

theorem ClearPlates.sub {Ps Qs : List (List Pt × List (List Pt))} (h : ClearPlates Ps) (hs : ∀ P ∈ Qs, P ∈ Ps) :
    ClearPlates Qs where
  simple := fun P hP => h.simple P (hs P hP)
  within := fun P hP => h.within P (hs P hP)
  holes := fun P hP => h.holes P (hs P hP)
  free := fun P hP => h.free P (hs P hP)
  apart := fun P hP Q hQ => h.apart P (hs P hP) Q (hs Q hQ)

theorem TouchingPlates.sub {Ps Qs : List (List Pt × List (List Pt))} (h : TouchingPlates Ps) (hs : ∀ P ∈ Qs, P ∈ Ps) :
    TouchingPlates Qs where
  toClearPlates := h.toClearPlates.sub hs
  seam := by
    have key : ∀ L ∈ Qs.flatMap plateRings, L ∈ Ps.flatMap plateRings := by
      intro L hL
      obtain ⟨P, hP, hL⟩ := List.mem_flatMap.1 hL
      exact List.mem_flatMap.2 ⟨P, hs P hP, hL⟩
    exact fun L hL M hM => h.seam L (key L hL) M (key M hM)
  forest := by
    intro F h1 h2 h3
    refine h.forest F h1 h2 fun L hL => ?_
    obtain ⟨P, hP, hL⟩ := List.mem_flatMap.1 (h3 L hL)
    exact List.mem_flatMap.2 ⟨P, hs P hP, hL⟩

theorem TouchingPlates.contacts {Ps : List (List Pt × List (List Pt))} (h : TouchingPlates Ps) :
    Contacts (Ps.map plateRings).flatten := by
  rw [← List.flatMap_def]
  exact ⟨h.seam, h.forest⟩

theorem SimpleRing.point {L : List Pt} (h : SimpleRing L) : ∃ p, OnBoundary L p := by
  obtain ⟨v, hv⟩ := List.exists_mem_of_ne_nil L h.ne_nil
  obtain ⟨e, he, -⟩ := polyEdges_fst hv
  exact ⟨e.1, e, he, 0, le_refl _, by norm_num, by unfold along; ext <;> simp⟩

theorem SimpleRing.value {L : List Pt} (h : SimpleRing L) (hc : shoelace L < 0) {p : Pt} (hp : ¬ OnBoundary L p) :
    windingNumber L p = 0 ∨ windingNumber L p = -1 :=
  (h.outline hc).sides.winding h.ne_nil hp

/-- The winding numbers of the rings of a plate. -/
theorem plate_windings (P : List Pt × List (List Pt)) (p : Pt) :
    windings (plateRings P) p = windingNumber P.1 p - (P.2.map fun H => windingNumber H p).sum := by
  unfold windings plateRings
  rw [List.map_cons, List.sum_cons, List.map_map]
  have : ∀ l : List (List Pt), (l.map ((fun L => windingNumber L p) ∘ List.reverse)).sum = -(l.map fun H => windingNumber H p).sum := by
    intro l
    induction l with
    | nil => rfl
    | cons a l ih =>
      rw [List.map_cons, List.sum_cons, ih, List.map_cons, List.sum_cons, Function.comp_apply, windingNumber_reverse]
      ring
  rw [this]
  ring

section
variable {Ps : List (List Pt × List (List Pt))} (h : ClearPlates Ps) {P : List Pt × List (List Pt)} (hP : P ∈ Ps)
include h hP

/-- Off its rings the rings of a plate wind once around the points inside and not around others. -/
theorem ClearPlates.inside {p : Pt} (h1 : ¬ OnBoundary P.1 p) (h2 : ∀ H ∈ P.2, ¬ OnBoundary H p) :
    (InRegion P.1 P.2 p ∧ windings (plateRings P) p = -1) ∨ (¬ InRegion P.1 P.2 p ∧ windings (plateRings P) p = 0) := by
  have hv := (h.simple P hP P.1 List.mem_cons_self)
  have hvH : ∀ H ∈ P.2, windingNumber H p = 0 ∨ windingNumber H p = -1 := fun H hH =>
    (h.simple P hP H (List.mem_cons_of_mem _ hH)).1.value (h.simple P hP H (List.mem_cons_of_mem _ hH)).2 (h2 H hH)
  have key : ∀ l : List (List Pt), (∀ H ∈ l, H ∈ P.2) → l.Pairwise (fun H K => ∀ p, ¬ (InPoly H p ∧ InPoly K p)) →
      ((∀ H ∈ l, windingNumber H p = 0) ∧ (l.map fun H => windingNumber H p).sum = 0) ∨
      (∃ H ∈ l, windingNumber H p = -1) ∧ (l.map fun H => windingNumber H p).sum = -1 := by
    intro l
    induction l with
    | nil => intro _ _; exact Or.inl ⟨by simp, rfl⟩
    | cons a l ih =>
      intro hl hp
      obtain ⟨p1, p2⟩ := List.pairwise_cons.1 hp
      have ha := hl a List.mem_cons_self
      have i := ih (fun H hH => hl H (List.mem_cons_of_mem _ hH)) p2
      rw [List.map_cons, List.sum_cons]
      rcases hvH a ha with ha0 | ha1
      · rcases i with ⟨i1, i2⟩ | ⟨⟨H, hH, i1⟩, i2⟩
        · exact Or.inl ⟨List.forall_mem_cons.2 ⟨ha0, i1⟩, by rw [ha0, i2]; rfl⟩
        · exact Or.inr ⟨⟨H, List.mem_cons_of_mem _ hH, i1⟩, by rw [ha0, i2]; rfl⟩
      · right
        refine ⟨⟨a, List.mem_cons_self, ha1⟩, ?_⟩
        have : ∀ H ∈ l, windingNumber H p = 0 := by
          intro H hH
          have hH' := hl H (List.mem_cons_of_mem _ hH)
          refine (hvH H hH').resolve_right fun hw => p1 H hH p ⟨⟨h2 a ha, by rw [ha1]; decide⟩, h2 H hH', by rw [hw]; decide⟩
        rw [List.map_congr_left this, ha1]
        simp
  rw [plate_windings]
  rcases key P.2 (fun _ h => h) (h.holes P hP) with ⟨k1, k2⟩ | ⟨⟨H, hH, k1⟩, k2⟩
  · rw [k2, sub_zero]
    rcases hv.1.value hv.2 h1 with w | w
    · exact Or.inr ⟨fun hi => hi.1.2 w, w⟩
    · exact Or.inl ⟨⟨⟨h1, by rw [w]; decide⟩, fun H hH => ⟨h2 H hH, k1 H hH⟩⟩, w⟩
  · right
    have hi : InPoly H p := ⟨h2 H hH, by rw [k1]; decide⟩
    have := h.within P hP H hH p hi
    rw [k2, (hv.1.value hv.2 h1).resolve_left this.2]
    exact ⟨fun hx => hi.2 (hx.2 H hH).2, by decide⟩

theorem ClearPlates.rings {L : List Pt} (hL : L ∈ plateRings P) : SimpleRing L := by
  rcases List.mem_cons.1 hL with rfl | hL
  · exact (h.simple P hP P.1 List.mem_cons_self).1
  · obtain ⟨H, hH, rfl⟩ := List.mem_map.1 hL
    exact (h.simple P hP H (List.mem_cons_of_mem _ hH)).1.reverse

omit h hP in
theorem off_plate {p : Pt} (ho : OffLoops (plateRings P) p) : ¬ OnBoundary P.1 p ∧ ∀ H ∈ P.2, ¬ OnBoundary H p :=
  ⟨ho P.1 List.mem_cons_self, fun H hH hx => ho H.reverse (List.mem_cons_of_mem _ (List.mem_map_of_mem hH))
    ((onBoundary_reverse H p).2 hx)⟩

theorem ClearPlates.unmeet : (plateRings P).Pairwise fun L M => ¬ Meet L M := by
  have hf := h.free P hP
  unfold plateRings
  rw [List.pairwise_cons] at hf ⊢
  refine ⟨fun L hL hm => ?_, ?_⟩
  · obtain ⟨H, hH, rfl⟩ := List.mem_map.1 hL
    obtain ⟨p, p1, p2⟩ := hm
    exact hf.1 H hH ⟨p, p1, (onBoundary_reverse H p).1 p2⟩
  · rw [List.pairwise_map]
    refine hf.2.imp ?_
    rintro a b hab ⟨p, p1, p2⟩
    exact hab ⟨p, (onBoundary_reverse a p).1 p1, (onBoundary_reverse b p).1 p2⟩

end

theorem ClearPlates.plates {Ps : List (List Pt × List (List Pt))} (h : ClearPlates Ps) : Plates (Ps.map plateRings) where
  simple := by
    intro G hG L hL
    obtain ⟨P, hP, rfl⟩ := List.mem_map.1 hG
    exact h.rings hP hL
  nodup := by
    intro G hG
    obtain ⟨P, hP, rfl⟩ := List.mem_map.1 hG
    refine (h.unmeet hP).imp_of_mem ?_
    rintro a b ha - hm rfl
    obtain ⟨p, hp⟩ := (h.rings hP ha).point
    exact hm ⟨p, hp, hp⟩
  free := by
    intro G hG L hL M hM hne
    obtain ⟨P, hP, rfl⟩ := List.mem_map.1 hG
    have : Std.Symm fun L M : List Pt => ¬ Meet L M := ⟨fun a b hab hm => hab (meet_symm hm)⟩
    exact (h.unmeet hP).forall hL hM hne
  value := by
    intro G hG p ho
    obtain ⟨P, hP, rfl⟩ := List.mem_map.1 hG
    obtain ⟨o1, o2⟩ := off_plate ho
    rcases h.inside hP o1 o2 with hi | hi
    · exact Or.inr hi.2
    · exact Or.inl hi.2
  apart := by
    intro G hG G' hG' p ho ho' hw hw'
    obtain ⟨P, hP, rfl⟩ := List.mem_map.1 hG
    obtain ⟨Q, hQ, rfl⟩ := List.mem_map.1 hG'
    obtain ⟨o1, o2⟩ := off_plate ho
    obtain ⟨q1, q2⟩ := off_plate ho'
    rcases h.inside hP o1 o2 with hi | hi
    · rcases h.inside hQ q1 q2 with hj | hj
      · rw [h.apart P hP Q hQ p hi.1 hj.1]
      · exact absurd hj.2 hw'
    · exact absurd hi.2 hw

/-- The geom consists of polygons that are among the plates. -/
def PiecesOf (Ps : List (List Pt × List (List Pt))) (g : Geom2D) : Prop := ∀ s ∈ g, (s.outer, s.holes) ∈ Ps

/-- The polygons of the geoms. -/
def platesOf (gs : List Geom2D) : List (List Pt × List (List Pt)) := gs.flatMap fun g => g.map fun s => (s.outer, s.holes)

theorem mem_platesOf {gs : List Geom2D} {P : List Pt × List (List Pt)} :
    P ∈ platesOf gs ↔ ∃ g ∈ gs, ∃ s ∈ g, P = (s.outer, s.holes) := by
  unfold platesOf
  simp only [List.mem_flatMap, List.mem_map, eq_comm]

theorem ClearPlates.usable {Ps : List (List Pt × List (List Pt))} (h : ClearPlates Ps) {g : Geom2D} (hg : PiecesOf Ps g) :
    Usable g where
  made := fun s hs => by
    have := h.simple _ (hg s hs)
    exact (SPWH.mk'_iff _ _ _).2 ⟨rfl, fun _ he => (this _ List.mem_cons_self).1.pos he, (this _ List.mem_cons_self).2,
      fun k hk => ⟨(this k (List.mem_cons_of_mem _ hk)).2, fun _ he => (this k (List.mem_cons_of_mem _ hk)).1.pos he⟩⟩
  cutting := fun s hs => by
    have := h.simple _ (hg s hs)
    exact ⟨((this _ List.mem_cons_self).1.outline (this _ List.mem_cons_self).2).forward.cuts, fun k hk =>
      ((this k (List.mem_cons_of_mem _ hk)).1.outline (this k (List.mem_cons_of_mem _ hk)).2).forward.cuts⟩

/-- A geom of one plate. -/
def plateGeom (P : List Pt × List (List Pt)) : Geom2D := [⟨P.1, P.2⟩]

/-- A geom of one plate can be given to all operations. -/
theorem ClearPlates.fine {Ps : List (List Pt × List (List Pt))} (h : ClearPlates Ps) {P : List Pt × List (List Pt)}
    (hP : P ∈ Ps) : (plateGeom P).Fine := by
  have one : ∀ {s : SPWH}, s ∈ plateGeom P → s = ⟨P.1, P.2⟩ := fun hs => List.mem_singleton.1 hs
  refine Geom2D.Ringed.fine ⟨fun s hs => ?_, fun s hs k hk => ?_, fun s hs => ?_, fun s hs => ?_, List.pairwise_singleton _ _⟩ ?_
  · rw [one hs]; exact h.simple P hP _ List.mem_cons_self
  · rw [one hs] at hk; exact h.simple P hP _ (List.mem_cons_of_mem _ hk)
  · rw [one hs]; exact h.within P hP
  · rw [one hs]; exact h.holes P hP
  · unfold Geom2D.Noded plateGeom
    rw [List.flatMap_singleton]
    exact (h.free P hP).imp fun hm e he k hk x h1 h2 => absurd ⟨x, ⟨e, he, h1⟩, k, hk, h2⟩ hm

theorem pieces_plate {Ps : List (List Pt × List (List Pt))} {P : List Pt × List (List Pt)} (hP : P ∈ Ps) :
    PiecesOf Ps (plateGeom P) := fun s hs => by
  rw [List.mem_singleton.1 hs]; exact hP

/-- The arrangement of the plates. -/
theorem plates_net (ch : Choices) (hch : ch.Valid) (gs : List Geom2D) (hT : Plates ((platesOf gs).map plateRings))
    (hg : ∀ g ∈ gs, Usable g) {A : Arrangement} (hA : build ch (gs.flatMap allSegments) = .ok A)
    (hB : BuildOK A) (hF : Arr.Full A) : LoopNet A ((platesOf gs).map plateRings).flatten where
  simple := by
    intro L hL
    obtain ⟨G, hG, hL⟩ := List.mem_flatten.1 hL
    exact hT.simple G hG L hL
  built := hB
  full := hF
  on := fun x => by
    obtain ⟨-, hon⟩ := build_spec ch hch _ (segments_ne gs fun g h => (hg g h).made) A hA
    rw [hon, onAny_flat]
    constructor
    · rintro ⟨g, hg', s, hs, h | ⟨k, hk, h⟩⟩
      · exact ⟨s.outer, mem_flat (List.mem_map_of_mem (mem_platesOf.2 ⟨g, hg', s, hs, rfl⟩)) List.mem_cons_self, h⟩
      · exact ⟨k.reverse, mem_flat (List.mem_map_of_mem (mem_platesOf.2 ⟨g, hg', s, hs, rfl⟩))
          (List.mem_cons_of_mem _ (List.mem_map_of_mem hk)), (onBoundary_reverse k x).2 h⟩
    · rintro ⟨L, hL, h⟩
      obtain ⟨G, hG, hL⟩ := List.mem_flatten.1 hL
      obtain ⟨P, hP, rfl⟩ := List.mem_map.1 hG
      obtain ⟨g, hg', s, hs, rfl⟩ := mem_platesOf.1 hP
      refine ⟨g, hg', s, hs, ?_⟩
      rcases List.mem_cons.1 hL with rfl | hL
      · exact Or.inl h
      · obtain ⟨k, hk, rfl⟩ := List.mem_map.1 hL
        exact Or.inr ⟨k, hk, (onBoundary_reverse k x).1 h⟩
  within := by
    intro k hk L hL e he t t0 t1 hx
    have hw := build_within ch hch _ (segments_ne gs fun g h => (hg g h).made) A hA k hk
    obtain ⟨G, hG, hL⟩ := List.mem_flatten.1 hL
    obtain ⟨P, hP, rfl⟩ := List.mem_map.1 hG
    obtain ⟨g, hg', s, hs, rfl⟩ := mem_platesOf.1 hP
    rcases List.mem_cons.1 hL with rfl | hL
    · refine hw e ?_ t t0 t1 hx
      refine List.mem_flatMap.2 ⟨g, hg', List.mem_flatMap.2 ⟨s, hs, ?_⟩⟩
      unfold SPWH.segments
      rw [edgesIter_eq]
      exact List.mem_append_left _ he
    · obtain ⟨H, hH, rfl⟩ := List.mem_map.1 hL
      obtain ⟨f, hf, rfl⟩ := List.mem_map.1 ((polyEdges_reverse H).mem_iff.1 he)
      have := hw f (by
        refine List.mem_flatMap.2 ⟨g, hg', List.mem_flatMap.2 ⟨s, hs, ?_⟩⟩
        unfold SPWH.segments
        refine List.mem_append_right _ (List.mem_flatMap.2 ⟨H, hH, ?_⟩)
        rw [edgesIter_eq]
        exact hf) t t0 t1 ((onSeg_rev f _).1 hx)
      exact ⟨(onSeg_rev f _).2 this.1, (onSeg_rev f _).2 this.2⟩

/-- C101: no combination of plates with holes that touch along straight stretches raises. -/
theorem c101_any (ch : Choices) (hch : ch.Valid) {Ps : List (List Pt × List (List Pt))} (hT : TouchingPlates Ps) (gs : List Geom2D)
    (hp : ∀ g ∈ gs, PiecesOf Ps g) (op : List Bool → Bool)
    (hop : op (gs.map fun _ => false) = false) :
    ∃ r, arrangementOp ch gs op = .ok r ∧ r.Fine ∧ ∀ p, (∀ g ∈ gs, ¬ OnEdge g p) →
        (locate r p = .ok 1 ↔ op (gs.map fun g => decide (locate g p = .ok 1)) = true) := by
  have hg : ∀ g ∈ gs, Usable g := fun g h => hT.usable (hp g h)
  have hT' : TouchingPlates (platesOf gs) := hT.sub fun P hP => by
    obtain ⟨g, hg', s, hs, rfl⟩ := mem_platesOf.1 hP
    exact hp g hg' s hs
  obtain ⟨-, r, -, -, -, hr, -⟩ := arrangementOp_groups ch hch gs op hop hg (by
    intro A hA hB hF
    have hR := plates_net ch hch gs hT'.plates hg hA hB hF
    refine (loops_discs (plate_ring hR hT'.plates) hT'.contacts (fun c => chosen gs op c.point) fun c hc hs => ?_).fusing
    obtain ⟨g, hg', s, hs', hin⟩ : ∃ g ∈ gs, ∃ s ∈ g, InRegion s.outer s.holes c.point := by
      by_contra hcon
      push Not at hcon
      have : (gs.map fun g => decide (locate g c.point = .ok 1)) = gs.map fun _ => false := by
        refine List.map_congr_left fun g hg' => decide_eq_false fun h => ?_
        obtain ⟨s, hs, hin⟩ := (locate_one (hg g hg').made _).1 h
        exact hcon g hg' s hs hin
      unfold chosen at hs
      rw [this, hop] at hs
      cases hs
    have hP : (s.outer, s.holes) ∈ platesOf gs := mem_platesOf.2 ⟨g, hg', s, hs', rfl⟩
    have hG : plateRings (s.outer, s.holes) ∈ (platesOf gs).map plateRings := List.mem_map_of_mem hP
    obtain ⟨o1, o2⟩ := off_plate (off_loops hR hG (hB.off c hc))
    obtain ⟨L, hL, hi⟩ := plate_iff hR hT'.plates hG hc (by
      rcases hT'.inside hP o1 o2 with h | h
      · rw [h.2]; decide
      · exact absurd hin h.1)
    exact ⟨L, mem_flat hG hL, hi⟩)
  exact ⟨r, hr, arr_fine ch hch gs op r hop hg hr,
    (arrangementOp_sound ch hch gs op r hop (fun g h => (hg g h).made) hr).2.2⟩

/-- C101: `a | b` of plates with holes that touch along straight stretches returns the union. -/
theorem c101_or (ch : Choices) (hch : ch.Valid) {Ps : List (List Pt × List (List Pt))} (hT : TouchingPlates Ps) (a b : Geom2D)
    (ha : a.Fine) (hb : b.Fine) (pa : PiecesOf Ps a) (pb : PiecesOf Ps b) :
    ∃ r, Geom2D.or (arrangementOp ch) a b = .ok r ∧ r.Fine ∧ ∀ p, r.Has p ↔ a.Has p ∨ b.Has p := by
  obtain ⟨r, h1⟩ : ∃ r, Geom2D.or (arrangementOp ch) a b = .ok r := by
    unfold Geom2D.or
    split_ifs
    · exact ⟨b, rfl⟩
    · exact ⟨a, rfl⟩
    · obtain ⟨r, h1, -⟩ := c101_any ch hch hT [a, b] (by
          intro g hg
          rcases List.mem_cons.1 hg with rfl | hg
          · exact pa
          · rw [List.mem_singleton.1 hg]; exact pb) (fun v => match v with | [x, y] => x || y | _ => false) rfl
      exact ⟨r, h1⟩
  exact ⟨r, h1, or_fine ch hch ha hb h1, c78_or ch hch ha hb h1⟩

/-- C101: the same for the union of at most 64 geoms. -/
theorem c101_union (ch : Choices) (hch : ch.Valid) {Ps : List (List Pt × List (List Pt))} (hT : TouchingPlates Ps) (gs : List Geom2D)
    (hg : ∀ g ∈ gs, Geom2D.Fine g) (hp : ∀ g ∈ gs, PiecesOf Ps g) (hn : gs.length ≤ 64) (fuel : ℕ) (hf : gs.length + 4 ≤ fuel) :
    ∃ r, Geom2D.union (arrangementOp ch) fuel gs = .ok r ∧ r.Fine ∧ ∀ p, r.Has p ↔ ∃ g ∈ gs, Geom2D.Has g p := by
  obtain ⟨r, h1, h2, -⟩ := c101_any ch hch hT gs hp (fun args => args.any id) (by simp)
  have : Geom2D.union (arrangementOp ch) fuel gs = .ok r := by
    obtain ⟨k, rfl⟩ : ∃ k, fuel = k + 1 := ⟨fuel - 1, by omega⟩
    rw [Geom2D.union, if_neg (by unfold unionN; omega)]
    exact h1
  exact ⟨r, this, h2, c78_union ch hch gs hg fuel hf this⟩

/-- C101: the union of at most 64 plates with holes that touch along straight stretches is what the plates cover. -/
theorem c101_plates (ch : Choices) (hch : ch.Valid) (Ps : List (List Pt × List (List Pt))) (hT : TouchingPlates Ps)
    (hn : Ps.length ≤ 64) (fuel : ℕ) (hf : Ps.length + 4 ≤ fuel) :
    ∃ r, Geom2D.union (arrangementOp ch) fuel (Ps.map plateGeom) = .ok r ∧ r.Fine ∧
      ∀ p, r.Has p ↔ ∃ P ∈ Ps, (plateGeom P).Has p := by
  have := c101_union ch hch hT (Ps.map plateGeom) (fun g hg => by
      obtain ⟨P, hP, rfl⟩ := List.mem_map.1 hg
      exact hT.fine hP) (fun g hg => by
      obtain ⟨P, hP, rfl⟩ := List.mem_map.1 hg
      exact pieces_plate hP) (by rw [List.length_map]; exact hn) fuel (by rw [List.length_map]; exact hf)
  simpa using this

/-! ### A plate and its fingers -/

theorem PlateStar.touching {P : List Pt × List (List Pt)} {Fs : List (List Pt)} (h : PlateStar P Fs) :
    TouchingPlates (P :: Fs.map fun F => (F, [])) := by
  have two : ∀ Q ∈ P :: Fs.map (fun F => (F, [])), Q = P ∨ ∃ F ∈ Fs, Q = (F, []) := by
    intro Q hQ
    rcases List.mem_cons.1 hQ with rfl | hQ
    · exact Or.inl rfl
    · obtain ⟨F, hF, rfl⟩ := List.mem_map.1 hQ
      exact Or.inr ⟨F, hF, rfl⟩
  have rings : ∀ L ∈ (P :: Fs.map (fun F => (F, []))).flatMap plateRings, L ∈ plateRings P ∨ L ∈ Fs := by
    intro L hL
    obtain ⟨Q, hQ, hL'⟩ := List.mem_flatMap.1 hL
    rcases two Q hQ with rfl | ⟨F, hF, rfl⟩
    · exact Or.inl hL'
    · right
      rw [List.mem_singleton.1 hL']; exact hF
  have free : ∀ L ∈ plateRings P, ∀ M ∈ plateRings P, L ≠ M → ¬ Meet L M := by
    intro L hL M hM hne
    have hf := h.free
    have : (plateRings P).Pairwise fun L M => ¬ Meet L M := by
      unfold plateRings
      rw [List.pairwise_cons] at hf ⊢
      refine ⟨fun L hL hm => ?_, ?_⟩
      · obtain ⟨H, hH, rfl⟩ := List.mem_map.1 hL
        obtain ⟨p, p1, p2⟩ := hm
        exact hf.1 H hH ⟨p, p1, (onBoundary_reverse H p).1 p2⟩
      · rw [List.pairwise_map]
        refine hf.2.imp ?_
        rintro a b hab ⟨p, p1, p2⟩
        exact hab ⟨p, (onBoundary_reverse a p).1 p1, (onBoundary_reverse b p).1 p2⟩
    have _ : Std.Symm fun L M : List Pt => ¬ Meet L M := ⟨fun a b hab hm => hab (meet_symm hm)⟩
    exact this.forall hL hM hne
  refine ⟨⟨fun Q hQ L hL => ?_, fun Q hQ => ?_, fun Q hQ => ?_, fun Q hQ => ?_, fun Q hQ R hR p h1 h2 => ?_⟩,
    fun L hL M hM hne => ?_, fun F hF hnd hsub => ?_⟩
  · rcases two Q hQ with rfl | ⟨F, hF, rfl⟩
    · refine h.simple L ?_
      rcases List.mem_cons.1 hL with rfl | hL
      · exact List.mem_cons_self
      · exact List.mem_cons_of_mem _ (List.mem_append_left _ hL)
    · rw [List.mem_singleton.1 hL]
      exact h.simple F (List.mem_cons_of_mem _ (List.mem_append_right _ hF))
  · rcases two Q hQ with rfl | ⟨F, hF, rfl⟩
    · exact h.within
    · simp
  · rcases two Q hQ with rfl | ⟨F, hF, rfl⟩
    · exact h.holes
    · simp
  · rcases two Q hQ with rfl | ⟨F, hF, rfl⟩
    · exact h.free
    · simp
  · rcases two Q hQ with rfl | ⟨F, hF, rfl⟩ <;> rcases two R hR with rfl | ⟨G, hG, rfl⟩
    · rfl
    · exact absurd h2.1 (h.apart G hG p h1)
    · exact absurd h1.1 (h.apart F hF p h2)
    · rw [h.fingers F hF G hG (Or.inl ⟨p, h1.1, h2.1⟩)]
  · by_cases hm : Meet L M
    · rcases rings L hL with hL | hL <;> rcases rings M hM with hM | hM
      · exact absurd hm (free L hL M hM hne)
      · obtain ⟨R, hR, h1, h2⟩ := h.seam M hM
        rw [h1 L hL hm]; exact Or.inr h2
      · obtain ⟨R, hR, h1, x, y, h2, h3⟩ := h.seam L hL
        rw [h1 M hM (meet_symm hm)]
        exact Or.inr ⟨x, y, h2, fun p => and_comm.trans (h3 p)⟩
      · exact absurd (h.fingers L hL M hM (Or.inr hm)) hne
    · exact Or.inl fun p q hp _ => absurd ⟨p, hp⟩ hm
  · by_cases hex : ∃ L ∈ F, L ∈ Fs
    · obtain ⟨L, hL, hL'⟩ := hex
      obtain ⟨R, hR, h1, -⟩ := h.seam L hL'
      have key : ∀ M ∈ F, M ≠ L → Meet L M → M = R := by
        intro M hM hML hm
        rcases rings M (hsub M hM) with hM' | hM'
        · exact h1 M hM' (meet_symm hm)
        · exact absurd (h.fingers L hL' M hM' (Or.inr hm)).symm hML
      exact ⟨L, hL, fun M hM N hN n1 n2 m1 m2 => (key M hM n1 m1).trans (key N hN n2 m2).symm⟩
    · push Not at hex
      obtain ⟨L, hL⟩ := List.exists_mem_of_ne_nil F hF
      have hr : ∀ M ∈ F, M ∈ plateRings P := fun M hM => (rings M (hsub M hM)).resolve_right (hex M hM)
      exact ⟨L, hL, fun M hM N hN n1 _ m1 _ => absurd m1 (free L (hr L hL) M (hr M hM) n1.symm)⟩

/-- C101: uniting a plate that has holes with its fingers, on its edge and on the edges of its holes, in one operation. -/
theorem c101_fingers (ch : Choices) (hch : ch.Valid) {P : List Pt × List (List Pt)} {Fs : List (List Pt)} (h : PlateStar P Fs)
    (b : Geom2D) (hb : b.Fine) (hp : ∀ s ∈ b, s.outer ∈ Fs ∧ s.holes = []) :
    ∃ r, Geom2D.or (arrangementOp ch) (plateGeom P) b = .ok r ∧ r.Fine ∧ ∀ p, r.Has p ↔ (plateGeom P).Has p ∨ b.Has p :=
  c101_or ch hch h.touching _ b (h.touching.fine List.mem_cons_self) hb (pieces_plate List.mem_cons_self) fun s hs => by
    rw [(hp s hs).2]
    exact List.mem_cons_of_mem _ (List.mem_map_of_mem (hp s hs).1)

/-! ### Example -/

/-- A frame. -/
def frameRings : List Pt × List (List Pt) := (boxLoop 0 0 20 20, [boxLoop 5 5 15 15])

/-- A finger on the edge of the frame and one in its hole. -/
def inOut : Geom2D := [⟨boxLoop 8 20 12 23, []⟩, ⟨boxLoop 8 5 12 7, []⟩]

theorem frame_star : PlateStar frameRings [boxLoop 8 20 12 23, boxLoop 8 5 12 7] := by
  have top : ∀ p, OnBoundary (boxLoop 0 0 20 20) p ∧ OnBoundary (boxLoop 8 20 12 23) p ↔ OnSeg ((8, 20), (12, 20)) p := by
    intro p
    rw [boxLoop_boundary _ _ _ _ (by norm_num), boxLoop_boundary _ _ _ _ (by norm_num),
      onSeg_iff_of_horizontal (a := (8, 20)) (b := (12, 20)) rfl]
    norm_num
    constructor
    · rintro ⟨⟨⟨h1, h2, h3, h4⟩, -⟩, ⟨h5, h6, h7, h8⟩, -⟩
      exact ⟨by linarith, h5, h6⟩
    · rintro ⟨h1, h2, h3⟩
      refine ⟨⟨⟨by linarith, by linarith, by linarith, by linarith⟩, fun _ _ _ => by linarith⟩,
        ⟨by linarith, by linarith, by linarith, by linarith⟩, fun _ _ h => absurd h (by linarith)⟩
  have bottom : ∀ p, OnBoundary (boxLoop 5 5 15 15) p ∧ OnBoundary (boxLoop 8 5 12 7) p ↔ OnSeg ((8, 5), (12, 5)) p := by
    intro p
    rw [boxLoop_boundary _ _ _ _ (by norm_num), boxLoop_boundary _ _ _ _ (by norm_num),
      onSeg_iff_of_horizontal (a := (8, 5)) (b := (12, 5)) rfl]
    norm_num
    constructor
    · rintro ⟨⟨⟨h1, h2, h3, h4⟩, n1⟩, ⟨h5, h6, h7, h8⟩, -⟩
      refine ⟨le_antisymm (not_lt.1 fun hc => ?_) h3, h5, h6⟩
      have := n1 (by linarith) (by linarith) hc
      linarith
    · rintro ⟨h1, h2, h3⟩
      refine ⟨⟨⟨by linarith, by linarith, by linarith, by linarith⟩, fun _ _ h => absurd h (by linarith)⟩,
        ⟨by linarith, by linarith, by linarith, by linarith⟩, fun _ _ h => absurd h (by linarith)⟩
  have part : ∀ {a b c d a' b' c' d' : ℚ}, b ≠ d → b' ≠ d' → a < c → b < d → a' < c' → b' < d' →
      (c < a' ∨ c' < a ∨ d < b' ∨ d' < b ∨ (a < a' ∧ c' < c ∧ b < b' ∧ d' < d)) →
      ¬ Meet (boxLoop a b c d) (boxLoop a' b' c' d') := by
    rintro a b c d a' b' c' d' h1 h2 h3 h4 h5 h6 h ⟨p, hp, hq⟩
    rw [boxLoop_boundary _ _ _ _ h1, min_eq_left h3.le, max_eq_right h3.le, min_eq_left h4.le, max_eq_right h4.le] at hp
    rw [boxLoop_boundary _ _ _ _ h2, min_eq_left h5.le, max_eq_right h5.le, min_eq_left h6.le, max_eq_right h6.le] at hq
    obtain ⟨⟨p1, p2, p3, p4⟩, p5⟩ := hp
    obtain ⟨⟨q1, q2, q3, q4⟩, -⟩ := hq
    rcases h with h | h | h | h | ⟨k1, k2, k3, k4⟩
    · linarith
    · linarith
    · linarith
    · linarith
    · exact p5 ⟨by linarith, by linarith, by linarith, by linarith⟩
  refine ⟨fun L hL => ?_, fun H hH p hp => ?_, by simp [frameRings], ?_, fun F hF p hp hq => ?_, fun F hF G hG hm => ?_,
    fun F hF => ?_⟩
  · simp only [frameRings, List.cons_append, List.nil_append, List.mem_cons, List.not_mem_nil, or_false] at hL
    rcases hL with rfl | rfl | rfl | rfl <;>
      exact ⟨boxLoop_simple (by norm_num) (by norm_num), by rw [boxLoop_shoelace]; norm_num⟩
  · simp only [frameRings, List.mem_cons, List.not_mem_nil, or_false] at hH
    subst hH
    rw [boxLoop_in _ _ _ _ (by norm_num) (by norm_num)] at hp
    unfold frameRings
    rw [boxLoop_in _ _ _ _ (by norm_num) (by norm_num)]
    norm_num at hp ⊢
    obtain ⟨h1, h2, h3, h4⟩ := hp
    exact ⟨by linarith, by linarith, by linarith, by linarith⟩
  · simp only [frameRings, List.pairwise_cons, List.mem_cons, List.not_mem_nil, or_false, forall_eq, false_imp_iff,
      implies_true, List.Pairwise.nil, and_true]
    exact part (by norm_num) (by norm_num) (by norm_num) (by norm_num) (by norm_num) (by norm_num)
      (Or.inr (Or.inr (Or.inr (Or.inr (by norm_num)))))
  · obtain ⟨h1, h2⟩ := hp
    have h2 := h2 (boxLoop 5 5 15 15) (by simp [frameRings])
    unfold frameRings at h1
    simp only [List.mem_cons, List.not_mem_nil, or_false] at hF
    rcases hF with rfl | rfl
    · rw [boxLoop_in _ _ _ _ (by norm_num) (by norm_num)] at h1 hq
      norm_num at h1 hq
      linarith [h1.2.2.2, hq.2.2.1]
    · have : InPoly (boxLoop 5 5 15 15) p := by
        rw [boxLoop_in _ _ _ _ (by norm_num) (by norm_num)] at hq ⊢
        norm_num at hq ⊢
        obtain ⟨k1, k2, k3, k4⟩ := hq
        exact ⟨by linarith, by linarith, by linarith, by linarith⟩
      exact this.2 h2.2
  · simp only [List.mem_cons, List.not_mem_nil, or_false] at hF hG
    have no : ¬ Meet (boxLoop 8 20 12 23) (boxLoop 8 5 12 7) :=
      part (by norm_num) (by norm_num) (by norm_num) (by norm_num) (by norm_num) (by norm_num)
        (Or.inr (Or.inr (Or.inr (Or.inl (by norm_num)))))
    have off : ∀ p, InPoly (boxLoop 8 20 12 23) p → InPoly (boxLoop 8 5 12 7) p → False := by
      intro p hp hq
      rw [boxLoop_in _ _ _ _ (by norm_num) (by norm_num)] at hp hq
      norm_num at hp hq
      linarith [hp.2.2.1, hq.2.2.2]
    rcases hF with rfl | rfl <;> rcases hG with rfl | rfl <;> first | rfl | exfalso
    · rcases hm with ⟨p, h1, h2⟩ | hm
      · exact off p h1 h2
      · exact no hm
    · rcases hm with ⟨p, h1, h2⟩ | hm
      · exact off p h2 h1
      · exact no (meet_symm hm)
  · have meets : ∀ F : List Pt, Meet (boxLoop 5 5 15 15).reverse F → Meet (boxLoop 5 5 15 15) F := by
      rintro F ⟨p, h1, h2⟩
      exact ⟨p, (onBoundary_reverse _ p).1 h1, h2⟩
    simp only [List.mem_cons, List.not_mem_nil, or_false] at hF
    rcases hF with rfl | rfl
    · refine ⟨boxLoop 0 0 20 20, List.mem_cons_self, fun M hM hm => ?_, (8, 20), (12, 20), by simp, top⟩
      simp only [plateRings, frameRings, List.map_cons, List.map_nil, List.mem_cons, List.not_mem_nil, or_false] at hM
      rcases hM with rfl | rfl
      · rfl
      · exact absurd (meets _ hm) (part (by norm_num) (by norm_num) (by norm_num) (by norm_num) (by norm_num) (by norm_num)
          (Or.inr (Or.inr (Or.inl (by norm_num)))))
    · refine ⟨(boxLoop 5 5 15 15).reverse, by simp [plateRings, frameRings], fun M hM hm => ?_, (8, 5), (12, 5), by simp,
        fun p => ?_⟩
      · simp only [plateRings, frameRings, List.map_cons, List.map_nil, List.mem_cons, List.not_mem_nil, or_false] at hM
        rcases hM with rfl | rfl
        · exact absurd hm (part (by norm_num) (by norm_num) (by norm_num) (by norm_num) (by norm_num) (by norm_num)
            (Or.inr (Or.inr (Or.inr (Or.inr (by norm_num))))))
        · rfl
      · rw [onBoundary_reverse]
        exact bottom p

theorem inOut_fine : inOut.Fine :=
  fine_of inOut (made_of _ (by decide +kernel)) (by decide +kernel) (by decide +kernel)

/-- C101: a frame with a finger on its edge and a finger in its hole, in any order of the sets. -/
theorem c101_run (ch : Choices) (hch : ch.Valid) : ∃ r, Geom2D.or (arrangementOp ch) (plateGeom frameRings) inOut = .ok r ∧
    r.Has (10, 20) ∧ r.Has (10, 22) ∧ r.Has (10, 5) ∧ r.Has (10, 6) ∧ r.Has (1, 1) ∧ ¬ r.Has (10, 10) := by
  obtain ⟨r, h1, -, h2⟩ := c101_fingers ch hch frame_star inOut inOut_fine (by
    intro s hs
    simp only [inOut, List.mem_cons, List.not_mem_nil, or_false] at hs
    rcases hs with rfl | rfl <;> exact ⟨by simp, rfl⟩)
  have no : ∀ g : Geom2D, Geom2D.locate g (10, 10) = .ok (-1) → ¬ g.Has (10, 10) := by
    intro g hg hc
    unfold Geom2D.Has at hc
    rw [hg] at hc
    rcases hc with hc | hc <;> cases hc
  refine ⟨r, h1, (h2 _).2 (Or.inl (Or.inr (by decide +kernel))), (h2 _).2 (Or.inr (Or.inl (by decide +kernel))),
    (h2 _).2 (Or.inl (Or.inr (by decide +kernel))), (h2 _).2 (Or.inr (Or.inl (by decide +kernel))),
    (h2 _).2 (Or.inl (Or.inl (by decide +kernel))), fun hc => ?_⟩
  rcases (h2 _).1 hc with hc | hc
  · exact no _ (by decide +kernel) hc
  · exact no _ (by decide +kernel) hc

end Ply
