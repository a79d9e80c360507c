import Verif.Props.TouchPlates
import Verif.Proofs.StarPair

/-!
# Operations on two polygons that are both seen from one point never raise (C103)
-/

namespace Ply

open Arr Geom2D

/-- The geom of a ring. -/
def ringGeom (L : List Pt) : Geom2D := [⟨L, []⟩]

theorem StarRing.polygon {o : Pt} {L : List Pt} (h : StarRing o L) (re : Bool) : Geom2D.polygon L re = .ok (ringGeom L) := by
  have hn : NoRepeat L := fun _ he => h.simple.pos he
  cases re
  · exact (polygon_false L _).2 ⟨rfl, hn, h.cw⟩
  · exact (polygon_true_iff L _).2 ⟨hn, h.cw.ne, by rw [if_neg (not_lt.2 h.cw.le)]; rfl⟩

theorem StarRing.fine {o : Pt} {L : List Pt} (h : StarRing o L) : (ringGeom L).Fine := by
  have one : ∀ {s : SPWH}, s ∈ ringGeom L → s = ⟨L, []⟩ := fun hs => List.mem_singleton.1 hs
  refine Geom2D.Ringed.fine ⟨fun s hs => ?_, fun s hs k hk => ?_, fun s hs => ?_, fun s hs => ?_, List.pairwise_singleton _ _⟩ ?_
  · rw [one hs]; exact ⟨h.simple, h.cw⟩
  · rw [one hs] at hk; cases hk
  · rw [one hs]; intro k hk; cases hk
  · rw [one hs]; exact List.Pairwise.nil
  · unfold Geom2D.Noded ringGeom
    rw [List.flatMap_singleton]
    exact List.pairwise_singleton _ _

/-- The arrangement of two rings. -/
theorem two_net (ch : Choices) (hch : ch.Valid) {o : Pt} {P Q : List Pt} (hP : StarRing o P) (hQ : StarRing o Q) {A : Arrangement}
    (hA : build ch ([ringGeom P, ringGeom Q].flatMap allSegments) = .ok A) (hB : BuildOK A) (hF : Arr.Full A) : LoopNet A [P, Q] := by
  have hseg : [ringGeom P, ringGeom Q].flatMap allSegments = polyEdges P ++ polyEdges Q := by
    simp [ringGeom, allSegments, SPWH.segments, edgesIter_eq]
  have hne := segments_ne [ringGeom P, ringGeom Q] (by
    intro g hg
    simp only [List.mem_cons, List.not_mem_nil, or_false] at hg
    rcases hg with rfl | rfl
    · exact hP.fine.proper.made
    · exact hQ.fine.proper.made)
  obtain ⟨-, hon⟩ := build_spec ch hch _ hne A hA
  have hw := build_within ch hch _ hne A hA
  rw [hseg] at hw hon
  refine ⟨?_, hB, hF, fun x => ?_, ?_⟩
  · intro L hL
    simp only [List.mem_cons, List.not_mem_nil, or_false] at hL
    rcases hL with rfl | rfl
    · exact hP.simple
    · exact hQ.simple
  · rw [hon]
    simp only [List.mem_cons, List.not_mem_nil, or_false, exists_eq_or_imp, exists_eq_left]
    constructor
    · rintro ⟨e, he, hx⟩
      rcases List.mem_append.1 he with he | he
      · exact Or.inl ⟨e, he, hx⟩
      · exact Or.inr ⟨e, he, hx⟩
    · rintro (⟨e, he, hx⟩ | ⟨e, he, hx⟩)
      · exact ⟨e, List.mem_append_left _ he, hx⟩
      · exact ⟨e, List.mem_append_right _ he, hx⟩
  · intro k hk L hL e he t t0 t1 hx
    refine hw k hk e ?_ t t0 t1 hx
    simp only [List.mem_cons, List.not_mem_nil, or_false] at hL
    rcases hL with rfl | rfl
    · exact List.mem_append_left _ he
    · exact List.mem_append_right _ he

/-- C103: no combination of two polygons that are both seen from one point raises. -/
theorem c103_any (ch : Choices) (hch : ch.Valid) {o : Pt} {P Q : List Pt} (hP : StarRing o P) (hQ : StarRing o Q)
    (op : List Bool → Bool) (hop : op [false, false] = false) :
    ∃ r, arrangementOp ch [ringGeom P, ringGeom Q] op = .ok r ∧ r.Fine ∧ ∀ p, ¬ OnBoundary P p → ¬ OnBoundary Q p →
        (locate r p = .ok 1 ↔ op [decide (windingNumber P p ≠ 0), decide (windingNumber Q p ≠ 0)] = true) := by
  have hf : ∀ g ∈ [ringGeom P, ringGeom Q], Fine g := by
    intro g hg
    simp only [List.mem_cons, List.not_mem_nil, or_false] at hg
    rcases hg with rfl | rfl
    · exact hP.fine
    · exact hQ.fine
  have hu : ∀ g ∈ [ringGeom P, ringGeom Q], Usable g := fun g hg => (hf g hg).usable
  have inn : ∀ {L : List Pt}, L ≠ [] → ∀ p, locate (ringGeom L) p = .ok 1 ↔ InPoly L p := by
    intro L hL p
    obtain ⟨v, h1, h2, -⟩ := locate_single L hL p
    unfold ringGeom
    rw [h1, ← h2]
    exact ⟨fun h => by cases h; rfl, fun h => by rw [h]⟩
  obtain ⟨r, hr⟩ : ∃ r, arrangementOp ch [ringGeom P, ringGeom Q] op = .ok r := by
    by_cases hm : Meet P Q
    · obtain ⟨-, r, -, -, -, hr, -⟩ := arrangementOp_groups ch hch [ringGeom P, ringGeom Q] op hop hu (by
        intro A hA hB hF
        refine stars_fusing (o := o) (two_net ch hch hP hQ hA hB hF) ?_ hm (fun c => chosen [ringGeom P, ringGeom Q] op c.point) ?_
        · intro L hL
          simp only [List.mem_cons, List.not_mem_nil, or_false] at hL
          rcases hL with rfl | rfl
          · exact hP
          · exact hQ
        · intro c hc hs
          by_contra hcon
          push Not at hcon
          have out : ∀ L ∈ [P, Q], L ≠ [] → decide (locate (ringGeom L) c.point = .ok 1) = false := fun L hL hne =>
            decide_eq_false fun h => ((inn hne _).1 h).2 (hcon L hL)
          unfold chosen at hs
          rw [List.map_cons, List.map_cons, List.map_nil, out P (by simp) hP.ne, out Q (by simp) hQ.ne, hop] at hs
          cases hs)
      exact ⟨r, hr⟩
    · have hsep : Separate [P, Q] := ⟨by
          intro L hL
          simp only [List.mem_cons, List.not_mem_nil, or_false] at hL
          rcases hL with rfl | rfl
          · exact hP.simple
          · exact hQ.simple, by
          intro L hL M hM x hx hy
          simp only [List.mem_cons, List.not_mem_nil, or_false] at hL hM
          rcases hL with rfl | rfl <;> rcases hM with rfl | rfl
          · rfl
          · exact absurd ⟨x, hx, hy⟩ hm
          · exact absurd ⟨x, hy, hx⟩ hm
          · rfl⟩
      obtain ⟨r, hr, -⟩ := c86_any ch hch hsep [ringGeom P, ringGeom Q] hf (by
        have seg : ∀ L ∈ [P, Q], OnRings [P, Q] (ringGeom L) := by
          intro L hL s hs
          have : s ∈ polyEdges L := by simpa [ringGeom, allSegments, SPWH.segments, edgesIter_eq] using hs
          exact ⟨L, hL, s, this, onSeg_left s, onSeg_right s⟩
        intro g hg
        simp only [List.mem_cons, List.not_mem_nil, or_false] at hg
        rcases hg with rfl | rfl
        · exact seg P (by simp)
        · exact seg Q (by simp)) op hop
      exact ⟨r, hr⟩
  refine ⟨r, hr, arr_fine ch hch [ringGeom P, ringGeom Q] op r hop hu hr, fun p h1 h2 => ?_⟩
  have := (arrangementOp_sound ch hch [ringGeom P, ringGeom Q] op r hop (fun g h => (hu g h).made) hr).2.2 p (by
    have key : ∀ L, OnEdge (ringGeom L) p → OnBoundary L p := by
      rintro L ⟨s, hs, h | ⟨k, hk, -⟩⟩
      · rw [List.mem_singleton.1 hs] at h; exact h
      · rw [List.mem_singleton.1 hs] at hk; cases hk
    intro g hg
    simp only [List.mem_cons, List.not_mem_nil, or_false] at hg
    rcases hg with rfl | rfl
    · exact fun h => h1 (key P h)
    · exact fun h => h2 (key Q h))
  have e : ∀ {L : List Pt}, L ≠ [] → ¬ OnBoundary L p →
      decide (locate (ringGeom L) p = .ok 1) = decide (windingNumber L p ≠ 0) := fun hL ho => by
    rw [decide_eq_decide, inn hL]
    exact ⟨fun h => h.2, fun h => ⟨ho, h⟩⟩
  rw [this, List.map_cons, List.map_cons, List.map_nil, e hP.ne h1, e hQ.ne h2]

/-- C103: `|`, `&` and `-` of two polygons that are both seen from one point return exactly the union, the intersection and
the difference. -/
theorem c103_ops (ch : Choices) (hch : ch.Valid) {o : Pt} {P Q : List Pt} (hP : StarRing o P) (hQ : StarRing o Q) (re : Bool) :
    ∃ a b u i d, Geom2D.polygon P re = .ok a ∧ Geom2D.polygon Q re = .ok b ∧
      Geom2D.or (arrangementOp ch) a b = .ok u ∧ Geom2D.and (arrangementOp ch) a b = .ok i ∧
      Geom2D.sub (arrangementOp ch) a b = .ok d ∧ u.Fine ∧ i.Fine ∧ d.Fine ∧
      (∀ p, u.Has p ↔ ¬ OutPoly P p ∨ ¬ OutPoly Q p) ∧
      (∀ p, locate i p = .ok 1 ↔ InPoly P p ∧ InPoly Q p) ∧
      (∀ p, locate d p = .ok 1 ↔ InPoly P p ∧ OutPoly Q p) := by
  have loc : ∀ {L : List Pt}, L ≠ [] → ∀ p, (locate (ringGeom L) p = .ok 1 ↔ InPoly L p) ∧
      (locate (ringGeom L) p = .ok (-1) ↔ OutPoly L p) ∧ ((ringGeom L).Has p ↔ ¬ OutPoly L p) := by
    intro L hL p
    obtain ⟨v, h1, h2, h3, h4⟩ := locate_single L hL p
    have e : ∀ k : ℤ, locate (ringGeom L) p = .ok k ↔ v = k := fun k => by
      unfold ringGeom
      rw [h1]
      exact ⟨fun h => by cases h; rfl, fun h => by rw [h]⟩
    refine ⟨(e 1).trans h2, (e (-1)).trans h4, ?_⟩
    unfold Geom2D.Has
    rw [e, e, ← h4]
    have : v = 1 ∨ v = 0 ∨ v = -1 := by
      by_cases hb : OnBoundary L p
      · exact Or.inr (Or.inl (h3.2 hb))
      · by_cases hw : windingNumber L p = 0
        · exact Or.inr (Or.inr (h4.2 ⟨hb, hw⟩))
        · exact Or.inl (h2.2 ⟨hb, hw⟩)
    omega
  have ha := hP.fine
  have hb := hQ.fine
  have pos : ∀ L : List Pt, ringGeom L ≠ [] := fun L h => by cases h
  obtain ⟨u, hu, -⟩ := c103_any ch hch hP hQ (fun v => match v with | [x, y] => x || y | _ => false) rfl
  obtain ⟨i, hi, -⟩ := c103_any ch hch hP hQ (fun v => match v with | [x, y] => x && y | _ => false) rfl
  obtain ⟨d, hd, -⟩ := c103_any ch hch hP hQ (fun v => match v with | [x, y] => if x && !y then true else false | _ => false) rfl
  have hu : Geom2D.or (arrangementOp ch) (ringGeom P) (ringGeom Q) = .ok u := hu
  have hi : Geom2D.and (arrangementOp ch) (ringGeom P) (ringGeom Q) = .ok i := hi
  have hd : Geom2D.sub (arrangementOp ch) (ringGeom P) (ringGeom Q) = .ok d := hd
  refine ⟨_, _, u, i, d, hP.polygon re, hQ.polygon re, hu, hi, hd, or_fine ch hch ha hb hu, and_fine ch hch ha.usable hb.usable hi,
    sub_fine ch hch ha hb.usable hd, fun p => ?_, fun p => ?_, fun p => ?_⟩
  · rw [c78_or ch hch ha hb hu, (loc hP.ne p).2.2, (loc hQ.ne p).2.2]
  · rw [c78_and ch hch ha hb hi, (loc hP.ne p).1, (loc hQ.ne p).1]
  · rw [c78_sub ch hch ha hb hd, (loc hP.ne p).1, (loc hQ.ne p).2.1]

/-! ### Example -/

theorem boxLoop_star {x0 y0 x1 y1 : ℚ} {o : Pt} (h1 : x0 < o.1) (h2 : o.1 < x1) (h3 : y0 < o.2) (h4 : o.2 < y1) :
    StarRing o (boxLoop x0 y0 x1 y1) where
  simple := boxLoop_simple (h1.trans h2) (h3.trans h4)
  right := by
    intro e he
    simp only [boxLoop, polyEdges, List.mem_cons, List.not_mem_nil, or_false, List.zip_cons_cons, List.zip_nil_right,
      List.cons_append, List.nil_append] at he
    rcases he with rfl | rfl | rfl | rfl <;> simp only [orient] <;> nlinarith

/-- Two bars that cross. -/
theorem bars_star : StarRing (4, 4) (boxLoop 0 3 10 6) ∧ StarRing (4, 4) (boxLoop 3 0 6 10) :=
  ⟨boxLoop_star (by norm_num) (by norm_num) (by norm_num) (by norm_num), boxLoop_star (by norm_num) (by norm_num) (by norm_num) (by norm_num)⟩

/-- C103: two bars that cross, in any order of the sets: the union is the cross, the difference is two separate ends. -/
theorem c103_run (ch : Choices) (hch : ch.Valid) :
    ∃ u d, Geom2D.or (arrangementOp ch) (ringGeom (boxLoop 0 3 10 6)) (ringGeom (boxLoop 3 0 6 10)) = .ok u ∧
      Geom2D.sub (arrangementOp ch) (ringGeom (boxLoop 0 3 10 6)) (ringGeom (boxLoop 3 0 6 10)) = .ok d ∧
      u.Has (1, 4) ∧ u.Has (4, 1) ∧ u.Has (3, 3) ∧ ¬ u.Has (1, 1) ∧
      locate d (1, 4) = .ok 1 ∧ locate d (9, 4) = .ok 1 ∧ locate d (4, 4) ≠ .ok 1 := by
  obtain ⟨a, b, u, i, d, ha, hb, hu, -, hd, -, -, -, h1, -, h2⟩ := c103_ops ch hch bars_star.1 bars_star.2 true
  rw [bars_star.1.polygon] at ha
  rw [bars_star.2.polygon] at hb
  cases ha; cases hb
  have key : ∀ x0 y0 x1 y1 : ℚ, x0 < x1 → y0 < y1 → ∀ p, (InPoly (boxLoop x0 y0 x1 y1) p ↔ x0 < p.1 ∧ p.1 < x1 ∧ y0 < p.2 ∧ p.2 < y1) ∧
      (OutPoly (boxLoop x0 y0 x1 y1) p ↔ ¬ (x0 ≤ p.1 ∧ p.1 ≤ x1 ∧ y0 ≤ p.2 ∧ p.2 ≤ y1)) := by
    intro x0 y0 x1 y1 hx hy p
    have e1 := boxLoop_in x0 y0 x1 y1 hx.ne hy.ne p
    have e2 := boxLoop_boundary x0 y0 x1 y1 hy.ne p
    rw [min_eq_left hx.le, max_eq_right hx.le, min_eq_left hy.le, max_eq_right hy.le] at e1 e2
    refine ⟨e1, ?_⟩
    have : OutPoly (boxLoop x0 y0 x1 y1) p ↔ ¬ OnBoundary (boxLoop x0 y0 x1 y1) p ∧ ¬ InPoly (boxLoop x0 y0 x1 y1) p := by
      unfold OutPoly InPoly
      tauto
    rw [this, e1, e2]
    constructor
    · rintro ⟨h1, h2⟩ h3
      exact h1 ⟨h3, h2⟩
    · intro h
      exact ⟨fun h' => h h'.1, fun h' => h ⟨h'.1.le, h'.2.1.le, h'.2.2.1.le, h'.2.2.2.le⟩⟩
  have k1 := key 0 3 10 6 (by norm_num) (by norm_num)
  have k2 := key 3 0 6 10 (by norm_num) (by norm_num)
  refine ⟨u, d, hu, hd, ?_, ?_, ?_, ?_, ?_, ?_, ?_⟩
  · rw [h1, (k1 _).2]; norm_num
  · rw [h1, (k2 _).2]; norm_num
  · rw [h1, (k1 _).2]; norm_num
  · rw [h1, (k1 _).2, (k2 _).2]; norm_num
  · rw [h2, (k1 _).1, (k2 _).2]; norm_num
  · rw [h2, (k1 _).1, (k2 _).2]; norm_num
  · rw [Ne, h2, (k1 _).1, (k2 _).2]; norm_num

end Ply
