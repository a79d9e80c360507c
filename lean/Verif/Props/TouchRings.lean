import Verif.Proofs.RingForest
import Verif.Props.Rings

/-!
# Uniting pieces that touch along straight stretches (C96)
-/

namespace Ply

open Arr Geom2D

theorem Touching.sub {Ls Ms : List (List Pt)} (h : Touching Ls) (hs : ∀ L ∈ Ms, L ∈ Ls) : Touching Ms where
  clear := ⟨fun L hL => h.clear.simple L (hs L hL), fun L hL => h.clear.cw L (hs L hL),
    fun L hL M hM => h.clear.apart L (hs L hL) M (hs M hM)⟩
  seam := fun L hL M hM => h.seam L (hs L hL) M (hs M hM)
  forest := fun F h1 h2 h3 => h.forest F h1 h2 fun L hL => hs L (h3 L hL)

/-- The geom consists of polygons without holes whose outlines are among the rings. -/
def Pieces (Ls : List (List Pt)) (g : Geom2D) : Prop := ∀ s ∈ g, s.outer ∈ Ls ∧ s.holes = []

/-- The outlines of the geoms. -/
def outlines (gs : List Geom2D) : List (List Pt) := gs.flatMap fun g => g.map SPWH.outer

theorem pieces_segments {Ls : List (List Pt)} {g : Geom2D} (h : Pieces Ls g) (s : SPWH) (hs : s ∈ g) : s.segments = polyEdges s.outer := by
  unfold SPWH.segments
  rw [(h s hs).2, edgesIter_eq]
  simp

/-- The arrangement of the pieces. -/
theorem pieces_net (ch : Choices) (hch : ch.Valid) {Ls : List (List Pt)} (hT : Touching Ls) (gs : List Geom2D)
    (hg : ∀ g ∈ gs, Usable g) (hp : ∀ g ∈ gs, Pieces Ls g) {A : Arrangement} (hA : build ch (gs.flatMap allSegments) = .ok A)
    (hB : BuildOK A) (hF : Arr.Full A) : ClearNet A (outlines gs) where
  clear := (hT.sub (by
    intro L hL
    obtain ⟨g, hg', hL⟩ := List.mem_flatMap.1 hL
    obtain ⟨s, hs, rfl⟩ := List.mem_map.1 hL
    exact (hp g hg' s hs).1)).clear
  simple := (hT.sub (by
    intro L hL
    obtain ⟨g, hg', hL⟩ := List.mem_flatMap.1 hL
    obtain ⟨s, hs, rfl⟩ := List.mem_map.1 hL
    exact (hp g hg' s hs).1)).clear.simple
  built := hB
  full := hF
  on := fun x => by
    obtain ⟨-, hon⟩ := build_spec ch hch _ (segments_ne gs fun g h => (hg g h).made) A hA
    rw [hon, onAny_flat]
    constructor
    · rintro ⟨g, hg', s, hs, h | ⟨k, hk, -⟩⟩
      · exact ⟨s.outer, List.mem_flatMap.2 ⟨g, hg', List.mem_map_of_mem hs⟩, h⟩
      · rw [(hp g hg' s hs).2] at hk; cases hk
    · rintro ⟨L, hL, h⟩
      obtain ⟨g, hg', hL⟩ := List.mem_flatMap.1 hL
      obtain ⟨s, hs, rfl⟩ := List.mem_map.1 hL
      exact ⟨g, hg', s, hs, Or.inl h⟩
  within := by
    intro k hk L hL e he t t0 t1 hx
    obtain ⟨g, hg', hL⟩ := List.mem_flatMap.1 hL
    obtain ⟨s, hs, rfl⟩ := List.mem_map.1 hL
    refine build_within ch hch _ (segments_ne gs fun g h => (hg g h).made) A hA k hk e ?_ t t0 t1 hx
    refine List.mem_flatMap.2 ⟨g, hg', List.mem_flatMap.2 ⟨s, hs, ?_⟩⟩
    rw [pieces_segments (hp g hg') s hs]
    exact he

/-- C96: no combination of pieces that touch along straight stretches raises. -/
theorem c96_any (ch : Choices) (hch : ch.Valid) {Ls : List (List Pt)} (hT : Touching Ls) (gs : List Geom2D)
    (hg : ∀ g ∈ gs, Usable g) (hp : ∀ g ∈ gs, Pieces Ls g) (op : List Bool → Bool)
    (hop : op (gs.map fun _ => false) = false) :
    ∃ r, arrangementOp ch gs op = .ok r ∧ r.Fine ∧ ∀ p, (∀ g ∈ gs, ¬ OnEdge g p) →
        (locate r p = .ok 1 ↔ op (gs.map fun g => decide (locate g p = .ok 1)) = true) := by
  have hsub : ∀ L ∈ outlines gs, L ∈ Ls := by
    intro L hL
    obtain ⟨g, hg', hL⟩ := List.mem_flatMap.1 hL
    obtain ⟨s, hs, rfl⟩ := List.mem_map.1 hL
    exact (hp g hg' s hs).1
  obtain ⟨-, r, -, -, -, hr, -⟩ := arrangementOp_discs ch hch gs op hop hg (by
    intro A hA hB hF
    refine rings_discs (pieces_net ch hch hT gs hg hp hA hB hF) (hT.sub hsub).contacts (fun c => chosen gs op c.point) ?_
    intro c hc hs
    by_contra hcon
    push Not at hcon
    have : (gs.map fun g => decide (locate g c.point = .ok 1)) = gs.map fun _ => false := by
      refine List.map_congr_left fun g hg' => decide_eq_false fun h => ?_
      obtain ⟨v, v0, v1, -⟩ := c31_locate g (hg g hg').made c.point
      rw [h] at v0
      cases v0
      obtain ⟨s, hs, hin⟩ := v1.1 rfl
      exact hin.1.2 (hcon s.outer (List.mem_flatMap.2 ⟨g, hg', List.mem_map_of_mem hs⟩))
    unfold chosen at hs
    rw [this, hop] at hs
    cases hs)
  exact ⟨r, hr, arr_fine ch hch gs op r hop hg hr,
    (arrangementOp_sound ch hch gs op r hop (fun g h => (hg g h).made) hr).2.2⟩

/-- C96: `a | b` of pieces that touch along straight stretches returns the union. -/
theorem c96_or (ch : Choices) (hch : ch.Valid) {Ls : List (List Pt)} (hT : Touching Ls) (a b : Geom2D) (ha : a.Fine)
    (hb : b.Fine) (pa : Pieces Ls a) (pb : Pieces Ls b) :
    ∃ r, Geom2D.or (arrangementOp ch) a b = .ok r ∧ r.Fine ∧ ∀ p, r.Has p ↔ a.Has p ∨ b.Has p := by
  obtain ⟨r, h1⟩ : ∃ r, Geom2D.or (arrangementOp ch) a b = .ok r := by
    unfold Geom2D.or
    split_ifs
    · exact ⟨b, rfl⟩
    · exact ⟨a, rfl⟩
    · obtain ⟨r, h1, -⟩ := c96_any ch hch hT [a, b] (pair_usable ha.usable hb.usable) (by
          intro g hg
          rcases List.mem_cons.1 hg with rfl | hg
          · exact pa
          · rw [List.mem_singleton.1 hg]; exact pb) (fun v => match v with | [x, y] => x || y | _ => false) rfl
      exact ⟨r, h1⟩
  exact ⟨r, h1, or_fine ch hch ha hb h1, c78_or ch hch ha hb h1⟩

/-- C96: the same for the union of at most 64 geoms. -/
theorem c96_union (ch : Choices) (hch : ch.Valid) {Ls : List (List Pt)} (hT : Touching Ls) (gs : List Geom2D)
    (hg : ∀ g ∈ gs, Geom2D.Fine g) (hp : ∀ g ∈ gs, Pieces Ls g) (hn : gs.length ≤ 64) (fuel : ℕ) (hf : gs.length + 4 ≤ fuel) :
    ∃ r, Geom2D.union (arrangementOp ch) fuel gs = .ok r ∧ r.Fine ∧ ∀ p, r.Has p ↔ ∃ g ∈ gs, Geom2D.Has g p := by
  obtain ⟨r, h1, h2, -⟩ := c96_any ch hch hT gs (fun g h => (hg g h).usable) hp (fun args => args.any id) (by simp)
  have : Geom2D.union (arrangementOp ch) fuel gs = .ok r := by
    obtain ⟨k, rfl⟩ : ∃ k, fuel = k + 1 := ⟨fuel - 1, by omega⟩
    rw [Geom2D.union, if_neg (by unfold unionN; omega)]
    exact h1
  exact ⟨r, this, h2, c78_union ch hch gs hg fuel hf this⟩

/-- A plate and its fingers touch along straight stretches. -/
theorem Star.touching {P : List Pt} {Fs : List (List Pt)} (h : Star P Fs) : Touching (P :: Fs) where
  clear := h.clear
  seam := by
    intro L hL M hM hne
    rcases List.mem_cons.1 hL with hP | hL <;> rcases List.mem_cons.1 hM with hQ | hM
    · exact absurd (hP.trans hQ.symm) hne
    · rw [hP]; exact Or.inr (h.seam M hM)
    · rw [hQ]
      obtain ⟨x, y, h1, h2⟩ := h.seam L hL
      exact Or.inr ⟨x, y, h1, fun p => and_comm.trans (h2 p)⟩
    · exact Or.inl fun p q hp _ => absurd ⟨p, hp⟩ (h.apart L hL M hM hne)
  forest := by
    intro F hF hnd hsub
    by_cases hex : ∃ L ∈ F, L ≠ P
    · obtain ⟨L, hL, hne⟩ := hex
      have hL' := (List.mem_cons.1 (hsub L hL)).resolve_left hne
      have key : ∀ M ∈ F, M ≠ L → Meet L M → M = P := by
        intro M hM hML hm
        by_contra hc
        exact h.apart L hL' M ((List.mem_cons.1 (hsub M hM)).resolve_left hc) hML.symm hm
      exact ⟨L, hL, fun M hM N hN n1 n2 m1 m2 => (key M hM n1 m1).trans (key N hN n2 m2).symm⟩
    · push Not at hex
      obtain ⟨L, hL⟩ := List.exists_mem_of_ne_nil F hF
      exact ⟨L, hL, fun M hM N hN _ _ _ _ => (hex M hM).trans (hex N hN).symm⟩

/-! ### Example -/

/-- Two fingers below a plate. -/
def twoFingers : Geom2D := [⟨[(2, 0), (2, 3), (4, 3), (4, 0)], []⟩, ⟨[(6, 0), (6, 3), (8, 3), (8, 0)], []⟩]

theorem twoFingers_star : Star (boxLoop 0 3 10 8) [boxLoop 2 0 4 3, boxLoop 6 0 8 3] := by
  refine ⟨⟨fun L hL => ?_, fun L hL => ?_, fun L hL M hM p hp hq => ?_⟩, ?_, fun F hF G hG hne hm => ?_, fun F hF => ?_⟩
  · simp only [List.mem_cons, List.not_mem_nil, or_false] at hL
    rcases hL with rfl | rfl | rfl <;> exact boxLoop_simple (by norm_num) (by norm_num)
  · simp only [List.mem_cons, List.not_mem_nil, or_false] at hL
    rcases hL with rfl | rfl | rfl <;> (rw [boxLoop_shoelace]; norm_num)
  · simp only [List.mem_cons, List.not_mem_nil, or_false] at hL hM
    rcases hL with rfl | rfl | rfl <;> rcases hM with rfl | rfl | rfl <;> first | rfl | exfalso
    all_goals
      rw [boxLoop_in _ _ _ _ (by norm_num) (by norm_num)] at hp hq
      norm_num at hp hq
      obtain ⟨a1, a2, a3, a4⟩ := hp
      obtain ⟨b1, b2, b3, b4⟩ := hq
      linarith
  · unfold boxLoop; simp
  · simp only [List.mem_cons, List.not_mem_nil, or_false] at hF hG
    obtain ⟨p, hp, hq⟩ := hm
    rcases hF with rfl | rfl <;> rcases hG with rfl | rfl <;> first | exact hne rfl | skip
    all_goals
      rw [boxLoop_boundary _ _ _ _ (by norm_num)] at hp hq
      norm_num at hp hq
      obtain ⟨⟨a1, a2, a3, a4⟩, -⟩ := hp
      obtain ⟨⟨b1, b2, b3, b4⟩, -⟩ := hq
      linarith
  · have key : ∀ a b : ℚ, 0 ≤ a → a < b → b ≤ 10 → ∀ p, OnBoundary (boxLoop 0 3 10 8) p ∧ OnBoundary (boxLoop a 0 b 3) p ↔
        OnSeg ((a, 3), (b, 3)) p := by
      intro a b a0 ab b1 p
      rw [boxLoop_boundary _ _ _ _ (by norm_num), boxLoop_boundary _ _ _ _ (by norm_num),
        onSeg_iff_of_horizontal (a := (a, 3)) (b := (b, 3)) rfl, min_eq_left ab.le, max_eq_right ab.le]
      norm_num
      constructor
      · rintro ⟨⟨⟨h1, h2, h3, h4⟩, -⟩, ⟨h5, h6, h7, h8⟩, -⟩
        exact ⟨by linarith, h5, h6⟩
      · rintro ⟨h1, h2, h3⟩
        refine ⟨⟨⟨by linarith, by linarith, by linarith, by linarith⟩, fun _ _ h => absurd h (by linarith)⟩,
          ⟨by linarith, by linarith, by linarith, by linarith⟩, fun _ _ _ => by linarith⟩
    simp only [List.mem_cons, List.not_mem_nil, or_false] at hF
    rcases hF with rfl | rfl
    · exact ⟨(2, 3), (4, 3), by simp, key 2 4 (by norm_num) (by norm_num) (by norm_num)⟩
    · exact ⟨(6, 3), (8, 3), by simp, key 6 8 (by norm_num) (by norm_num) (by norm_num)⟩

theorem plateBack_fine : plateBack.Fine :=
  fine_of plateBack (made_of _ (by decide +kernel)) (by decide +kernel) (by decide +kernel)

theorem twoFingers_fine : twoFingers.Fine :=
  fine_of twoFingers (made_of _ (by decide +kernel)) (by decide +kernel) (by decide +kernel)

/-- C96: two fingers below a plate, in any order of the sets. -/
theorem c96_run (ch : Choices) (hch : ch.Valid) : ∃ r, Geom2D.or (arrangementOp ch) plateBack twoFingers = .ok r ∧ r.Has (3, 3) ∧
    r.Has (3, 1) ∧ r.Has (5, 5) ∧ ¬ r.Has (5, 1) := by
  obtain ⟨r, h1, -, h2⟩ := c96_or ch hch twoFingers_star.touching plateBack twoFingers plateBack_fine twoFingers_fine
    (by intro s hs
        simp only [plateBack, List.mem_cons, List.not_mem_nil, or_false] at hs
        subst hs; exact ⟨by unfold boxLoop; simp, rfl⟩)
    (by intro s hs
        simp only [twoFingers, List.mem_cons, List.not_mem_nil, or_false] at hs
        rcases hs with rfl | rfl <;> exact ⟨by unfold boxLoop; simp, rfl⟩)
  have no : ∀ g : Geom2D, Geom2D.locate g (5, 1) = .ok (-1) → ¬ g.Has (5, 1) := by
    intro g hg hc
    unfold Geom2D.Has at hc
    rw [hg] at hc
    rcases hc with hc | hc <;> cases hc
  refine ⟨r, h1, (h2 _).2 (Or.inl (Or.inr (by decide +kernel))), (h2 _).2 (Or.inr (Or.inl (by decide +kernel))),
    (h2 _).2 (Or.inl (Or.inl (by decide +kernel))), fun hc => ?_⟩
  rcases (h2 _).1 hc with hc | hc
  · exact no _ (by decide +kernel) hc
  · exact no _ (by decide +kernel) hc

end Ply
