import Verif.Proofs.RingNet

/-!
# The arrangement of plates with holes

A plate is given by its loops, the outer one clockwise and the holes the other way round, so that the winding numbers of the
loops add up to -1 inside and to 0 outside.
-/

namespace Ply.Arr

open CellMerger Filter Topology
open Relation (ReflTransGen)

/-- How often the loops together wind around the point. -/
def windings (G : List (List Pt)) (p : Pt) : ℤ := (G.map fun L => windingNumber L p).sum

/-- The point is on none of the loops. -/
def OffLoops (G : List (List Pt)) (p : Pt) : Prop := ∀ L ∈ G, ¬ OnBoundary L p

/-- Plates given by their loops. -/
structure Plates (Gs : List (List (List Pt))) : Prop where
  simple : ∀ G ∈ Gs, ∀ L ∈ G, SimpleRing L
  nodup : ∀ G ∈ Gs, G.Nodup
  free : ∀ G ∈ Gs, ∀ L ∈ G, ∀ M ∈ G, L ≠ M → ¬ Meet L M
  value : ∀ G ∈ Gs, ∀ p, OffLoops G p → windings G p = 0 ∨ windings G p = -1
  apart : ∀ G ∈ Gs, ∀ H ∈ Gs, ∀ p, OffLoops G p → OffLoops H p → windings G p ≠ 0 → windings H p ≠ 0 → G = H

section
variable {A : Arrangement} {Ls : List (List Pt)} (hR : LoopNet A Ls) {L M : List Pt} (hL : L ∈ Ls)
include hR hL

/-- What is on the two sides of a half-edge along a loop. -/
theorem loop_sides' {a b : ℤ} (hsd : Sides L a b) {u v : Pt} (h : Al A L u v) :
    (∀ p, Sees A.net.halfEdges (u, v) p → windingNumber L p = b) ∧ ∀ p, Sees A.net.halfEdges (v, u) p → windingNumber L p = a := by
  have hP := hR.built.planar
  have hW := ring_within hR hL
  obtain ⟨m1, e, he, a, b, a0, ab, b1, rfl, rfl⟩ := h
  set h : Seg := (along e a, along e b) with hh
  have hd : dir h = (b - a) • dir e := by
    rw [hh]
    unfold dir along
    ext <;> simp only [Prod.smul_fst, Prod.smul_snd, smul_eq_mul] <;> ring
  have hmid : along h (1 / 2) = along e ((a + b) / 2) := by rw [hh, along_along]; congr 1; ring
  obtain ⟨u, hu⟩ := right_exists (hP.ne h m1)
  have hcr : cross ((b - a) • dir e) u = (b - a) * cross (dir e) u := by
    unfold cross; simp only [Prod.smul_fst, Prod.smul_snd, smul_eq_mul]; ring
  have hu' : cross (dir e) u < 0 := by
    rw [hd, hcr] at hu
    by_contra hn
    have := mul_nonneg (sub_pos.2 ab).le (not_lt.1 hn)
    linarith
  constructor
  · intro p hp
    have r1 := sees_small hP m1 (s := 1 / 2) (by norm_num) (by norm_num) hu
    have r2 := hsd.right e he ((a + b) / 2) (by linarith) (by linarith) u hu'
    rw [hmid] at r1
    obtain ⟨ε, q1, q2⟩ := (r1.and r2).exists
    rw [sees_same hP m1 hp q1 L hW, q2]
  · intro p hp
    have r1 := sees_small hP (hP.rev h m1) (s := 1 - 1 / 2) (by norm_num) (by norm_num) (u := -u) (by
      have : cross (dir (h.2, h.1)) (-u) = cross (dir h) u := by
        unfold cross dir; simp only [Prod.fst_neg, Prod.snd_neg]; ring
      rw [this]; exact hu)
    rw [along_rev, sub_sub_cancel, hmid] at r1
    have r2 := hsd.left e he ((a + b) / 2) (by linarith) (by linarith) (-u) (by
      have : cross (dir e) (-u) = -cross (dir e) u := by
        unfold cross; simp only [Prod.fst_neg, Prod.snd_neg]; ring
      rw [this]; linarith)
    obtain ⟨ε, q1, q2⟩ := (r1.and r2).exists
    rw [sees_same hP (hP.rev h m1) hp q1 L hW, q2]

/-- Across a half-edge that is off the loop the winding number stays the same. -/
theorem same_across {h : Seg} (hh : h ∈ A.net.halfEdges) (hm : ¬ OnBoundary L (along h (1 / 2))) {p q : Pt}
    (hp : Sees A.net.halfEdges h p) (hq : Sees A.net.halfEdges (h.2, h.1) q) : windingNumber L p = windingNumber L q := by
  have hP := hR.built.planar
  obtain ⟨u, hu⟩ := right_exists (hP.ne h hh)
  have near : ∀ w : Pt, ∀ᶠ ε in 𝓝[>] (0 : ℚ), windingNumber L (along h (1 / 2) + ε • w) = windingNumber L (along h (1 / 2)) := by
    intro w
    have := small_list (polyEdges L) (fun e ε => ∀ x, OnSeg (along h (1 / 2) + ε • (0 : Pt), along h (1 / 2) + ε • w) x → ¬ OnSeg e x)
      (fun e he => push (along h (1 / 2), along h (1 / 2)) e 0 w (by
        rintro x ⟨⟨t, -, -, e1⟩, h2⟩
        have : x = along h (1 / 2) := by rw [e1]; unfold along; ext <;> dsimp only <;> ring
        exact hm ⟨e, he, this ▸ h2⟩))
    filter_upwards [this] with ε hε
    refine (winding_const L _ _ fun x hx hb => ?_).symm
    obtain ⟨e, he, hb⟩ := hb
    refine hε e he x ?_ hb
    simpa using hx
  have r1 := sees_small hP hh (s := 1 / 2) (by norm_num) (by norm_num) hu
  have r2 := sees_small hP (hP.rev h hh) (s := 1 - 1 / 2) (by norm_num) (by norm_num) (u := -u) (by
    have : cross (dir (h.2, h.1)) (-u) = cross (dir h) u := by
      unfold cross dir; simp only [Prod.fst_neg, Prod.snd_neg]; ring
    rw [this]; exact hu)
  rw [along_rev, sub_sub_cancel] at r2
  obtain ⟨ε, ⟨q1, q2⟩, q3, q4⟩ := ((r1.and r2).and ((near u).and (near (-u)))).exists
  rw [sees_same hP hh hp q1 L (ring_within hR hL), sees_same hP (hP.rev h hh) hq q2 L (ring_within hR hL), q3, q4]

/-- A cell whose edges are the half-edges along a loop winds as often around a point as the loop. -/
theorem loop_winding {c : Cell1} (hc : c ∈ A.cells) (hi : ∀ u v, (u, v) ∈ polyEdges c.vertices ↔ Al A L u v) {p : Pt}
    (hp : ¬ OnAny A.net.halfEdges p) : windingNumber c.vertices p = windingNumber L p := by
  have hP := hR.built.planar
  have hW := ring_within hR hL
  have hedge : ∀ e ∈ polyEdges c.vertices, e ∈ A.net.halfEdges := fun e he => ((hi e.1 e.2).1 he).mem
  have hnd : (polyEdges c.vertices).Nodup := (cell_ok' hR hc).nodup
  obtain ⟨M, -, hM⟩ := far_bound [] [c.vertices, L]
  have key := far_const hP (fun p => windingNumber c.vertices p - windingNumber L p) ?_ ?_ (b := 0) M ?_ hp
  · exact sub_eq_zero.1 key
  · intro p q h
    have hsf := same_of_segment h
    rw [hsf L hW, hsf c.vertices fun e he x hx => ⟨e, hedge e he, hx⟩]
  · intro h hh l r hlr
    have hj : windingNumber c.vertices l - windingNumber c.vertices r =
        ((polyEdges c.vertices).count h : ℤ) - (polyEdges c.vertices).count (h.2, h.1) := by
      have hlr' := hlr
      obtain ⟨⟨t, s, t0, t1, s0, s1, e⟩, a, b, o⟩ := hlr'
      exact winding_jump c.vertices l r h t0 t1 e a b fun k hk => o k (hedge k hk)
    have hs : windingNumber L l - windingNumber L r =
        ((polyEdges c.vertices).count h : ℤ) - (polyEdges c.vertices).count (h.2, h.1) := by
      rw [hnd.count, hnd.count]
      by_cases h1 : h ∈ polyEdges c.vertices
      · have a1 := (hi h.1 h.2).1 h1
        have h2 : (h.2, h.1) ∉ polyEdges c.vertices := fun h2 => al_not_both hR hL a1 ((hi _ _).1 h2)
        rw [if_pos h1, if_neg h2]
        rcases (hR.simple L hL).sides with hs | hs <;>
        · have := loop_sides' hR hL hs a1
          rw [this.1 r hlr.sees, this.2 l hlr.rev.sees]; norm_num
      · by_cases h2 : (h.2, h.1) ∈ polyEdges c.vertices
        · have a1 := (hi h.2 h.1).1 h2
          rw [if_neg h1, if_pos h2]
          rcases (hR.simple L hL).sides with hs | hs <;>
          · have := loop_sides' hR hL hs a1
            rw [this.2 r hlr.sees, this.1 l hlr.rev.sees]; norm_num
        · rw [if_neg h1, if_neg h2, same_across hR hL hh (fun hb => ?_) hlr.sees hlr.rev.sees]
          · norm_num
          · rcases al_of_inner hR hL hh (by norm_num) (by norm_num) hb with h' | h'
            · exact h1 ((hi _ _).2 h')
            · exact h2 ((hi _ _).2 h')
    show windingNumber c.vertices l - windingNumber L l = windingNumber c.vertices r - windingNumber L r
    linarith
  · intro q hq
    rw [winding_far L q fun v hv => (hM L (by simp) v hv).trans hq, winding_far _ q fun v hv => (hM c.vertices (by simp) v hv).trans hq]
    rfl

/-- Such a cell turns the same way as the loop. -/
theorem loop_turn {c : Cell1} (hc : c ∈ A.cells) (hi : ∀ u v, (u, v) ∈ polyEdges c.vertices ↔ Al A L u v) :
    (shoelace c.vertices < 0 ↔ shoelace L < 0) ∧ shoelace c.vertices ≠ 0 ∧ shoelace L ≠ 0 := by
  have hP := hR.built.planar
  have hS := hR.simple L hL
  have hck := cell_ok' hR hc
  obtain ⟨e, he⟩ := hck.edge
  have a1 := (hi e.1 e.2).1 he
  obtain ⟨p, hp⟩ := sees_some hP a1.mem
  have hw := loop_winding hR hL hc hi hp.off
  have hside : sideOf A.net.halfEdges c.vertices e = windingNumber c.vertices p := sideOf_eq hP hck.sub (hck.sub e he) hp
  rcases hck.side hR.full.wheel he with ⟨c1, -, c2⟩ | ⟨c1, -, c2⟩ <;> rcases hS.sides with hs | hs
  · have := Sides.shoelace_neg hs hS.ne_nil
    exact ⟨⟨fun _ => this, fun _ => c1⟩, c1.ne, this.ne⟩
  · have := (loop_sides' hR hL hs a1).1 p hp
    omega
  · have := (loop_sides' hR hL hs a1).1 p hp
    omega
  · have := Sides.shoelace_pos hs hS.ne_nil
    exact ⟨⟨fun h => absurd h (not_lt.2 c1.le), fun h => absurd h (not_lt.2 this.le)⟩, c1.ne', this.ne'⟩

end

theorem sum_diff {α : Type*} [DecidableEq α] {l : List α} (hl : l.Nodup) {x : α} (hx : x ∈ l) (f g : α → ℤ) (h : ∀ y ∈ l, y ≠ x → f y = g y) :
    (l.map f).sum = (l.map g).sum + (f x - g x) := by
  induction l with
  | nil => cases hx
  | cons a l ih =>
    obtain ⟨h1, h2⟩ := List.nodup_cons.1 hl
    rw [List.map_cons, List.map_cons, List.sum_cons, List.sum_cons]
    by_cases ha : a = x
    · subst ha
      have : l.map f = l.map g := List.map_congr_left fun y hy => h y (List.mem_cons_of_mem _ hy) fun e => h1 (e ▸ hy)
      rw [this]; ring
    · rw [ih h2 ((List.mem_cons.1 hx).resolve_left (Ne.symm ha)) fun y hy => h y (List.mem_cons_of_mem _ hy),
        h a List.mem_cons_self ha]
      ring

section
variable {A : Arrangement} {Gs : List (List (List Pt))} (hR : LoopNet A Gs.flatten) (hG : Plates Gs) {G H : List (List Pt)} (hg : G ∈ Gs)

omit hR hG hg in
theorem mem_flat (hg : G ∈ Gs) {L : List Pt} (hL : L ∈ G) : L ∈ Gs.flatten := List.mem_flatten.2 ⟨G, hg, hL⟩

include hR hg

theorem off_loops {p : Pt} (hp : ¬ OnAny A.net.halfEdges p) : OffLoops G p :=
  fun _ hL => not_onBoundary hR (mem_flat hg hL) hp

theorem same_windings {p q : Pt} (h : SameFace A.net.halfEdges p q) : windings G p = windings G q := by
  unfold windings
  congr 1
  exact List.map_congr_left fun L hL => h L (ring_within hR (mem_flat hg hL))

include hG

/-- On the right of a half-edge along a loop of a plate is the plate, and on the left it is not. -/
theorem plate_sides {L : List Pt} (hL : L ∈ G) {u v : Pt} (h : Al A L u v) :
    (∀ p, Sees A.net.halfEdges (u, v) p → windings G p = -1) ∧ ∀ p, Sees A.net.halfEdges (v, u) p → windings G p = 0 := by
  classical
  have hP := hR.built.planar
  have key : ∀ p q, Sees A.net.halfEdges (u, v) p → Sees A.net.halfEdges (v, u) q → windings G p = -1 ∧ windings G q = 0 := by
    intro p q hp hq
    have hd : windings G p = windings G q - 1 := by
      unfold windings
      rw [sum_diff (hG.nodup G hg) hL (fun L => windingNumber L p) (fun L => windingNumber L q) (by
        intro M hM hne
        refine same_across hR (mem_flat hg hM) h.mem (fun hb => ?_) hp hq
        refine hG.free G hg L hL M hM hne.symm ⟨_, ?_, hb⟩
        obtain ⟨_, e, he, a, b, a0, ab, b1, rfl, rfl⟩ := h
        exact ⟨e, he, a + 1 / 2 * (b - a), by linarith, by linarith, by rw [along_along]⟩)]
      rcases (hG.simple G hg L hL).sides with hs | hs
      · have := loop_sides' hR (mem_flat hg hL) hs h
        rw [this.1 p hp, this.2 q hq]; ring
      · have := loop_sides' hR (mem_flat hg hL) hs h
        rw [this.1 p hp, this.2 q hq]; ring
    have h1 := hG.value G hg p (off_loops hR hg hp.off)
    have h2 := hG.value G hg q (off_loops hR hg hq.off)
    omega
  obtain ⟨p0, hp0⟩ := sees_some hP h.mem
  obtain ⟨q0, hq0⟩ := sees_some hP (hP.rev _ h.mem)
  exact ⟨fun p hp => (key p q0 hp hq0).1, fun q hq => (key p0 q hp0 hq).2⟩

/-- A half-edge that has a plate on its right goes along one of its loops. -/
theorem plate_of_sees {h : Seg} (hh : h ∈ A.net.halfEdges) {p : Pt} (hp : Sees A.net.halfEdges h p) (hw : windings G p ≠ 0) :
    ∃ L ∈ G, Al A L h.1 h.2 := by
  have hP := hR.built.planar
  by_cases hon : ∃ L ∈ G, OnBoundary L (along h (1 / 2))
  · obtain ⟨L, hL, hx⟩ := hon
    rcases al_of_inner hR (mem_flat hg hL) hh (by norm_num) (by norm_num) hx with h' | h'
    · exact ⟨L, hL, h'⟩
    · exact absurd ((plate_sides hR hG hg hL h').2 p hp) hw
  · exfalso
    push Not at hon
    obtain ⟨q, hq⟩ := sees_some hP (hP.rev h hh)
    have hw' : windings G q ≠ 0 := by
      have : windings G q = windings G p := by
        unfold windings
        congr 1
        exact List.map_congr_left fun L hL => (same_across hR (mem_flat hg hL) hh (hon L hL) hp hq).symm
      rw [this]; exact hw
    obtain ⟨M, hM, h'⟩ := al_exists hR hh
    obtain ⟨H, hH, hM'⟩ := List.mem_flatten.1 hM
    have hb : OnBoundary M (along h (1 / 2)) := by
      rcases h' with ⟨_, e, he, a, b, a0, ab, b1, e1, e2⟩ | ⟨_, e, he, a, b, a0, ab, b1, e1, e2⟩
      · refine ⟨e, he, onSeg_sub (a := h.1) (b := h.2) ⟨a, a0, by linarith, e1⟩ ⟨b, by linarith, b1, e2⟩ ⟨1 / 2, by norm_num, by norm_num, rfl⟩⟩
      · refine ⟨e, he, onSeg_sub (a := h.1) (b := h.2) ⟨b, by linarith, b1, e2⟩ ⟨a, a0, by linarith, e1⟩ ⟨1 / 2, by norm_num, by norm_num, rfl⟩⟩
    have hne : G ≠ H := by
      rintro rfl
      exact hon M hM' hb
    rcases h' with h' | h'
    · exact hne (hG.apart G hg H hH p (off_loops hR hg hp.off) (off_loops hR hH hp.off) hw (by
        rw [(plate_sides hR hG hH hM' h').1 p hp]; decide))
    · exact hne (hG.apart G hg H hH q (off_loops hR hg hq.off) (off_loops hR hH hq.off) hw' (by
        rw [(plate_sides hR hG hH hM' h').1 q hq]; decide))

/-- The edges of a cell inside a plate go along its loops. -/
theorem cell_plate {c : Cell1} (hc : c ∈ A.cells) (hw : windings G c.point ≠ 0) {u v : Pt} (he : (u, v) ∈ polyEdges c.vertices) :
    ∃ L ∈ G, Al A L u v := by
  obtain ⟨p, p1, p2⟩ := hR.built.sees c hc _ he
  have hm := hR.built.sub _ (List.mem_flatMap.2 ⟨_, List.mem_map_of_mem hc, he⟩)
  exact plate_of_sees hR hG hg hm p1 (by rw [same_windings hR hg p2]; exact hw)

/-- A half-edge along a loop of a plate is an edge of a cell inside it. -/
theorem plate_cell {L : List Pt} (hL : L ∈ G) {u v : Pt} (h : Al A L u v) :
    ∃ c ∈ A.cells, windings G c.point ≠ 0 ∧ (u, v) ∈ polyEdges c.vertices := by
  obtain ⟨c, hc, he⟩ := hR.built.every _ h.mem
  obtain ⟨p, p1, p2⟩ := hR.built.sees c hc _ he
  refine ⟨c, hc, ?_, he⟩
  rw [← same_windings hR hg p2, (plate_sides hR hG hg hL h).1 p p1]
  decide

omit hR in
theorem same_loop {L M : List Pt} (hL : L ∈ G) (hM : M ∈ G) {x : Pt} (h1 : OnBoundary L x) (h2 : OnBoundary M x) : L = M := by
  by_contra hne
  exact hG.free G hg L hL M hM hne ⟨x, h1, h2⟩

omit hg

/-- The loops of plates are walked along. -/
theorem plate_ring : RingNet A Gs.flatten where
  toLoopNet := hR
  next := by
    intro L hL u v h
    obtain ⟨G, hg, hL⟩ := List.mem_flatten.1 hL
    obtain ⟨c, hc, hw, he⟩ := plate_cell hR hG hg hL h
    obtain ⟨w, hv⟩ := loop_next he
    obtain ⟨M, hM, h'⟩ := cell_plate hR hG hg hc hw hv
    exact ⟨w, same_loop hG hg hL hM h.right h'.left ▸ h'⟩
  prev := by
    intro L hL u v h
    obtain ⟨G, hg, hL⟩ := List.mem_flatten.1 hL
    obtain ⟨c, hc, hw, he⟩ := plate_cell hR hG hg hL h
    obtain ⟨e, hv, rfl⟩ := polyEdges_snd (polyEdges_mem he).1
    obtain ⟨M, hM, h'⟩ := cell_plate hR hG hg hc hw hv
    exact ⟨e.1, same_loop hG hg hL hM h.left h'.right ▸ h'⟩
  way := by
    intro L hL M hM u v h1 h2
    obtain ⟨G, hg, hL⟩ := List.mem_flatten.1 hL
    obtain ⟨H, hh, hM⟩ := List.mem_flatten.1 hM
    obtain ⟨p, hp⟩ := sees_some hR.built.planar h1.mem
    have : G = H := hG.apart G hg H hh p (off_loops hR hg hp.off) (off_loops hR hh hp.off)
      (by rw [(plate_sides hR hG hg hL h1).1 p hp]; decide) (by rw [(plate_sides hR hG hh hM h2).1 p hp]; decide)
    subst this
    exact same_loop hG hg hL hM h1.left h2.left

include hg

/-- The edges of a cell inside a plate are the half-edges along one of its loops. -/
theorem plate_iff {c : Cell1} (hc : c ∈ A.cells) (hw : windings G c.point ≠ 0) :
    ∃ L ∈ G, ∀ u v, (u, v) ∈ polyEdges c.vertices ↔ Al A L u v := by
  have hN := plate_ring hR hG
  have hck := cell_ok' hR hc
  obtain ⟨e, he⟩ := hck.edge
  obtain ⟨L, hL, hal⟩ := cell_plate hR hG hg hc hw he
  refine ⟨L, hL, ?_⟩
  have hon : ∀ u v, (u, v) ∈ polyEdges c.vertices → Al A L u v := by
    intro u v h
    have hw' : ReflTransGen (fun x y => (x, y) ∈ polyEdges c.vertices) e.2 u :=
      polygon_walk (R := fun x y => (x, y) ∈ polyEdges c.vertices) (fun k hk => .single hk) he h
    have step : ∀ x y, OnBoundary L x → (x, y) ∈ polyEdges c.vertices → Al A L x y := by
      intro x y hx hxy
      obtain ⟨M, hM, h'⟩ := cell_plate hR hG hg hc hw hxy
      exact same_loop hG hg hL hM hx h'.left ▸ h'
    have hx : ∀ x, ReflTransGen (fun x y => (x, y) ∈ polyEdges c.vertices) e.2 x → OnBoundary L x := by
      intro x hx
      induction hx with
      | refl => exact hal.right
      | tail _ hbd ih => exact (step _ _ ih hbd).right
    exact step u v (hx u hw') h
  exact fun u v => ⟨hon u v, fun h => (al_ring hN.toLoopNet (mem_flat hg hL)).whole hck.ne (fun _ hk => hon _ _ hk) h⟩

end

/-! ### Rings without holes -/

theorem windings_one (L : List Pt) (p : Pt) : windings [L] p = windingNumber L p := by
  unfold windings
  simp

theorem singles_flatten (Ls : List (List Pt)) : (Ls.map fun L => [L]).flatten = Ls := by
  induction Ls with
  | nil => rfl
  | cons L Ls ih => rw [List.map_cons, List.flatten_cons, ih]; rfl

theorem clear_plates {Ls : List (List Pt)} (h : Clear Ls) : Plates (Ls.map fun L => [L]) where
  simple := by
    intro G hG L hL
    obtain ⟨M, hM, rfl⟩ := List.mem_map.1 hG
    rw [List.mem_singleton.1 hL]; exact h.simple M hM
  nodup := by
    intro G hG
    obtain ⟨M, hM, rfl⟩ := List.mem_map.1 hG
    exact List.nodup_singleton M
  free := by
    intro G hG L hL M hM hne
    obtain ⟨N, hN, rfl⟩ := List.mem_map.1 hG
    exact absurd ((List.mem_singleton.1 hL).trans (List.mem_singleton.1 hM).symm) hne
  value := by
    intro G hG p hp
    obtain ⟨M, hM, rfl⟩ := List.mem_map.1 hG
    rw [windings_one]
    exact ((h.simple M hM).outline (h.cw M hM)).sides.winding (h.simple M hM).ne_nil (hp M (by simp))
  apart := by
    intro G hG H hH p h1 h2 w1 w2
    obtain ⟨M, hM, rfl⟩ := List.mem_map.1 hG
    obtain ⟨N, hN, rfl⟩ := List.mem_map.1 hH
    rw [windings_one] at w1 w2
    rw [h.apart M hM N hN p ⟨h1 M (by simp), w1⟩ ⟨h2 N (by simp), w2⟩]

/-- The arrangement of clockwise rings whose insides are apart. -/
structure ClearNet (A : Arrangement) (Ls : List (List Pt)) : Prop extends LoopNet A Ls where
  clear : Clear Ls

section
variable {A : Arrangement} {Ls : List (List Pt)} (hR : ClearNet A Ls) {L M : List Pt} (hL : L ∈ Ls)
include hR

theorem clear_loops : LoopNet A (Ls.map fun L => [L]).flatten := by
  rw [singles_flatten]; exact hR.toLoopNet

theorem clear_ring : RingNet A Ls := by
  have := plate_ring (clear_loops hR) (clear_plates hR.clear)
  rwa [singles_flatten] at this

include hL

theorem al_sides {u v : Pt} (h : Al A L u v) : (∀ p, Sees A.net.halfEdges (u, v) p → windingNumber L p = -1) ∧
    ∀ p, Sees A.net.halfEdges (v, u) p → windingNumber L p = 0 := by
  have := plate_sides (clear_loops hR) (clear_plates hR.clear) (List.mem_map_of_mem hL) (List.mem_singleton_self L) h
  simpa only [windings_one] using this

/-- A half-edge along the ring is an edge of a cell inside it. -/
theorem al_cell {u v : Pt} (h : Al A L u v) : ∃ c ∈ A.cells, windingNumber L c.point ≠ 0 ∧ (u, v) ∈ polyEdges c.vertices := by
  have := plate_cell (clear_loops hR) (clear_plates hR.clear) (List.mem_map_of_mem hL) (List.mem_singleton_self L) h
  simpa only [windings_one] using this

/-- The edges of a cell inside the ring are the half-edges along the ring. -/
theorem cell_iff {c : Cell1} (hc : c ∈ A.cells) (hw : windingNumber L c.point ≠ 0) (u v : Pt) :
    (u, v) ∈ polyEdges c.vertices ↔ Al A L u v := by
  obtain ⟨M, hM, h⟩ := plate_iff (clear_loops hR) (clear_plates hR.clear) (List.mem_map_of_mem hL) hc (by rwa [windings_one])
  rw [← List.mem_singleton.1 hM]
  exact h u v

/-- The cell inside a ring is clockwise. -/
theorem cell_cw {c : Cell1} (hc : c ∈ A.cells) (hw : windingNumber L c.point ≠ 0) : shoelace c.vertices < 0 :=
  (loop_turn hR.toLoopNet hL hc (cell_iff hR hL hc hw)).1.2 (hR.clear.cw L hL)

end

end Ply.Arr
