import Verif.Proofs.TotalLoops
import Verif.Proofs.TotalFork
import Verif.Proofs.StarPair
import Verif.Proofs.PlateNet
import Verif.Spec.Tiles

/-!
# The arrangement of rings that cover an area side by side
-/

namespace Ply.Arr

open CellMerger
open Relation (ReflTransGen)

/-- A point of the cell with these vertices. -/
noncomputable def cellPoint (A : Arrangement) (v : List Pt) : Pt :=
  open Classical in if h : ∃ c ∈ A.cells, c.vertices = v then h.choose.point else (0, 0)

theorem cellPoint_eq {A : Arrangement} (hF : Full A) {c : Cell1} (hc : c ∈ A.cells) : cellPoint A c.vertices = c.point := by
  have h : ∃ d ∈ A.cells, d.vertices = c.vertices := ⟨c, hc, rfl⟩
  unfold cellPoint
  rw [dif_pos h, cell_eq hF h.choose_spec.1 hc h.choose_spec.2]

/-- How often an edge goes around a point of the cell. -/
noncomputable def wraps (A : Arrangement) (v : List Pt) (e : Seg) : ℤ := crossing (cellPoint A v) e.1 e.2

theorem turn_eq {A : Arrangement} (hF : Full A) {c : Cell1} (hc : c ∈ A.cells) (l : List Pt) :
    turn (wraps A) l c.vertices = windingNumber l c.point := by
  unfold turn wraps windingNumber
  rw [cellPoint_eq hF hc]

/-- Two edges of the border of cells that start at a point, so two that end there. -/
theorem border_two {F : List (List Pt)} (hn : (allEdges F).Nodup) {u v v' : Pt} (hv : v ≠ v')
    (h1 : (u, v) ∈ border F) (h2 : (u, v') ∈ border F) : ∃ x x', x ≠ x' ∧ (x, u) ∈ border F ∧ (x', u) ∈ border F := by
  have hbn : (border F).Nodup := hn.filter _
  by_contra hc
  push Not at hc
  set f : Pt × Pt → ℤ := fun e => (if e.2 = u then 1 else 0) - (if e.1 = u then 1 else 0) with hf
  have s1 := border_sum (fun x hx => by omega) f (by
    intro e
    simp only [hf, opp]
    ring) hn
  have s2 : ∀ F : List (List Pt), ((allEdges F).map f).sum = 0 := by
    intro F
    induction F with
    | nil => simp [allEdges]
    | cons c F ih =>
      have : (allEdges (c :: F)).map f = (polyEdges c).map f ++ (allEdges F).map f := by simp [allEdges]
      rw [this, List.sum_append, ih, add_zero]
      exact polyEdges_telescope (fun x : Pt => if x = u then (1 : ℤ) else 0) c
  rw [s2] at s1
  have hsplit : ∀ l : List (Pt × Pt), (l.map f).sum = (l.countP fun e => e.2 = u : ℤ) - (l.countP fun e => e.1 = u : ℤ) := by
    intro l
    induction l with
    | nil => simp
    | cons a l ih =>
      rw [List.map_cons, List.sum_cons, ih, List.countP_cons, List.countP_cons]
      simp only [hf, decide_eq_true_eq]
      push_cast
      ring
  rw [hsplit] at s1
  have hout : 2 ≤ (border F).countP fun e => e.1 = u := by
    rw [List.countP_eq_length_filter]
    have : [(u, v), (u, v')].Subperm ((border F).filter fun e => e.1 = u) := by
      refine List.subperm_of_subset (by simp [hv]) ?_
      intro e he
      simp only [List.mem_cons, List.not_mem_nil, or_false] at he
      rcases he with rfl | rfl
      · exact List.mem_filter.2 ⟨h1, by simp⟩
      · exact List.mem_filter.2 ⟨h2, by simp⟩
    exact this.length_le
  have hinn : (border F).countP (fun e => e.2 = u) ≤ 1 := by
    rw [List.countP_eq_length_filter]
    set l := (border F).filter fun e => e.2 = u with hl
    have hln : l.Nodup := hbn.filter _
    have hm : ∀ e ∈ l, e ∈ border F ∧ e.2 = u := fun e he => by
      have := List.mem_filter.1 he
      exact ⟨this.1, by simpa using this.2⟩
    by_contra hcon
    match l, hln, hm, hcon with
    | [], _, _, hcon => simp at hcon
    | [_], _, _, hcon => simp at hcon
    | a :: b :: _, hln, hm, _ =>
      obtain ⟨a1, a2⟩ := hm a (by simp)
      obtain ⟨b1, b2⟩ := hm b (by simp)
      have hab : a ≠ b := by
        rintro rfl
        simp at hln
      refine hc a.1 b.1 (fun h => hab (Prod.ext h (a2.trans b2.symm))) ?_ ?_
      · rw [← a2]; exact a1
      · rw [← b2]; exact b1
  omega

/-- A loop of a net that visits no point twice and goes along no edge both ways is simple. -/
theorem net_ring {H : List Seg} (hP : Planar H) {l : List Pt} (h0 : l ≠ []) (hn : l.Nodup) (hs : ∀ e ∈ polyEdges l, e ∈ H)
    (ho : ∀ e ∈ polyEdges l, opp e ∉ polyEdges l) : SimpleRing l where
  long := by
    match l, h0, hs, ho with
    | [], h0, _, _ => exact absurd rfl h0
    | [a], _, hs, _ => exact absurd rfl (hP.ne (a, a) (hs _ (by simp [polyEdges])))
    | [a, b], _, _, ho => exact absurd (show opp (a, b) ∈ polyEdges [a, b] by simp [polyEdges, opp]) (ho (a, b) (by simp [polyEdges]))
    | _ :: _ :: _ :: _, _, _, _ => simp
  nodup := hn
  apart := by
    intro e he k hk x o1 o2
    rcases hP.meet e (hs e he) k (hs k hk) x o1 o2 with (h | h) | ⟨h | h, h' | h'⟩
    · exact Or.inl h
    · exact absurd (show opp e ∈ polyEdges l by unfold opp; rw [← h]; exact hk) (ho e he)
    · exact Or.inl (fst_inj hn hk he (h'.symm.trans h))
    · exact Or.inr (Or.inl ⟨h, h'⟩)
    · exact Or.inr (Or.inr ⟨h, h'⟩)
    · exact Or.inl (snd_inj hn hk he (h'.symm.trans h))

section
variable {A : Arrangement} {Ls : List (List Pt)} (hR : ClearNet A Ls)
include hR

/-- Of four half-edges at a vertex two are the same. -/
theorem three_half (hT : Threeway Ls) {u : Pt} (x : Fin 4 → Pt) (h : ∀ i, (u, x i) ∈ A.net.halfEdges) : ∃ i j, i ≠ j ∧ x i = x j := by
  have hP := hR.built.planar
  obtain ⟨i, j, hij, ho⟩ := hT u x (by
    intro i
    refine ⟨hP.ne _ (h i), ?_⟩
    obtain ⟨L, hL, h'⟩ := al_exists hR.toLoopNet (h i)
    rcases h' with ⟨_, e, he, a, b, a0, ab, b1, e1, e2⟩ | ⟨_, e, he, a, b, a0, ab, b1, e1, e2⟩
    · exact ⟨L, hL, e, he, ⟨a, a0, by linarith, e1⟩, ⟨b, by linarith, b1, e2⟩⟩
    · exact ⟨L, hL, e, he, ⟨b, by linarith, b1, e2⟩, ⟨a, a0, by linarith, e1⟩⟩)
  exact ⟨i, j, hij, sameWay_eq hP (h i) (h j) (Or.inl ho)⟩

/-- One gets away from a point along faces of the net. -/
theorem escape_winding {p : Pt} (hp : Escapes Ls p) {l : List Pt} (hl : ∀ e ∈ polyEdges l, e ∈ A.net.halfEdges) :
    windingNumber l p = 0 := by
  obtain ⟨M, -, hM⟩ := far_bound [] [l]
  obtain ⟨q, hq, hw⟩ := hp M
  have hs : windingNumber l p = windingNumber l q := by
    clear hq
    induction hw with
    | refl => rfl
    | tail _ hs ih =>
      rw [ih]
      have := same_of_segment (S := A.net.halfEdges) fun x hx hon => by
        obtain ⟨L, hL, hb⟩ := (hR.on x).1 hon
        exact hs x hx L hL hb
      exact this.winding hl
  rw [hs]
  exact winding_far l q fun v hv => (hM l (by simp) v hv).trans hq

/-- The cells inside the rings. -/
theorem tiles_plane (hT : Tiles Ls) (sel : Cell1 → Bool) (hsel : ∀ c ∈ A.cells, sel c = true ↔ ∃ L ∈ Ls, windingNumber L c.point ≠ 0) :
    Plane (A.cells.map Cell1.vertices) ((A.cells.filter sel).map Cell1.vertices) (wraps A) ∧
    ∀ l, (∀ e ∈ polyEdges l, e ∈ allEdges ((A.cells.filter sel).map Cell1.vertices)) → ∀ c ∈ A.cells.map Cell1.vertices,
      c ∉ (A.cells.filter sel).map Cell1.vertices → turn (wraps A) l c = 0 := by
  have hP := hR.built.planar
  have hB := hR.built
  have hF := hR.full
  have hsub : ((A.cells.filter sel).map Cell1.vertices).Sublist (A.cells.map Cell1.vertices) := List.filter_sublist.map _
  have hH : ∀ {l : List Pt}, (∀ e ∈ polyEdges l, e ∈ allEdges (A.cells.map Cell1.vertices)) → ∀ e ∈ polyEdges l, e ∈ A.net.halfEdges :=
    fun h e he => hB.sub e (h e he)
  refine ⟨⟨?_, fun c hc => hsub.subset hc, hsub.nodup hF.nodup, hB.nodup, ?_, ?_, ?_, ?_, ?_, ?_, ?_⟩, ?_⟩
  · intro c hc
    obtain ⟨d, hd, rfl⟩ := List.mem_map.1 hc
    exact (cell_ok' hR.toLoopNet hd).ne
  · rintro c hc ⟨u, v, h1, h2⟩
    obtain ⟨d, hd, rfl⟩ := List.mem_map.1 hc
    exact (cell_ok' hR.toLoopNet hd).opp hF.wheel h1 h2
  · intro e he
    obtain ⟨c, hc, h⟩ := hB.every _ (hP.rev e (hB.sub e he))
    exact List.mem_flatMap.2 ⟨c.vertices, List.mem_map_of_mem hc, h⟩
  · intro c e
    unfold wraps opp
    exact crossing_swap _ _ _
  · intro d hd c hc
    obtain ⟨d, hd', rfl⟩ := List.mem_map.1 hd
    obtain ⟨c, hcm, rfl⟩ := List.mem_map.1 hc
    obtain ⟨hd, hs⟩ := List.mem_filter.1 hd'
    obtain ⟨L, hL, hw⟩ := (hsel d hd).1 hs
    have hi := cell_iff hR hL hd hw
    rw [turn_eq hF hcm, loop_winding hR.toLoopNet hL hd hi (hB.off c hcm)]
    have hsd : Sides L 0 (-1) := by
      rcases (hR.clear.simple L hL).sides with h | h
      · exact h
      · have := Sides.shoelace_pos h (hR.clear.simple L hL).ne_nil
        have := hR.clear.cw L hL
        linarith
    have hv := hsd.winding (hR.clear.simple L hL).ne_nil (not_onBoundary hR.toLoopNet hL (hB.off c hcm))
    split_ifs with h
    · rw [cell_eq hF hcm hd h]
      rw [cell_eq hF hcm hd h] at hv
      exact hv.resolve_left hw
    · refine hv.resolve_right fun h1 => h ?_
      have hi' := cell_iff hR hL hcm (by rw [h1]; decide)
      obtain ⟨e, he⟩ := (cell_ok' hR.toLoopNet hd).edge
      have he' := (hi' e.1 e.2).2 ((hi e.1 e.2).1 he)
      exact edges_eq hB.nodup (List.mem_map_of_mem hcm) (List.mem_map_of_mem hd) he' he
  · intro l hl c hc d hd e he ho
    obtain ⟨c, hcm, rfl⟩ := List.mem_map.1 hc
    obtain ⟨d, hdm, rfl⟩ := List.mem_map.1 hd
    rw [turn_eq hF hcm, turn_eq hF hdm]
    obtain ⟨p, p1, p2⟩ := hB.sees c hcm e he
    obtain ⟨q, q1, q2⟩ := hB.sees d hdm _ ho
    have hm := (cell_ok' hR.toLoopNet hcm).sub e he
    rw [← p2.winding (hH hl), ← q2.winding (hH hl), ← sideOf_eq hP (hH hl) hm p1, ← sideOf_eq hP (hH hl) (hP.rev e hm) q1]
    convert sideOf_jump hP (hH hl) hm using 3
    · congr 1; exact lawful_beq_subsingleton _ _
    · congr 1; exact lawful_beq_subsingleton _ _
  · intro l h0 hn hl ho
    have hS := net_ring hP h0 hn (hH hl) ho
    have hoff : ∀ c ∈ A.cells, ¬ OnBoundary l c.point := fun c hc ⟨e, he, h⟩ => hB.off c hc ⟨e, hH hl e he, h⟩
    rcases hS.sides with h | h
    · refine ⟨-1, fun c hc => ?_⟩
      obtain ⟨c, hcm, rfl⟩ := List.mem_map.1 hc
      rw [turn_eq hF hcm]
      exact (h.winding h0 (hoff c hcm)).symm
    · refine ⟨0, fun c hc => ?_⟩
      obtain ⟨c, hcm, rfl⟩ := List.mem_map.1 hc
      rw [turn_eq hF hcm]
      exact (h.winding h0 (hoff c hcm)).symm
  · intro F hF1 hF2 _ u v v' h1 h2
    by_contra hv
    have hsubF : ∀ c ∈ F, c ∈ A.cells.map Cell1.vertices := fun c hc => hsub.subset (hF2 c hc)
    have hnd : (allEdges F).Nodup := edges_sub_nodup hB.nodup hF1 hsubF
    have hin : ∀ e ∈ border F, e ∈ A.net.halfEdges := by
      intro e he
      obtain ⟨c, hc, h⟩ := List.mem_flatMap.1 (mem_border.1 he).1
      exact hB.sub e (List.mem_flatMap.2 ⟨c, hsubF c hc, h⟩)
    obtain ⟨x, x', hx, h3, h4⟩ := border_two hnd hv h1 h2
    have hd : ∀ y z, (u, y) ∈ border F → (z, u) ∈ border F → y ≠ z := by
      rintro y z m1 m2 rfl
      exact (mem_border.1 m1).2 (mem_border.1 m2).1
    obtain ⟨i, j, hij, he⟩ := three_half hR hT.three (u := u) ![v, v', x, x'] (by
      intro i
      fin_cases i
      · exact hin _ h1
      · exact hin _ h2
      · exact hP.rev _ (hin _ h3)
      · exact hP.rev _ (hin _ h4))
    have a1 := hd v x h1 h3
    have a2 := hd v x' h1 h4
    have a3 := hd v' x h2 h3
    have a4 := hd v' x' h2 h4
    fin_cases i <;> fin_cases j <;> simp_all
  · intro l hl c hc hns
    obtain ⟨c, hcm, rfl⟩ := List.mem_map.1 hc
    rw [turn_eq hF hcm]
    have hno : ∀ L ∈ Ls, windingNumber L c.point = 0 := by
      intro L hL
      by_contra hw
      exact hns (List.mem_map_of_mem (List.mem_filter.2 ⟨hcm, (hsel c hcm).2 ⟨L, hL, hw⟩⟩))
    refine escape_winding hR (hT.open_ c.point (fun L hL => not_onBoundary hR.toLoopNet hL (hB.off c hcm)) fun L hL h => h.2 (hno L hL)) ?_
    intro e he
    obtain ⟨d, hd, h⟩ := List.mem_flatMap.1 (hl e he)
    exact hB.sub e (List.mem_flatMap.2 ⟨d, hsub.subset hd, h⟩)

end

end Ply.Arr
