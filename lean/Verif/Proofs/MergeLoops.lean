import Verif.Proofs.MergeDiscs
import Verif.Proofs.TotalDiscs
import Verif.Proofs.SimpleRing

/-!
# Merging cells of a connected net in which the borders of groups do not fork

A group of linked cells is kept as the loops of its border, of which there may be several.  As the cells lie in the plane, two
groups meet along one loop of each only.
-/

namespace Ply.CellMerger

variable {V : Type} [DecidableEq V]

open Relation (ReflTransGen)

/-- How often the loop goes around the cell. -/
def turn (w : List V → V × V → ℤ) (l c : List V) : ℤ := ((polyEdges l).map (w c)).sum

/-- The cells `cs`, of the cells `all` of a net in the plane.  `w` counts how often an edge goes around a cell. -/
structure Plane (all cs : List (List V)) (w : List V → V × V → ℤ) : Prop where
  ne : ∀ c ∈ all, c ≠ []
  sub : ∀ c ∈ cs, c ∈ all
  list : cs.Nodup
  nodup : (allEdges all).Nodup
  self : ∀ c ∈ all, ¬ Adjacent c c
  every : ∀ e ∈ allEdges all, opp e ∈ allEdges all
  anti : ∀ c e, w c (opp e) = - w c e
  own : ∀ d ∈ cs, ∀ c ∈ all, turn w d c = if c = d then -1 else 0
  jump : ∀ l, (∀ e ∈ polyEdges l, e ∈ allEdges all) → ∀ c ∈ all, ∀ d ∈ all, ∀ e ∈ polyEdges c, opp e ∈ polyEdges d →
    turn w l d - turn w l c = ((polyEdges l).count e : ℤ) - (polyEdges l).count (opp e)
  two : ∀ l : List V, l ≠ [] → l.Nodup → (∀ e ∈ polyEdges l, e ∈ allEdges all) → (∀ e ∈ polyEdges l, opp e ∉ polyEdges l) →
    ∃ k, ∀ c ∈ all, turn w l c = k ∨ turn w l c = k + 1
  fork : ∀ F : List (List V), F.Nodup → (∀ c ∈ F, c ∈ cs) → Linked F → ∀ u v v', (u, v) ∈ border F → (u, v') ∈ border F → v = v'

/-- The loops `ls` are the border of the linked group `G`. -/
structure Grp (G : List (List V)) (ls : List (Cell V)) : Prop where
  some : G ≠ []
  linked : Linked G
  ne : ∀ c ∈ ls, c.vertices ≠ []
  edges : (cellsEdges ls).Perm (border G)
  origs : ∀ c ∈ ls, c.origs.Nodup ∧ ∀ o ∈ c.origs, o ∈ G

theorem Grp.perm {G : List (List V)} {ls ls' : List (Cell V)} (h : Grp G ls) (p : ls.Perm ls') : Grp G ls' where
  some := h.some
  linked := h.linked
  ne c hc := h.ne c (p.mem_iff.2 hc)
  edges := (cellsEdges_perm p).symm.trans h.edges
  origs c hc := h.origs c (p.mem_iff.2 hc)

theorem Grp.mem {G : List (List V)} {ls : List (Cell V)} (h : Grp G ls) {x : Cell V} (hx : x ∈ ls) {e : V × V} (he : e ∈ x.edges) :
    e ∈ allEdges G ∧ opp e ∉ allEdges G :=
  mem_border.1 (h.edges.mem_iff.1 (List.mem_flatMap.2 ⟨x, hx, he⟩))

theorem Grp.find {G : List (List V)} {ls : List (Cell V)} (h : Grp G ls) {e : V × V} (h1 : e ∈ allEdges G) (h2 : opp e ∉ allEdges G) :
    ∃ x ∈ ls, e ∈ x.edges :=
  List.mem_flatMap.1 (h.edges.mem_iff.2 (mem_border.2 ⟨h1, h2⟩))

omit [DecidableEq V] in
theorem poly_edge {l : List V} (h : l ≠ []) : ∃ e, e ∈ polyEdges l := by
  cases l with
  | nil => exact absurd rfl h
  | cons v l =>
    refine List.exists_mem_of_ne_nil _ fun h0 => ?_
    have := congrArg List.length h0
    simp [polyEdges] at this

section
variable {all cs : List (List V)} {w : List V → V × V → ℤ} (hP : Plane all cs w)
include hP

theorem Plane.edges {F : List (List V)} (hF : F.Nodup) (hs : ∀ c ∈ F, c ∈ cs) : (allEdges F).Nodup :=
  edges_sub_nodup hP.nodup hF fun c hc => hP.sub c (hs c hc)

theorem Plane.cell_eq {a b : List V} (ha : a ∈ all) (hb : b ∈ all) {e : V × V} (h1 : e ∈ polyEdges a) (h2 : e ∈ polyEdges b) : a = b :=
  edges_eq hP.nodup ha hb h1 h2

/-- Disjoint groups have different edges. -/
theorem Plane.disj {G H : List (List V)} (hG : ∀ c ∈ G, c ∈ cs) (hH : ∀ c ∈ H, c ∈ cs) (hd : ∀ c ∈ G, c ∉ H) {e : V × V}
    (he : e ∈ allEdges G) : e ∉ allEdges H := by
  intro he'
  obtain ⟨a, ha, h1⟩ := List.mem_flatMap.1 he
  obtain ⟨b, hb, h2⟩ := List.mem_flatMap.1 he'
  exact hd a ha (hP.cell_eq (hP.sub a (hG a ha)) (hP.sub b (hH b hb)) h1 h2 ▸ hb)

theorem Plane.once {G : List (List V)} {ls : List (Cell V)} (hn : G.Nodup) (hG : ∀ c ∈ G, c ∈ cs) (h : Grp G ls) :
    (cellsEdges ls).Nodup := h.edges.nodup_iff.2 ((hP.edges hn hG).filter _)

theorem Plane.simple {G : List (List V)} {ls : List (Cell V)} (hn : G.Nodup) (hG : ∀ c ∈ G, c ∈ cs) (h : Grp G ls) {x : Cell V}
    (hx : x ∈ ls) : x.vertices.Nodup ∧ x.edges.Nodup := by
  have h1 : x.edges.Nodup := (List.nodup_flatMap.1 (hP.once hn hG h)).1 x hx
  refine ⟨?_, h1⟩
  rw [← polyEdges_map_fst x.vertices]
  refine h1.map_on ?_
  rintro ⟨u, v⟩ he ⟨u', v'⟩ hf (rfl : u = u')
  have m : ∀ e ∈ x.edges, e ∈ border G := fun e he => h.edges.mem_iff.1 (List.mem_flatMap.2 ⟨x, hx, he⟩)
  rw [hP.fork G hn hG h.linked u v v' (m _ he) (m _ hf)]

theorem allEdges_all {G : List (List V)} (hG : ∀ c ∈ G, c ∈ cs) {e : V × V} (he : e ∈ allEdges G) : e ∈ allEdges all := by
  obtain ⟨a, ha, h1⟩ := List.mem_flatMap.1 he
  exact List.mem_flatMap.2 ⟨a, hP.sub a (hG a ha), h1⟩

/-- A loop that goes along no common edge of the cells of a group goes around all of them as often. -/
theorem Plane.const {G : List (List V)} (hG : ∀ c ∈ G, c ∈ cs) (hl : Linked G) {l : List V} (hs : ∀ e ∈ polyEdges l, e ∈ allEdges all)
    (h : ∀ e, e ∈ allEdges G → opp e ∈ allEdges G → e ∉ polyEdges l) {c d : List V} (hc : c ∈ G) (hd : d ∈ G) :
    turn w l c = turn w l d := by
  have := hl c hc d hd
  clear hd
  induction this with
  | refl => rfl
  | tail _ hs' ih =>
    obtain ⟨ha, hb, u, v, h1, h2⟩ := hs'
    rw [ih]
    have m1 : (u, v) ∈ allEdges G := List.mem_flatMap.2 ⟨_, ha, h1⟩
    have m2 : (v, u) ∈ allEdges G := List.mem_flatMap.2 ⟨_, hb, h2⟩
    have := hP.jump l hs _ (hP.sub _ (hG _ ha)) _ (hP.sub _ (hG _ hb)) (u, v) h1 h2
    rw [List.count_eq_zero_of_not_mem (h _ m1 m2), List.count_eq_zero_of_not_mem (h (opp (u, v)) m2 m1)] at this
    push_cast at this
    linarith

/-- All loops of a group together go around the cells of the group. -/
theorem Plane.total {G : List (List V)} {ls : List (Cell V)} (hn : G.Nodup) (hG : ∀ c ∈ G, c ∈ cs) (h : Grp G ls) {c : List V}
    (hc : c ∈ all) : (ls.map fun x => turn w x.vertices c).sum = if c ∈ G then -1 else 0 := by
  have h1 : (ls.map fun x => turn w x.vertices c).sum = ((cellsEdges ls).map (w c)).sum := by
    clear h
    induction ls with
    | nil => simp [cellsEdges]
    | cons x ls ih => rw [List.map_cons, List.sum_cons, ih, cellsEdges_cons, List.map_append, List.sum_append]; rfl
  rw [h1, (h.edges.map _).sum_eq, border_sum (fun x hx => by omega) (w c) (hP.anti c) (hP.edges hn hG)]
  have h2 : ((allEdges G).map (w c)).sum = (G.map fun d => turn w d c).sum := by
    clear h h1 hn hG
    induction G with
    | nil => simp [allEdges]
    | cons x G ih =>
      rw [List.map_cons, List.sum_cons, ← ih]
      simp only [allEdges, List.flatMap_cons, List.map_append, List.sum_append, turn]
  rw [h2, List.map_congr_left fun d hd => hP.own d (hG d hd) c hc]
  clear h h1 h2 hG
  induction G with
  | nil => simp
  | cons x G ih =>
    rw [List.map_cons, List.sum_cons, ih (List.nodup_cons.1 hn).2]
    by_cases hx : c = x
    · subst hx
      rw [if_pos rfl, if_neg (List.nodup_cons.1 hn).1, if_pos (by simp)]; rfl
    · rw [if_neg hx]
      simp [hx]

/-- How the number of turns of a loop changes on leaving its group. -/
theorem Plane.step {G : List (List V)} {ls : List (Cell V)} (hn : G.Nodup) (hG : ∀ c ∈ G, c ∈ cs) (h : Grp G ls) {x : Cell V}
    (hx : x ∈ ls) {c : List V} (hc : c ∈ G) :
    (∀ d ∈ all, turn w x.vertices d = turn w x.vertices c ∨ turn w x.vertices d = turn w x.vertices c + 1) ∧
    ∀ e ∈ x.edges, ∀ d ∈ all, opp e ∈ polyEdges d → turn w x.vertices d = turn w x.vertices c + 1 := by
  obtain ⟨s1, s2⟩ := hP.simple hn hG h hx
  have hs : ∀ e ∈ polyEdges x.vertices, e ∈ allEdges all := fun e he => allEdges_all hP hG (h.mem hx he).1
  have hno : ∀ e ∈ polyEdges x.vertices, opp e ∉ polyEdges x.vertices := fun e he he' => (h.mem hx he).2 (h.mem hx he').1
  have key : ∀ e ∈ x.edges, ∀ d ∈ all, opp e ∈ polyEdges d → turn w x.vertices d = turn w x.vertices c + 1 := by
    intro e he d hd hed
    obtain ⟨a, ha, hea⟩ := List.mem_flatMap.1 (h.mem hx he).1
    have := hP.jump x.vertices hs a (hP.sub a (hG a ha)) d hd e hea hed
    rw [List.count_eq_one_of_mem s2 he, List.count_eq_zero_of_not_mem (hno e he)] at this
    rw [hP.const hG h.linked hs (fun f hf1 hf2 hf3 => (h.mem hx hf3).2 hf2) hc ha]
    push_cast at this
    linarith
  refine ⟨?_, key⟩
  obtain ⟨k, hk⟩ := hP.two x.vertices (h.ne x hx) s1 hs hno
  obtain ⟨e, he⟩ := poly_edge (h.ne x hx)
  obtain ⟨b, hb, hb'⟩ := List.mem_flatMap.1 (hP.every e (hs e he))
  have h1 := key e he b hb hb'
  have h2 := hk b hb
  have h3 := hk c (hP.sub c (hG c hc))
  intro d hd
  have h4 := hk d hd
  omega

/-- Only one loop of a group meets another group. -/
theorem Plane.unique {G H : List (List V)} {ls : List (Cell V)} {x : Cell V} (hn : G.Nodup) (hG : ∀ c ∈ G, c ∈ cs)
    (hH : ∀ c ∈ H, c ∈ cs) (hlH : Linked H) (hd : ∀ c ∈ G, c ∉ H) (h : Grp G (x :: ls)) {e : V × V} (he : e ∈ x.edges)
    (he' : opp e ∈ allEdges H) : ∀ z ∈ ls, ∀ f ∈ z.edges, opp f ∉ allEdges H := by
  intro z hz f hf hf'
  obtain ⟨c, hc⟩ := List.exists_mem_of_ne_nil _ h.some
  obtain ⟨d, hd', hed⟩ := List.mem_flatMap.1 he'
  obtain ⟨b, hb, hfb⟩ := List.mem_flatMap.1 hf'
  have hdall := hP.sub d (hH d hd')
  have t1 := hP.total hn hG h (hP.sub c (hG c hc))
  have t2 := hP.total hn hG h hdall
  rw [if_pos hc] at t1
  rw [if_neg fun hx => hd d hx hd'] at t2
  rw [List.map_cons, List.sum_cons] at t1 t2
  have hx1 := (hP.step hn hG h (x := x) (by simp) hc).2 e he d hdall hed
  have hge : ∀ l : List (Cell V), (∀ y ∈ l, turn w y.vertices d = turn w y.vertices c ∨ turn w y.vertices d = turn w y.vertices c + 1) →
      (l.map fun y => turn w y.vertices c).sum ≤ (l.map fun y => turn w y.vertices d).sum ∧
      ∀ y ∈ l, turn w y.vertices d = turn w y.vertices c + 1 →
        (l.map fun y => turn w y.vertices c).sum + 1 ≤ (l.map fun y => turn w y.vertices d).sum := by
    intro l
    induction l with
    | nil => intro _; simp
    | cons y l ih =>
      intro hy
      obtain ⟨i1, i2⟩ := ih fun a ha => hy a (List.mem_cons_of_mem _ ha)
      have h0 := hy y List.mem_cons_self
      simp only [List.map_cons, List.sum_cons]
      refine ⟨by omega, ?_⟩
      intro a ha hta
      rcases List.mem_cons.1 ha with rfl | ha
      · omega
      · have := i2 a ha hta
        omega
  have hz1 : turn w z.vertices d = turn w z.vertices c + 1 := by
    have hm : z ∈ x :: ls := List.mem_cons_of_mem _ hz
    have h1 := (hP.step hn hG h hm hc).2 f hf b (hP.sub b (hH b hb)) hfb
    rw [← h1]
    refine hP.const hH hlH (fun e he => allEdges_all hP hG (h.mem hm he).1) ?_ hd' hb
    intro e h1 _ h3
    exact hP.disj hG hH hd (h.mem hm h3).1 h1
  have := (hge ls fun y hy => (hP.step hn hG h (List.mem_cons_of_mem _ hy) hc).1 d hdall).2 z hz hz1
  omega

/-- Merging a loop of a group with a loop of another group. -/
theorem Plane.merged {pick : ℕ → List V → V} (hpick : ∀ n vs, vs ≠ [] → pick n vs ∈ vs) {G H : List (List V)} {ls ms : List (Cell V)}
    {x y : Cell V} (hn : (G ++ H).Nodup) (hs : ∀ c ∈ G ++ H, c ∈ cs) (hx : Grp G (x :: ls)) (hy : Grp H (y :: ms)) :
    (merged pick x y = .ok none ∧ NoOpp x.edges y.edges) ∨ ∃ rs, merged pick x y = .ok (some rs) ∧ Grp (G ++ H) (rs ++ ls ++ ms) ∧
      (rs = [] → ∀ e ∈ x.edges, opp e ∈ y.edges) := by
  obtain ⟨nG, nH, dGH⟩ := List.nodup_append.1 hn
  have sG : ∀ c ∈ G, c ∈ cs := fun c hc => hs c (List.mem_append_left _ hc)
  have sH : ∀ c ∈ H, c ∈ cs := fun c hc => hs c (List.mem_append_right _ hc)
  have d1 : ∀ c ∈ G, c ∉ H := fun c h1 h2 => dGH c h1 c h2 rfl
  have d2 : ∀ c ∈ H, c ∉ G := fun c h1 h2 => d1 c h2 h1
  have ox := hP.once nG sG hx
  have oy := hP.once nH sH hy
  have dis : ∀ e, e ∈ allEdges G → e ∉ allEdges H := fun e h => hP.disj sG sH d1 h
  have mx : ∀ e ∈ x.edges, e ∈ allEdges G ∧ opp e ∉ allEdges G := fun e he => hx.mem List.mem_cons_self he
  have my : ∀ e ∈ y.edges, e ∈ allEdges H ∧ opp e ∉ allEdges H := fun e he => hy.mem List.mem_cons_self he
  have nx := (hP.simple nG sG hx (x := x) List.mem_cons_self).2
  have ny := (hP.simple nH sH hy (x := y) List.mem_cons_self).2
  have hnd2 : (allEdges [x.vertices, y.vertices]).Nodup := by
    have : allEdges [x.vertices, y.vertices] = polyEdges x.vertices ++ polyEdges y.vertices := by simp [allEdges]
    rw [this, List.nodup_append]
    refine ⟨nx, ny, ?_⟩
    rintro e he f hf rfl
    exact dis e (mx e he).1 (my e hf).1
  rcases c30_merged hpick x y hnd2 with ⟨h1, h2⟩ | ⟨rs, h1, ⟨u, v, hu, hv⟩, h3, h4⟩
  · left
    refine ⟨h1, fun e he he' => h2 ⟨e.1, e.2, he, he'⟩⟩
  · right
    refine ⟨rs, h1, ?_, ?_⟩
    · have uG := hP.unique nG sG sH hy.linked d1 hx (e := (u, v)) hu (my _ hv).1
      have uH := hP.unique nH sH sG hx.linked d2 hy (e := (v, u)) hv (mx _ hu).1
      have hall : allEdges (G ++ H) = allEdges G ++ allEdges H := by unfold allEdges; rw [List.flatMap_append]
      have hrs : cellsEdges rs = allEdges (rs.map Cell.vertices) := by rw [cellsEdges_eq_map]; rfl
      have hE : ∀ e, e ∈ cellsEdges rs ↔ (e ∈ x.edges ∧ opp e ∉ y.edges) ∨ (e ∈ y.edges ∧ opp e ∉ x.edges) := by
        intro e
        rw [hrs, h3.mem_iff, List.mem_append, List.mem_filter, List.mem_filter, decide_eq_true_eq, decide_eq_true_eq]
        rfl
      refine ⟨?_, ?_, ?_, ?_, ?_⟩
      · have := hx.some
        simp [this]
      · obtain ⟨a, ha, ha'⟩ := List.mem_flatMap.1 (mx _ hu).1
        obtain ⟨b, hb, hb'⟩ := List.mem_flatMap.1 (my _ hv).1
        exact hx.linked.append hy.linked ha hb ⟨u, v, ha', hb'⟩
      · intro c hc
        rcases List.mem_append.1 hc with hc | hc
        · rcases List.mem_append.1 hc with hc | hc
          · exact (h4 c hc).1
          · exact hx.ne c (List.mem_cons_of_mem _ hc)
        · exact hy.ne c (List.mem_cons_of_mem _ hc)
      · rw [cellsEdges_cons] at ox oy
        rw [cellsEdges_append, cellsEdges_append]
        have nrs : (cellsEdges rs).Nodup := by
          rw [hrs]
          refine h3.nodup_iff.2 ?_
          rw [List.nodup_append]
          exact ⟨nx.filter _, ny.filter _, fun e he f hf hef => dis e (mx e (List.mem_filter.1 he).1).1
            (hef ▸ (my f (List.mem_filter.1 hf).1).1)⟩
        have lG : ∀ e, e ∈ cellsEdges ls → e ∈ allEdges G ∧ opp e ∉ allEdges G := by
          intro e he
          obtain ⟨z, hz, he⟩ := List.mem_flatMap.1 he
          exact hx.mem (List.mem_cons_of_mem _ hz) he
        have lH : ∀ e, e ∈ cellsEdges ms → e ∈ allEdges H ∧ opp e ∉ allEdges H := by
          intro e he
          obtain ⟨z, hz, he⟩ := List.mem_flatMap.1 he
          exact hy.mem (List.mem_cons_of_mem _ hz) he
        refine (List.perm_ext_iff_of_nodup ?_ ?_).2 ?_
        · obtain ⟨o1, o2, o3⟩ := List.nodup_append.1 ox
          obtain ⟨p1, p2, p3⟩ := List.nodup_append.1 oy
          rw [List.nodup_append, List.nodup_append]
          refine ⟨⟨nrs, o2, ?_⟩, p2, ?_⟩
          · rintro e he f hf rfl
            rcases (hE e).1 he with ⟨h, _⟩ | ⟨h, _⟩
            · exact o3 e h e hf rfl
            · exact dis e (lG e hf).1 (my e h).1
          · rintro e he f hf rfl
            rcases List.mem_append.1 he with he | he
            · rcases (hE e).1 he with ⟨h, _⟩ | ⟨h, _⟩
              · exact dis e (mx e h).1 (lH e hf).1
              · exact p3 e h e hf rfl
            · exact dis e (lG e he).1 (lH e hf).1
        · unfold border
          exact (hP.edges hn hs).filter _
        · intro e
          rw [List.mem_append, List.mem_append, hE, mem_border, hall, List.mem_append, List.mem_append]
          constructor
          · rintro (((⟨h, h'⟩ | ⟨h, h'⟩) | h) | h)
            · obtain ⟨q1, q2⟩ := mx e h
              refine ⟨Or.inl q1, ?_⟩
              rintro (hc | hc)
              · exact q2 hc
              · obtain ⟨z, hz, hez⟩ := hy.find hc (by rw [opp_opp]; exact dis e q1)
                rcases List.mem_cons.1 hz with rfl | hz
                · exact h' hez
                · exact uH z hz _ hez (by rw [opp_opp]; exact q1)
            · obtain ⟨q1, q2⟩ := my e h
              refine ⟨Or.inr q1, ?_⟩
              rintro (hc | hc)
              · obtain ⟨z, hz, hez⟩ := hx.find hc (by rw [opp_opp]; exact fun h => dis e h q1)
                rcases List.mem_cons.1 hz with rfl | hz
                · exact h' hez
                · exact uG z hz _ hez (by rw [opp_opp]; exact q1)
              · exact q2 hc
            · obtain ⟨q1, q2⟩ := lG e h
              obtain ⟨z, hz, hez⟩ := List.mem_flatMap.1 h
              exact ⟨Or.inl q1, fun hc => hc.elim q2 (uG z hz e hez)⟩
            · obtain ⟨q1, q2⟩ := lH e h
              obtain ⟨z, hz, hez⟩ := List.mem_flatMap.1 h
              exact ⟨Or.inr q1, fun hc => hc.elim (uH z hz e hez) q2⟩
          · rintro ⟨(h | h), h'⟩
            · obtain ⟨z, hz, hez⟩ := hx.find h fun hc => h' (Or.inl hc)
              rcases List.mem_cons.1 hz with rfl | hz
              · exact Or.inl (Or.inl (Or.inl ⟨hez, fun hc => h' (Or.inr (my _ hc).1)⟩))
              · exact Or.inl (Or.inr (List.mem_flatMap.2 ⟨z, hz, hez⟩))
            · obtain ⟨z, hz, hez⟩ := hy.find h fun hc => h' (Or.inr hc)
              rcases List.mem_cons.1 hz with rfl | hz
              · exact Or.inl (Or.inl (Or.inr ⟨hez, fun hc => h' (Or.inl (mx _ hc).1)⟩))
              · exact Or.inr (List.mem_flatMap.2 ⟨z, hz, hez⟩)
      · intro c hc
        rcases List.mem_append.1 hc with hc | hc
        · rcases List.mem_append.1 hc with hc | hc
          · rw [(h4 c hc).2]
            obtain ⟨a1, a2⟩ := hx.origs x List.mem_cons_self
            obtain ⟨b1, b2⟩ := hy.origs y List.mem_cons_self
            refine ⟨List.nodup_append.2 ⟨a1, b1, ?_⟩, ?_⟩
            · rintro o ho p hp rfl
              exact d1 o (a2 o ho) (b2 o hp)
            · intro o ho
              rcases List.mem_append.1 ho with ho | ho
              · exact List.mem_append_left _ (a2 o ho)
              · exact List.mem_append_right _ (b2 o ho)
          · obtain ⟨a1, a2⟩ := hx.origs c (List.mem_cons_of_mem _ hc)
            exact ⟨a1, fun o ho => List.mem_append_left _ (a2 o ho)⟩
        · obtain ⟨a1, a2⟩ := hy.origs c (List.mem_cons_of_mem _ hc)
          exact ⟨a1, fun o ho => List.mem_append_right _ (a2 o ho)⟩
    · rintro rfl e he
      by_contra hc
      have := h3.mem_iff.2 (List.mem_append_left _ (List.mem_filter.2 ⟨he, by rw [decide_eq_true_eq]; exact hc⟩))
      simp [allEdges] at this

end

end Ply.CellMerger
