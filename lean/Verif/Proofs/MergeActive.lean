import Verif.Proofs.MergeLoops

/-! # Adding a cell to groups of cells of a net in the plane -/

namespace Ply.CellMerger

variable {V : Type} [DecidableEq V]

open Relation (ReflTransGen)

omit [DecidableEq V] in
theorem chain_closed {S : V → Prop} (l : List V) : ∀ u, S u → (∀ e ∈ chain u l, S e.1 → S e.2) → ∀ v ∈ l, S v := by
  induction l with
  | nil => intro u _ _ v hv; cases hv
  | cons b l ih =>
    intro u hu h v hv
    have hb : S b := h (u, b) (by simp [chain_cons]) hu
    rcases List.mem_cons.1 hv with rfl | hv
    · exact hb
    · exact ih b hb (fun e he => h e (by rw [chain_cons]; exact List.mem_cons_of_mem _ he)) v hv

omit [DecidableEq V] in
theorem ring_closed {S : V → Prop} {a : List V} {u : V} (hu : u ∈ a) (hS : S u) (h : ∀ e ∈ polyEdges a, S e.1 → S e.2) :
    ∀ v ∈ a, S v := by
  obtain ⟨k, hk, rfl⟩ := List.getElem_of_mem hu
  obtain ⟨r, hr⟩ : ∃ r, a.rotate k = a[k] :: r := by
    have h0 : a.rotate k = a.drop k ++ a.take k := List.rotate_eq_drop_append_take hk.le
    rw [h0, List.drop_eq_getElem_cons hk]
    exact ⟨_, rfl⟩
  intro v hv
  have hv : v ∈ a[k] :: r := by rw [← hr]; exact List.mem_rotate.2 hv
  have hE : ∀ e ∈ chain a[k] (r ++ [a[k]]), S e.1 → S e.2 := by
    intro e he
    refine h e ?_
    rw [← polyEdges_cons, ← hr] at he
    exact (polyEdges_rotate a k).mem_iff.1 he
  exact chain_closed _ _ hS hE v (by simpa [or_comm] using hv)

omit [DecidableEq V] in
/-- A loop along edges of a simple loop has all its edges. -/
theorem loop_all {x a : List V} (hx : x ≠ []) (ha : a.Nodup) (h : ∀ e ∈ polyEdges x, e ∈ polyEdges a) :
    ∀ e ∈ polyEdges a, e ∈ polyEdges x := by
  have inj : ∀ e ∈ polyEdges a, ∀ f ∈ polyEdges a, e.1 = f.1 → e = f := by
    have := polyEdges_map_fst a
    have hn : ((polyEdges a).map Prod.fst).Nodup := by rw [this]; exact ha
    exact fun e he f hf hef => List.inj_on_of_nodup_map hn he hf hef
  have out : ∀ u ∈ x, ∃ v, (u, v) ∈ polyEdges x := by
    intro u hu
    rw [← polyEdges_map_fst x] at hu
    obtain ⟨e, he, rfl⟩ := List.mem_map.1 hu
    exact ⟨e.2, he⟩
  have step : ∀ e ∈ polyEdges a, e.1 ∈ x → e ∈ polyEdges x := by
    intro e he hu
    obtain ⟨v, hv⟩ := out e.1 hu
    rw [inj e he _ (h _ hv) rfl]
    exact hv
  obtain ⟨u, hu⟩ := List.exists_mem_of_ne_nil _ hx
  obtain ⟨v, hv⟩ := out u hu
  have := ring_closed (S := fun v => v ∈ x) (polyEdges_mem (h _ hv)).1 hu fun e he h1 => (polyEdges_mem (step e he h1)).2
  exact fun e he => step e he (this e.1 (polyEdges_mem he).1)

/-- While `a₀` is added: its group `G₀` with the loops `cur`, `toAdd` still to be merged and `done`, and the other groups. -/
structure Act (cs : List (List V)) (a₀ : List V) (cur toAdd cells : List (Cell V)) (G₀ : List (List V))
    (Gs : List (List (List V) × List (Cell V))) (done : List (Cell V)) : Prop where
  grp : Grp G₀ (cur ++ toAdd ++ done)
  mem : a₀ ∈ G₀
  grps : ∀ g ∈ Gs, Grp g.1 g.2
  cells : cells.Perm (done ++ Gs.flatMap Prod.snd)
  nodup : (G₀ ++ Gs.flatMap Prod.fst).Nodup
  sub : ∀ c ∈ G₀ ++ Gs.flatMap Prod.fst, c ∈ cs
  apart : ∀ g ∈ Gs, ∀ d ∈ g.1, ∀ c ∈ G₀ ++ Gs.flatMap Prod.fst, c ≠ a₀ → Adjacent c d → c ∈ g.1

section
variable {all cs : List (List V)} {w : List V → V × V → ℤ} (hP : Plane all cs w)
include hP

/-- Two loops of the same group are not merged. -/
theorem Plane.still {pick : ℕ → List V → V} (hpick : ∀ n vs, vs ≠ [] → pick n vs ∈ vs) {G : List (List V)} {ls : List (Cell V)}
    {x y : Cell V} (hn : G.Nodup) (hs : ∀ c ∈ G, c ∈ cs) (h : Grp G (x :: y :: ls)) : CellMerger.merged pick x y = .ok none := by
  have o := hP.once hn hs h
  rw [cellsEdges_cons, cellsEdges_cons] at o
  rcases c30_merged hpick x y (by
    have : allEdges [x.vertices, y.vertices] = x.edges ++ y.edges := by simp [allEdges, Cell.edges]
    rw [this]
    rw [← List.append_assoc] at o
    exact (List.nodup_append.1 o).1) with ⟨h1, _⟩ | ⟨rs, _, ⟨u, v, hu, hv⟩, _⟩
  · exact h1
  · exact absurd (h.mem (x := y) (by simp) (e := (v, u)) hv).1 (h.mem (x := x) (by simp) (e := (u, v)) hu).2

/-- If merging leaves nothing, the merged loop was the whole border of the cell added. -/
theorem Plane.whole {a₀ : List V} {G H : List (List V)} {ls : List (Cell V)} {x : Cell V} (hn : G.Nodup) (hG : ∀ c ∈ G, c ∈ cs)
    (h : Grp G (x :: ls)) (ha : a₀ ∈ G) (hd : ∀ c ∈ G, c ∉ H) (hap : ∀ d ∈ H, ∀ c ∈ G, c ≠ a₀ → Adjacent c d → c ∈ H)
    (hx : ∀ e ∈ x.edges, opp e ∈ allEdges H) : G = [a₀] ∧ ls = [] := by
  have hE : ∀ e ∈ x.edges, e ∈ polyEdges a₀ := by
    intro e he
    obtain ⟨c, hc, hec⟩ := List.mem_flatMap.1 (h.mem List.mem_cons_self he).1
    obtain ⟨d, hd', hed⟩ := List.mem_flatMap.1 (hx e he)
    by_contra hne
    exact hd c hc (hap d hd' c hc (fun hc' => hne (hc' ▸ hec)) ⟨e.1, e.2, hec, hed⟩)
  have haA := hP.sub a₀ (hG a₀ ha)
  have hsimple : a₀.Nodup := by
    have hb : border [a₀] = polyEdges a₀ := by
      unfold border
      have : allEdges [a₀] = polyEdges a₀ := by simp [allEdges]
      rw [this]
      refine List.filter_eq_self.2 ?_
      intro e he
      simp only [decide_eq_true_eq]
      exact fun hc => hP.self a₀ haA ⟨e.1, e.2, he, hc⟩
    have g : Grp [a₀] [lone a₀] := by
      refine ⟨by simp, linked_one a₀, ?_, ?_, ?_⟩
      · intro c hc
        rw [List.mem_singleton.1 hc]
        exact hP.ne a₀ haA
      · rw [hb]
        simp [cellsEdges, lone]
      · intro c hc
        rw [List.mem_singleton.1 hc]
        simp [lone]
    exact (hP.simple (by simp) (by simpa using hG a₀ ha) g (x := lone a₀) (by simp)).1
  have hall := loop_all (h.ne x List.mem_cons_self) hsimple hE
  have hG1 : G = [a₀] := by
    have h1 : ∀ c ∈ G, c = a₀ := by
      intro c hc
      have := h.linked a₀ ha c hc
      rcases Relation.ReflTransGen.cases_head this with h1 | ⟨d, ⟨_, hd', u, v, hu, hv⟩, _⟩
      · exact h1.symm
      · exact absurd (List.mem_flatMap.2 ⟨d, hd', hv⟩) (h.mem (x := x) List.mem_cons_self (e := (u, v)) (hall _ hu)).2
    cases G with
    | nil => cases ha
    | cons c G =>
      have hc0 := h1 c List.mem_cons_self
      subst hc0
      cases G with
      | nil => rfl
      | cons d G =>
        have := h1 d (by simp)
        subst this
        simp at hn
  refine ⟨hG1, ?_⟩
  subst hG1
  rw [List.eq_nil_iff_forall_not_mem]
  intro z hz
  obtain ⟨e, he⟩ := poly_edge (h.ne z (List.mem_cons_of_mem _ hz))
  have o := hP.once hn hG h
  rw [cellsEdges_cons] at o
  have m := (h.mem (x := z) (List.mem_cons_of_mem _ hz) (e := e) he).1
  have m' : e ∈ polyEdges a₀ := by simpa [allEdges] using m
  exact (List.nodup_append.1 o).2.2 e (hall e m') e (List.mem_flatMap.2 ⟨z, hz, he⟩) rfl

theorem mergeLoop_act {pick : ℕ → ℕ → List V → V} (hpick : ∀ j n vs, vs ≠ [] → pick j n vs ∈ vs) {a₀ : List V}
    (others : List (Cell V)) : ∀ (cell : Cell V) (cells vis : List (Cell V)) (ann : List (List V)) (toAdd : List (Cell V))
      (G₀ : List (List V)) (Gs : List (List (List V) × List (Cell V))) (done : List (Cell V)),
      Act cs a₀ [cell] toAdd cells G₀ Gs done → cells.Perm (vis ++ others) →
      ∃ r cells' ann' toAdd', mergeLoop pick others cell cells ann toAdd = .ok (r, cells', ann', toAdd') ∧ (r = none → toAdd' = []) ∧
        ∃ G₀' Gs' done', Act cs a₀ [] toAdd' (cells' ++ r.toList) G₀' Gs' done' ∧
          (G₀' ++ Gs'.flatMap Prod.fst).Perm (G₀ ++ Gs.flatMap Prod.fst) := by
  induction others with
  | nil =>
    intro cell cells vis ann toAdd G₀ Gs done hA hv
    refine ⟨some cell, cells, ann, toAdd, rfl, by simp, G₀, Gs, done ++ [cell], ⟨?_, hA.mem, hA.grps, ?_, hA.nodup, hA.sub, hA.apart⟩,
      List.Perm.refl _⟩
    · refine hA.grp.perm ?_
      simp only [List.nil_append, List.cons_append]
      rw [← List.append_assoc]
      exact (List.perm_append_singleton _ _).symm
    · refine (hA.cells.append_right _).trans ?_
      simp only [Option.toList_some, List.append_assoc]
      exact List.Perm.append_left _ List.perm_append_comm
  | cons other rest ih =>
    intro cell cells vis ann toAdd G₀ Gs done hA hv
    have hom : other ∈ cells := hv.mem_iff.2 (by simp)
    obtain ⟨nG, nGs, dG⟩ := List.nodup_append.1 hA.nodup
    have sG : ∀ c ∈ G₀, c ∈ cs := fun c hc => hA.sub c (List.mem_append_left _ hc)
    have hv' : cells.Perm ((vis ++ [other]) ++ rest) := by simpa using hv
    have hverase : (cells.erase other).Perm (vis ++ rest) := by
      have h1 : cells.Perm (other :: (vis ++ rest)) := hv.trans List.perm_middle
      have := h1.erase other
      rwa [List.erase_cons_head] at this
    rw [mergeLoop]
    rcases List.mem_append.1 (hA.cells.mem_iff.1 hom) with hd | hg
    · obtain ⟨d1, d2, rfl⟩ := List.append_of_mem hd
      rw [hP.still (hpick _) (ls := toAdd ++ (d1 ++ d2)) (y := other) nG sG (hA.grp.perm (by
        simp only [List.cons_append]
        refine List.Perm.cons _ ?_
        refine (List.Perm.append_left _ List.perm_middle).trans ?_
        exact List.perm_middle))]
      exact ih cell cells _ ann toAdd G₀ Gs _ hA hv'
    · obtain ⟨g, hgG, hog⟩ := List.mem_flatMap.1 hg
      obtain ⟨g1, g2, rfl⟩ := List.append_of_mem hgG
      obtain ⟨m1, m2, hm⟩ := List.append_of_mem hog
      have pGs : (g1 ++ g :: g2).Perm (g :: (g1 ++ g2)) := List.perm_middle
      have hgm : g.2.Perm (other :: (m1 ++ m2)) := by rw [hm]; exact List.perm_middle
      have pfst : ((g1 ++ g :: g2).flatMap Prod.fst).Perm (g.1 ++ (g1 ++ g2).flatMap Prod.fst) := by
        refine (pGs.flatMap_right _).trans ?_
        rw [List.flatMap_cons]
      have psnd : ((g1 ++ g :: g2).flatMap Prod.snd).Perm (g.2 ++ (g1 ++ g2).flatMap Prod.snd) := by
        refine (pGs.flatMap_right _).trans ?_
        rw [List.flatMap_cons]
      have pall : (G₀ ++ g.1 ++ (g1 ++ g2).flatMap Prod.fst).Perm (G₀ ++ (g1 ++ g :: g2).flatMap Prod.fst) := by
        rw [List.append_assoc]
        exact (List.Perm.append_left _ pfst).symm
      have nall : (G₀ ++ g.1 ++ (g1 ++ g2).flatMap Prod.fst).Nodup := pall.nodup_iff.2 hA.nodup
      have sall : ∀ c ∈ G₀ ++ g.1 ++ (g1 ++ g2).flatMap Prod.fst, c ∈ cs := fun c hc => hA.sub c (pall.mem_iff.1 hc)
      obtain ⟨n1, n2, n3⟩ := List.nodup_append.1 nall
      have d0 : ∀ c ∈ G₀, c ∉ g.1 := fun c h1 h2 => (List.nodup_append.1 n1).2.2 c h1 c h2 rfl
      have hgrp := hA.grps g hgG
      have hcells : (cells.erase other).Perm (done ++ (m1 ++ m2) ++ (g1 ++ g2).flatMap Prod.snd) := by
        have h1 : cells.Perm (other :: (done ++ (m1 ++ m2) ++ (g1 ++ g2).flatMap Prod.snd)) := by
          refine hA.cells.trans ?_
          refine (List.Perm.append_left _ (psnd.trans (hgm.append_right _))).trans ?_
          simp only [List.append_assoc, List.cons_append]
          exact List.perm_middle
        have := h1.erase other
        rwa [List.erase_cons_head] at this
      have hgs' : ∀ g' ∈ g1 ++ g2, Grp g'.1 g'.2 := fun g' hg' => hA.grps g' (pGs.mem_iff.2 (List.mem_cons_of_mem _ hg'))
      have hap' : ∀ g' ∈ g1 ++ g2, ∀ d ∈ g'.1, ∀ c ∈ G₀ ++ g.1 ++ (g1 ++ g2).flatMap Prod.fst, c ≠ a₀ → Adjacent c d → c ∈ g'.1 :=
        fun g' hg' d hd c hc => hA.apart g' (pGs.mem_iff.2 (List.mem_cons_of_mem _ hg')) d hd c (pall.mem_iff.1 hc)
      rcases hP.merged (hpick rest.length) n1 (fun c hc => sall c (List.mem_append_left _ hc)) (ls := toAdd ++ done) (x := cell)
        (by simpa using hA.grp) (hgrp.perm hgm) with ⟨e, _⟩ | ⟨rs, e, hgr, hnil⟩
      · rw [e]
        exact ih cell cells _ ann toAdd G₀ _ done hA hv'
      · rw [e]
        cases rs with
        | nil =>
          have hnil := hnil rfl
          obtain ⟨w1, w2⟩ := hP.whole (H := g.1) (ls := toAdd ++ done) (x := cell) nG sG (by simpa using hA.grp) hA.mem d0
            (fun d hd c hc => hA.apart g hgG d hd c (List.mem_append_left _ hc))
            fun e he => (hgrp.mem hog (hnil e he)).1
          obtain ⟨rfl, rfl⟩ := List.append_eq_nil_iff.1 w2
          have hoc : (∀ o ∈ cell.origs, o ∈ G₀) ∧ ∀ o ∈ other.origs, o ∈ g.1 :=
            ⟨(hA.grp.origs cell (by simp)).2, (hgrp.origs other hog).2⟩
          have hocs : ∀ o ∈ cell.origs ++ other.origs, o ∈ G₀ ++ g.1 := by
            intro o ho
            rcases List.mem_append.1 ho with ho | ho
            · exact List.mem_append_left _ (hoc.1 o ho)
            · exact List.mem_append_right _ (hoc.2 o ho)
          show ∃ r cells' ann' toAdd', (if meets cell.origs other.origs = true then _ else _) = _ ∧ _
          rw [if_neg (by
            rw [meets_iff]
            rintro ⟨o, h1, h2⟩
            exact d0 o (hoc.1 o h1) (hoc.2 o h2))]
          set F : Cell V → Cell V := fun c => if meets c.origs (cell.origs ++ other.origs) then
            ⟨c.vertices, (c.origs ++ (cell.origs ++ other.origs)).dedup⟩ else c with hF
          have Fv : ∀ c, (F c).vertices = c.vertices := by
            intro c
            rw [hF]
            dsimp only
            split_ifs <;> rfl
          refine ⟨none, (cells.erase other).map F, _, [], rfl, fun _ => rfl, G₀ ++ g.1, g1 ++ g2, (m1 ++ m2).map F,
            ⟨?_, List.mem_append_left _ hA.mem, hgs', ?_, nall, sall, hap'⟩, pall⟩
          · simp only [List.nil_append] at hgr ⊢
            refine ⟨hgr.some, hgr.linked, ?_, ?_, ?_⟩
            · intro c hc
              obtain ⟨c', hc', rfl⟩ := List.mem_map.1 hc
              rw [Fv]
              exact hgr.ne c' hc'
            · refine List.Perm.trans (List.Perm.of_eq ?_) hgr.edges
              rw [cellsEdges_eq_map, cellsEdges_eq_map, List.map_map]
              congr 1
              exact List.map_congr_left fun c _ => Fv c
            · intro c hc
              obtain ⟨c', hc', rfl⟩ := List.mem_map.1 hc
              obtain ⟨o1, o2⟩ := hgr.origs c' hc'
              rw [hF]
              dsimp only
              split_ifs
              · refine ⟨List.nodup_dedup _, fun o ho => ?_⟩
                rcases List.mem_append.1 (List.mem_dedup.1 ho) with ho | ho
                · exact o2 o ho
                · exact hocs o ho
              · exact ⟨o1, o2⟩
          · simp only [Option.toList_none, List.append_nil]
            refine (hcells.map F).trans ?_
            rw [List.nil_append, List.map_append]
            refine List.Perm.append_left _ (List.Perm.of_eq ?_)
            conv_rhs => rw [← List.map_id ((g1 ++ g2).flatMap Prod.snd)]
            refine List.map_congr_left fun c hc => ?_
            obtain ⟨g', hg', hc⟩ := List.mem_flatMap.1 hc
            rw [hF]
            dsimp only
            rw [if_neg]
            · rfl
            · rw [meets_iff]
              rintro ⟨o, h1, h2⟩
              exact n3 o (hocs o h2) o (List.mem_flatMap.2 ⟨g', hg', ((hgs' g' hg').origs c hc).2 o h1⟩) rfl
        | cons m ms =>
          have hg2 : Grp (G₀ ++ g.1) ([m] ++ (toAdd ++ ms) ++ (done ++ (m1 ++ m2))) := by
            refine hgr.perm ?_
            simp only [List.cons_append, List.append_assoc, List.nil_append]
            refine List.Perm.cons _ ?_
            rw [← List.append_assoc, ← List.append_assoc toAdd]
            exact List.Perm.append_right _ List.perm_append_comm
          obtain ⟨r, cells', ann', toAdd', e1, e2, G₀', Gs', done', e3, e4⟩ := ih m (cells.erase other) vis ann (toAdd ++ ms)
            (G₀ ++ g.1) (g1 ++ g2) (done ++ (m1 ++ m2)) ⟨hg2, List.mem_append_left _ hA.mem, hgs', hcells, nall, sall, hap'⟩ hverase
          exact ⟨r, cells', ann', toAdd', e1, e2, G₀', Gs', done', e3, e4.trans pall⟩

theorem addLoop_act {o : Orders V} (ho : o.Valid) {a₀ : List V} (n : ℕ) :
    ∀ (toAdd cells : List (Cell V)) (ann : List (List V)) (G₀ : List (List V)) (Gs : List (List (List V) × List (Cell V)))
      (done : List (Cell V)), Act cs a₀ [] toAdd cells G₀ Gs done →
      addLoop o n toAdd cells ann ≠ .error .assertion ∧ QuietLoop o n toAdd cells ann ∧
      ∀ cells' ann', addLoop o n toAdd cells ann = .ok (cells', ann') → ∃ G₀' Gs' done', Act cs a₀ [] [] cells' G₀' Gs' done' ∧
        (G₀' ++ Gs'.flatMap Prod.fst).Perm (G₀ ++ Gs.flatMap Prod.fst) := by
  induction n with
  | zero =>
    intro toAdd cells ann G₀ Gs done hA
    by_cases ht : toAdd = []
    · subst ht
      rw [addLoop_nil]
      refine ⟨by simp, trivial, ?_⟩
      intro cells' ann' h
      cases h
      exact ⟨G₀, Gs, done, hA, List.Perm.refl _⟩
    · have : addLoop o 0 toAdd cells ann = .error (.other 0) := by
        rw [addLoop.eq_def]
        dsimp only
        rw [dif_neg ht]
      rw [this]
      refine ⟨by simp, trivial, ?_⟩
      intro cells' ann' h
      cases h
  | succ n ih =>
    intro toAdd cells ann G₀ Gs done hA
    by_cases ht : toAdd = []
    · subst ht
      rw [addLoop_nil]
      refine ⟨by simp, by simp [QuietLoop], ?_⟩
      intro cells' ann' h
      cases h
      exact ⟨G₀, Gs, done, hA, List.Perm.refl _⟩
    · have hA' : Act cs a₀ [toAdd.getLast ht] toAdd.dropLast cells G₀ Gs done := by
        refine ⟨hA.grp.perm ?_, hA.mem, hA.grps, hA.cells, hA.nodup, hA.sub, hA.apart⟩
        refine List.Perm.append_right _ ?_
        rw [List.nil_append]
        conv_lhs => rw [← List.dropLast_append_getLast ht]
        exact List.perm_append_comm
      obtain ⟨r, cells', ann', toAdd', e1, e2, G₀', Gs', done', e3, e4⟩ := mergeLoop_act hP (ho.pick n) (o.order n cells) _ cells []
        ann toAdd.dropLast G₀ Gs done hA' (by simpa using (ho.order n cells).symm)
      obtain ⟨i1, i2, i3⟩ := ih toAdd' (cells' ++ r.toList) ann' G₀' Gs' done' e3
      rw [addLoop_step ht e1]
      refine ⟨i1, ?_, ?_⟩
      · rw [QuietLoop, dif_neg ht, e1]
        exact ⟨e2, i2⟩
      · intro c a h
        obtain ⟨x, y, z, h1, h2⟩ := i3 c a h
        exact ⟨x, y, z, h1, h2.trans e4⟩

end

theorem pair_of {α : Type*} {R : α → α → Prop} (hR : ∀ a b, R a b → R b a) {l : List α} (h : l.Pairwise R) {a b : α} (ha : a ∈ l)
    (hb : b ∈ l) (hne : a ≠ b) : R a b := by
  induction l with
  | nil => cases ha
  | cons c l ih =>
    obtain ⟨h1, h2⟩ := List.pairwise_cons.1 h
    rcases List.mem_cons.1 ha with ea | ha' <;> rcases List.mem_cons.1 hb with eb | hb'
    · exact absurd (ea.trans eb.symm) hne
    · rw [ea]; exact h1 b hb'
    · rw [eb]; exact hR _ _ (h1 a ha')
    · exact ih h2 ha' hb'

/-- The state of the merger between additions. -/
structure Sorted (cs : List (List V)) (s : Merger V) (Gs : List (List (List V) × List (Cell V))) : Prop where
  grps : ∀ g ∈ Gs, Grp g.1 g.2
  cells : s.cells.Perm (Gs.flatMap Prod.snd)
  all : (Gs.flatMap Prod.fst).Perm s.original
  nodup : s.original.Nodup
  sub : ∀ c ∈ s.original, c ∈ cs
  separate : Separate s.cells

section
variable {all cs : List (List V)} {w : List V → V × V → ℤ} (hP : Plane all cs w)
include hP

theorem Sorted.apart {s : Merger V} {Gs : List (List (List V) × List (Cell V))} (h : Sorted cs s Gs) :
    ∀ g ∈ Gs, ∀ d ∈ g.1, ∀ c ∈ Gs.flatMap Prod.fst, Adjacent c d → c ∈ g.1 := by
  intro g hg d hd c hc had
  obtain ⟨g', hg', hcg⟩ := List.mem_flatMap.1 hc
  obtain ⟨u, v, hu, hv⟩ := had
  by_contra hcon
  have sub : ∀ g ∈ Gs, ∀ c ∈ g.1, c ∈ all := fun g hg c hc => hP.sub c (h.sub c (h.all.mem_iff.1 (List.mem_flatMap.2 ⟨g, hg, hc⟩)))
  have m1 : (u, v) ∉ allEdges g.1 := by
    intro hm
    obtain ⟨b, hb, hub⟩ := List.mem_flatMap.1 hm
    exact hcon (hP.cell_eq (sub g' hg' c hcg) (sub g hg b hb) hu hub ▸ hb)
  have m2 : (v, u) ∉ allEdges g'.1 := by
    intro hm
    obtain ⟨b, hb, hvb⟩ := List.mem_flatMap.1 hm
    have hbd := hP.cell_eq (sub g' hg' b hb) (sub g hg d hd) hvb hv
    subst hbd
    have hn := h.all.nodup_iff.2 h.nodup
    have hgg : g = g' := by
      by_contra hne
      obtain ⟨_, hn2⟩ := List.nodup_flatMap.1 hn
      have := pair_of (fun a b hab => List.Disjoint.symm hab) hn2 hg hg' hne
      exact this hd hb
    exact hcon (hgg ▸ hcg)
  obtain ⟨x, hx, hxe⟩ := (h.grps g' hg').find (List.mem_flatMap.2 ⟨c, hcg, hu⟩) m2
  obtain ⟨y, hy, hye⟩ := (h.grps g hg).find (List.mem_flatMap.2 ⟨d, hd, hv⟩) m1
  have hne : x ≠ y := by
    rintro rfl
    exact m1 ((h.grps g hg).mem hy hxe).1
  have hs : s.cells.Pairwise fun a b => NoOpp a.edges b.edges := h.separate
  exact pair_of (fun a b hab => NoOpp.symm hab) hs (h.cells.mem_iff.2 (List.mem_flatMap.2 ⟨g', hg', hx⟩))
    (h.cells.mem_iff.2 (List.mem_flatMap.2 ⟨g, hg, hy⟩)) hne _ hxe hye

omit hP in
theorem Sorted.edges {s : Merger V} {Gs : List (List (List V) × List (Cell V))} (h : Sorted cs s Gs) :
    ∃ B, B.Sublist (allEdges (Gs.flatMap Prod.fst)) ∧ (cellsEdges s.cells).Perm B := by
  have key : ∀ Gs : List (List (List V) × List (Cell V)), (∀ g ∈ Gs, Grp g.1 g.2) →
      ∃ B, B.Sublist (allEdges (Gs.flatMap Prod.fst)) ∧ (cellsEdges (Gs.flatMap Prod.snd)).Perm B := by
    intro Gs
    induction Gs with
    | nil => intro _; exact ⟨[], by simp, by simp [cellsEdges]⟩
    | cons g Gs ih =>
      intro hg
      obtain ⟨B, b1, b2⟩ := ih fun g' hg' => hg g' (List.mem_cons_of_mem _ hg')
      refine ⟨border g.1 ++ B, ?_, ?_⟩
      · rw [List.flatMap_cons]
        have : allEdges (g.1 ++ Gs.flatMap Prod.fst) = allEdges g.1 ++ allEdges (Gs.flatMap Prod.fst) := by
          unfold allEdges; rw [List.flatMap_append]
        rw [this]
        exact List.Sublist.append List.filter_sublist b1
      · rw [List.flatMap_cons, cellsEdges_append]
        exact (hg g List.mem_cons_self).edges.append b2
  obtain ⟨B, b1, b2⟩ := key Gs h.grps
  exact ⟨B, b1, (cellsEdges_perm h.cells).trans b2⟩

theorem addCell_sorted {o : Orders V} (ho : o.Valid) {fuel : ℕ} {s : Merger V} {Gs : List (List (List V) × List (Cell V))}
    (h : Sorted cs s Gs) {a : List V} (ha : a ∈ cs) (hns : a ∉ s.original)
    (hf : ((allEdges (a :: s.original)).length + 1) * ((allEdges (a :: s.original)).length + 1) ≤ fuel) :
    QuietLoop o fuel [⟨a, [a]⟩] s.cells s.annihilated ∧
    ∃ s' Gs', addCell o fuel s a = .ok s' ∧ s'.original = s.original ++ [a] ∧ Sorted cs s' Gs' := by
  have haA := hP.sub a ha
  have hb : border [a] = polyEdges a := by
    unfold border
    have : allEdges [a] = polyEdges a := by simp [allEdges]
    rw [this]
    refine List.filter_eq_self.2 ?_
    intro e he
    simp only [decide_eq_true_eq]
    exact fun hc => hP.self a haA ⟨e.1, e.2, he, hc⟩
  have hA : Act cs a [] [⟨a, [a]⟩] s.cells [a] Gs [] := by
    refine ⟨⟨by simp, linked_one a, ?_, ?_, ?_⟩, by simp, h.grps, by simpa using h.cells, ?_, ?_, ?_⟩
    · intro c hc
      rw [show c = ⟨a, [a]⟩ by simpa using hc]
      exact hP.ne a haA
    · rw [hb]
      simp [cellsEdges]
    · intro c hc
      rw [show c = ⟨a, [a]⟩ by simpa using hc]
      simp
    · rw [List.singleton_append, List.nodup_cons]
      exact ⟨fun hc => hns (h.all.mem_iff.1 hc), h.all.nodup_iff.2 h.nodup⟩
    · intro c hc
      rcases List.mem_append.1 hc with hc | hc
      · rw [List.mem_singleton.1 hc]
        exact ha
      · exact h.sub c (h.all.mem_iff.1 hc)
    · intro g hg d hd c hc hne had
      rcases List.mem_append.1 hc with hc | hc
      · exact absurd (List.mem_singleton.1 hc) hne
      · exact Sorted.apart hP h g hg d hd c hc had
  obtain ⟨l1, l2, l3⟩ := addLoop_act hP ho fuel [⟨a, [a]⟩] s.cells s.annihilated [a] Gs [] hA
  refine ⟨l2, ?_⟩
  obtain ⟨B, b1, b2⟩ := Sorted.edges h
  have pall : (allEdges (Gs.flatMap Prod.fst)).Perm (allEdges s.original) := h.all.flatMap_right _
  have nall : (allEdges (a :: s.original)).Nodup := hP.edges (List.nodup_cons.2 ⟨hns, h.nodup⟩) (by
    intro c hc
    rcases List.mem_cons.1 hc with rfl | hc
    · exact ha
    · exact h.sub c hc)
  have sp : ∃ B', B'.Sublist (allEdges (a :: Gs.flatMap Prod.fst)) ∧
      (cellsEdges [⟨a, [a]⟩] ++ cellsEdges s.cells : List (V × V)).Perm B' := by
    refine ⟨polyEdges a ++ B, ?_, ?_⟩
    · have : allEdges (a :: Gs.flatMap Prod.fst) = polyEdges a ++ allEdges (Gs.flatMap Prod.fst) := by simp [allEdges]
      rw [this]
      exact List.Sublist.append_left b1 _
    · refine List.Perm.append ?_ b2
      simp [cellsEdges]
  obtain ⟨B', b1', b2'⟩ := sp
  have pall' : (allEdges (a :: Gs.flatMap Prod.fst)).Perm (allEdges (a :: s.original)) := (h.all.cons a).flatMap_right _
  have hlen : (cellsEdges [⟨a, [a]⟩] ++ cellsEdges s.cells : List (V × V)).length ≤ (allEdges (a :: s.original)).length := by
    rw [b2'.length_eq, ← pall'.length_eq]
    exact b1'.length_le
  rcases addLoop_spec ho (allEdges (a :: s.original)).length fuel [⟨a, [a]⟩] s.cells s.annihilated
    (b2'.nodup_iff.2 ((pall'.nodup_iff.2 nall).sublist b1')) h.separate hlen (by
      simp only [List.length_singleton]
      nlinarith) with hc | ⟨cells', ann', e1, e2, _⟩
  · exact absurd hc l1
  · obtain ⟨G₀', Gs', done', hA', p⟩ := l3 cells' ann' e1
    refine ⟨⟨cells', s.original ++ [a], ann'⟩, (G₀', done') :: Gs', ?_, rfl, ⟨?_, ?_, ?_, ?_, ?_, e2⟩⟩
    · rw [addCell, if_neg hns, e1]
      rfl
    · intro g hg
      rcases List.mem_cons.1 hg with rfl | hg
      · simpa using hA'.grp
      · exact hA'.grps g hg
    · rw [List.flatMap_cons]
      exact hA'.cells
    · rw [List.flatMap_cons]
      refine p.trans ?_
      refine List.perm_append_comm.trans ?_
      exact h.all.append_right _
    · rw [List.nodup_append]
      refine ⟨h.nodup, by simp, ?_⟩
      rintro c hc d hd rfl
      exact hns (List.mem_singleton.1 hd ▸ hc)
    · intro c hc
      rcases List.mem_append.1 hc with hc | hc
      · exact h.sub c hc
      · rw [List.mem_singleton.1 hc]
        exact ha

theorem addCells_sorted (runs : List (Orders V × ℕ × List V)) : ∀ (s : Merger V) (Gs : List (List (List V) × List (Cell V))),
    Sorted cs s Gs → (s.original ++ runs.map fun r => r.2.2).Nodup → (∀ r ∈ runs, r.2.2 ∈ cs) →
    (∀ r ∈ runs, r.1.Valid ∧ ((allEdges cs).length + 1) * ((allEdges cs).length + 1) ≤ r.2.1) →
    QuietRuns s runs ∧ ∃ s' Gs', addCells s runs = .ok s' ∧ s'.original = s.original ++ (runs.map fun r => r.2.2) ∧ Sorted cs s' Gs' := by
  induction runs with
  | nil =>
    intro s Gs h _ _ _
    exact ⟨trivial, s, Gs, rfl, by simp, h⟩
  | cons r runs ih =>
    obtain ⟨o, fuel, c⟩ := r
    intro s Gs h hn hs hr
    have hns : c ∉ s.original := by
      intro hc
      rw [List.nodup_append] at hn
      exact hn.2.2 c hc c (by simp) rfl
    have hcs : c ∈ cs := hs _ List.mem_cons_self
    obtain ⟨hv, hfuel⟩ := hr _ List.mem_cons_self
    have hlen : (allEdges (c :: s.original)).length ≤ (allEdges cs).length := by
      have hnd : (c :: s.original).Nodup := List.nodup_cons.2 ⟨hns, h.nodup⟩
      have hsub : ∀ x ∈ c :: s.original, x ∈ cs := by
        intro x hx
        rcases List.mem_cons.1 hx with rfl | hx
        · exact hcs
        · exact h.sub x hx
      refine List.Subperm.length_le ?_
      exact List.subperm_of_subset (hP.edges hnd hsub) fun e he => by
        obtain ⟨x, hx, he⟩ := List.mem_flatMap.1 he
        exact List.mem_flatMap.2 ⟨x, hsub x hx, he⟩
    obtain ⟨q, s', Gs', e1, e2, e3⟩ := addCell_sorted hP hv h hcs hns (le_trans (Nat.mul_le_mul (by omega) (by omega)) hfuel)
    obtain ⟨q', s'', Gs'', f1, f2, f3⟩ := ih s' Gs' e3 (by rw [e2]; simpa using hn) (fun r hr' => hs r (List.mem_cons_of_mem _ hr'))
      (fun r hr' => hr r (List.mem_cons_of_mem _ hr'))
    refine ⟨⟨q, ?_⟩, s'', Gs'', ?_, ?_, f3⟩
    · intro t ht
      rw [e1] at ht
      cases ht
      exact q'
    · rw [addCells]
      show (addCell o fuel s c >>= _) = _
      rw [e1]
      exact f1
    · rw [f2, e2]
      simp

/-- Adding the cells of a net in the plane never raises, and afterwards every group is kept as the loops of its border. -/
theorem merger_sorted (runs : List (Orders V × ℕ × List V)) (hcs : (runs.map fun r => r.2.2).Perm cs)
    (hr : ∀ r ∈ runs, r.1.Valid ∧ ((allEdges cs).length + 1) * ((allEdges cs).length + 1) ≤ r.2.1) :
    ∃ s Gs, addCells Merger.empty runs = .ok s ∧ s.original = (runs.map fun r => r.2.2) ∧ Sorted cs s Gs ∧
      getCellsOriginals s = .ok (s.cells.map fun c => (c.vertices, c.origs)) := by
  obtain ⟨q, s, Gs, e1, e2, e3⟩ := addCells_sorted hP runs Merger.empty []
    ⟨by simp, by simp [Merger.empty], by simp [Merger.empty], by simp [Merger.empty], by simp [Merger.empty], by simp [Separate, Merger.empty]⟩
    (by simpa [Merger.empty] using hcs.nodup_iff.2 hP.list) (fun r hr => hcs.mem_iff.1 (List.mem_map_of_mem hr)) hr
  refine ⟨s, Gs, e1, by simpa [Merger.empty] using e2, e3, ?_⟩
  unfold getCellsOriginals
  rw [c29_check_partial runs (fun r hr' => (hr r hr').1) q e1]
  rfl

/-- If no loop along edges of the cells goes around another cell of the net, every group has one loop. -/
theorem Sorted.one {s : Merger V} {Gs : List (List (List V) × List (Cell V))} (h : Sorted cs s Gs) (ho : s.original.Perm cs)
    (hout : ∀ l, (∀ e ∈ polyEdges l, e ∈ allEdges cs) → ∀ c ∈ all, c ∉ cs → turn w l c = 0) :
    ∀ g ∈ Gs, ∃ x, g.2 = [x] := by
  intro g hg
  have hG := h.grps g hg
  have gsub : ∀ c ∈ g.1, c ∈ cs := fun c hc => h.sub c (h.all.mem_iff.1 (List.mem_flatMap.2 ⟨g, hg, hc⟩))
  have hn : g.1.Nodup := (List.nodup_flatMap.1 (h.all.nodup_iff.2 h.nodup)).1 g hg
  obtain ⟨c, hc⟩ := List.exists_mem_of_ne_nil _ hG.some
  have key : ∀ x ∈ g.2, turn w x.vertices c = -1 := by
    intro x hx
    obtain ⟨e, he⟩ := poly_edge (hG.ne x hx)
    obtain ⟨m1, m2⟩ := hG.mem hx he
    obtain ⟨b, hb, heb⟩ := List.mem_flatMap.1 (hP.every e (allEdges_all hP gsub m1))
    obtain ⟨a, ha, hea⟩ := List.mem_flatMap.1 m1
    have hbn : b ∉ cs := by
      intro hbc
      have hbm : b ∈ Gs.flatMap Prod.fst := h.all.mem_iff.2 (ho.mem_iff.2 hbc)
      have := Sorted.apart hP h g hg a ha b hbm ⟨e.2, e.1, heb, hea⟩
      exact m2 (List.mem_flatMap.2 ⟨b, this, heb⟩)
    have h1 := (hP.step hn gsub hG hx hc).2 e he b hb heb
    have h2 := hout x.vertices (fun e he => by
      obtain ⟨a, ha, hea⟩ := List.mem_flatMap.1 (hG.mem hx he).1
      exact List.mem_flatMap.2 ⟨a, gsub a ha, hea⟩) b hb hbn
    omega
  have ht := hP.total hn gsub hG (hP.sub c (gsub c hc))
  rw [if_pos hc, List.map_congr_left key] at ht
  have hl : g.2.length = 1 := by
    simp at ht
    omega
  exact List.length_eq_one_iff.1 hl

end

end Ply.CellMerger
