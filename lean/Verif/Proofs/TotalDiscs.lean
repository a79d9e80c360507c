import Verif.Proofs.TotalOp
import Verif.Proofs.MergeDiscs

/-!
# Polygons are made from groups of cells with one ring as their border
-/

namespace Ply.CellMerger

variable {V : Type} [DecidableEq V]

/-- Edges used both ways cancel out. -/
theorem border_sum {G : Type*} [AddCommGroup G] (hG : ∀ x : G, x = -x → x = 0) (f : V × V → G) (hf : ∀ e, f (opp e) = -f e)
    {F : List (List V)} (h : (allEdges F).Nodup) : ((border F).map f).sum = ((allEdges F).map f).sum := by
  set I := (allEdges F).filter fun e => !decide (opp e ∉ allEdges F) with hI
  have hp : (border F ++ I).Perm (allEdges F) := List.filter_append_perm _ _
  have hm : ∀ e, e ∈ I ↔ e ∈ allEdges F ∧ opp e ∈ allEdges F := by
    intro e
    rw [hI, List.mem_filter]
    simp
  have hn : I.Nodup := h.filter _
  have hself : (I.map opp).Perm I := by
    rw [List.perm_ext_iff_of_nodup (hn.map fun x y h => opp_inj.1 h) hn]
    intro e
    rw [List.mem_map, hm]
    constructor
    · rintro ⟨x, hx, rfl⟩
      rw [opp_opp]
      exact ((hm x).1 hx).symm
    · intro he
      exact ⟨opp e, (hm _).2 ⟨he.2, by rw [opp_opp]; exact he.1⟩, opp_opp e⟩
  have h0 : (I.map f).sum = 0 := by
    apply hG
    have h1 := (hself.map f).sum_eq
    rw [List.map_map] at h1
    have key : ∀ D : List (V × V), (D.map (f ∘ opp)).sum = - (D.map f).sum := by
      intro D
      induction D with
      | nil => simp
      | cons d D ih =>
        rw [List.map_cons, List.map_cons, List.sum_cons, List.sum_cons, ih, neg_add]
        simp only [Function.comp, hf]
    rw [key] at h1
    exact h1.symm
  rw [← (hp.map f).sum_eq, List.map_append, List.sum_append, h0, add_zero]

end Ply.CellMerger

namespace Ply.Arr

open CellMerger Nest

theorem group_shoelace {F : List (List Pt)} (h : (allEdges F).Nodup) {v : List Pt} (hv : (polyEdges v).Perm (border F)) :
    shoelace v = (F.map shoelace).sum := by
  have h1 := border_sum (fun x hx => by linarith) (fun e : Pt × Pt => cross e.1 e.2) (by
    intro e; unfold cross opp; ring) h
  have key : ∀ F : List (List Pt), ((allEdges F).map fun e => cross e.1 e.2).sum = 2 * (F.map shoelace).sum := by
    intro F
    induction F with
    | nil => simp [allEdges]
    | cons c F ih =>
      have e : (allEdges (c :: F)).map (fun e => cross e.1 e.2) = (polyEdges c).map (fun e => cross e.1 e.2) ++
        (allEdges F).map fun e => cross e.1 e.2 := by simp [allEdges]
      rw [e, List.sum_append, ih, List.map_cons, List.sum_cons]
      have : ((polyEdges c).map fun e => cross e.1 e.2).sum = 2 * shoelace c := by unfold shoelace; ring
      rw [this]
      ring
  rw [key] at h1
  unfold shoelace at h1 ⊢
  rw [(hv.map _).sum_eq]
  linarith

theorem group_winding {F : List (List Pt)} (h : (allEdges F).Nodup) {v : List Pt} (hv : (polyEdges v).Perm (border F)) (p : Pt) :
    windingNumber v p = (F.map fun c => windingNumber c p).sum := by
  have h1 := border_sum (fun x hx => by omega) (fun e : Pt × Pt => crossing p e.1 e.2) (by
    intro e
    have ho : orient e.2 e.1 p = - orient e.1 e.2 p := by simp only [orient]; ring
    simp only [crossing, opp, ho, Left.neg_pos_iff, Left.neg_neg_iff]
    split_ifs <;> first | rfl | (exfalso; rename_i h1 h2; linarith [h1.1, h1.2.1, h2.1, h2.2.1])) h
  have key : ∀ cs : List (List Pt), (cs.map fun c => windingNumber c p).sum =
      ((allEdges cs).map fun e => crossing p e.1 e.2).sum := by
    intro cs
    induction cs with
    | nil => simp [allEdges]
    | cons c cs ih =>
      rw [List.map_cons, List.sum_cons, ih]
      simp only [allEdges, List.flatMap_cons, List.map_append, List.sum_append, windingNumber]
  rw [key, ← h1]
  unfold windingNumber
  exact (hv.map _).sum_eq

theorem splitSign_pos (l : List (List Pt × List (List Pt))) (h : ∀ c ∈ l, c.1 ≠ [] ∧ shoelace c.1 < 0) :
    splitSign l = .ok (l, []) := by
  induction l with
  | nil => rfl
  | cons c L ih =>
    obtain ⟨h1, h2⟩ := h c List.mem_cons_self
    rw [splitSign]
    rw [area_eq_shoelace c.1 h1]
    show (ensure (-shoelace c.1 ≠ 0) >>= _) = _
    rw [ensure_pos (neg_ne_zero.2 h2.ne)]
    show (splitSign L >>= _) = _
    rw [ih fun c hc => h c (List.mem_cons_of_mem _ hc)]
    show Except.ok (if -shoelace c.1 > 0 then _ else _) = _
    rw [if_pos (by linarith)]

theorem posOriginals1_new (p : List Pt) (os : List (List Pt)) : ∀ m : List (List Pt × List Pt), os.Nodup →
    (∀ x ∈ m, x.1 ∉ os) → posOriginals1 p os m = .ok (m ++ os.map fun o => (o, p)) := by
  induction os with
  | nil => intro m _ _; simp [posOriginals1]
  | cons o os ih =>
    intro m hn hm
    rw [posOriginals1, ensure_pos]
    · show posOriginals1 p os (m ++ [(o, p)]) = _
      rw [ih _ (List.nodup_cons.1 hn).2]
      · simp
      · intro x hx
        rcases List.mem_append.1 hx with hx | hx
        · exact fun h => hm x hx (List.mem_cons_of_mem _ h)
        · rw [List.mem_singleton.1 hx]
          exact (List.nodup_cons.1 hn).1
    · rw [List.all_eq_true]
      intro x hx
      simp only [decide_eq_true_eq]
      exact fun e => hm x hx (e ▸ List.mem_cons_self)

theorem posOriginals_new (l : List (List Pt × List (List Pt))) : ∀ m : List (List Pt × List Pt), (l.flatMap Prod.snd).Nodup →
    (∀ x ∈ m, x.1 ∉ l.flatMap Prod.snd) → ∃ m', posOriginals l m = .ok m' := by
  induction l with
  | nil => exact fun m _ _ => ⟨m, rfl⟩
  | cons c l ih =>
    intro m hn hm
    rw [List.flatMap_cons] at hn hm
    obtain ⟨n1, n2, n3⟩ := List.nodup_append.1 hn
    rw [posOriginals, posOriginals1_new c.1 c.2 m n1 fun x hx h => hm x hx (List.mem_append_left _ h)]
    refine ih _ n2 ?_
    intro x hx h
    rcases List.mem_append.1 hx with hx | hx
    · exact hm x hx (List.mem_append_right _ h)
    · obtain ⟨o, ho, rfl⟩ := List.mem_map.1 hx
      exact n3 o ho o h rfl

theorem makePolys_outer (ch : Choices) (pn : List (List Pt × List Pt)) (P : List (List Pt)) (r : Geom2D) (h : makePolys ch pn P = .ok r) :
    r.map SPWH.outer = P := by
  induction P generalizing r with
  | nil => cases h; rfl
  | cons p P ih =>
    rw [makePolys] at h
    obtain ⟨s, h1, h⟩ := (bind_ok _ _ _).1 h
    obtain ⟨r', h2, h⟩ := (bind_ok _ _ _).1 h
    cases h
    rw [List.map_cons, ih r' h2, ((SPWH.mk'_iff _ _ _).1 h1).1]

/-- The polygons have no holes and their outlines are the borders of linked groups of the cells. -/
def Groups (sel : List (List Pt)) (r : Geom2D) : Prop :=
  (∀ s ∈ r, s.holes = []) ∧ ∃ Gs : List (List Pt × List (List Pt)), Gs.map Prod.fst = r.map SPWH.outer ∧
    (Gs.flatMap Prod.snd).Perm sel ∧
    ∀ x ∈ Gs, x.2 ≠ [] ∧ CellMerger.Linked x.2 ∧ (polyEdges x.1).Perm (border x.2)

theorem polyCells_discs (ch : Choices) (hch : ch.Valid) {A : Arrangement} (hB : BuildOK A) (hF : Full A) (S : Pt → Bool)
    (hface : ∀ p q, ¬ OnAny A.net.halfEdges p → ¬ OnAny A.net.halfEdges q → SameFace A.net.halfEdges p q → S p = S q)
    (hfar : ∃ M : ℚ, ∀ q : Pt, M < q.1 → S q = false) (sel : List (List Pt))
    (hsel : sel = (A.cells.filter fun c => S c.point).map Cell1.vertices) (hdisc : Discs sel)
    (hpos : ∀ c ∈ sel, shoelace c < 0) :
    ∃ r, polyCells ch A sel = .ok r ∧ Groups sel r ∧
      ∀ c ∈ A.cells, Geom2D.locate r c.point = .ok (if S c.point then 1 else -1) := by
  classical
  have hN := nested hF.wheel hF.tiling
  set cs := ch.cells sel with hcs
  set n := (cs.map List.length).sum with hn
  set runs := cs.zipIdx.map fun c => (ch.merger c.2, (n + 1) * (n + 1), c.1) with hruns
  have hperm : cs.Perm sel := hch.cells sel
  have hrun : (runs.map fun r => r.2.2) = cs := by
    rw [hruns, List.map_map]
    have : ((fun r : Orders Pt × ℕ × List Pt => r.2.2) ∘ fun c : List Pt × ℕ =>
        (ch.merger c.2, (n + 1) * (n + 1), c.1)) = Prod.fst := rfl
    rw [this, List.zipIdx_map_fst]
  have hdisc' : Discs cs := by
    refine ⟨fun c hc => hdisc.ne c (hperm.mem_iff.1 hc), hperm.nodup_iff.2 hdisc.list,
      ((hperm.flatMap_right _).nodup_iff.2 hdisc.nodup), fun c hc => hdisc.self c (hperm.mem_iff.1 hc), ?_⟩
    exact fun F h1 h2 h3 h4 => hdisc.ring F h1 h2 (fun c hc => hperm.mem_iff.1 (h3 c hc)) h4
  obtain ⟨s, e1, hG, e3⟩ := merger_groups runs (by rw [hrun]; exact hdisc'.fusing) (by
    intro r hr
    rw [hruns] at hr
    obtain ⟨c, _, rfl⟩ := List.mem_map.1 hr
    exact ⟨hch.merger _, by positivity⟩)
  rw [hrun] at hG
  have horig : (s.cells.flatMap Cell.origs).Perm sel := hG.origs.trans hperm
  have hond : (s.cells.flatMap Cell.origs).Nodup := horig.nodup_iff.2 hdisc.list
  have hosub : ∀ g ∈ s.cells, ∀ c ∈ g.origs, c ∈ sel := fun g hg c hc =>
    horig.mem_iff.1 (List.mem_flatMap.2 ⟨g, hg, hc⟩)
  have hoed : ∀ g ∈ s.cells, (allEdges g.origs).Nodup := by
    intro g hg
    refine edges_sub_nodup hdisc.nodup ?_ (hosub g hg)
    exact (List.nodup_flatMap.1 hond).1 g hg
  have hneg : ∀ g ∈ s.cells, shoelace g.vertices < 0 := by
    intro g hg
    rw [group_shoelace (hoed g hg) (hG.cells g hg).edges]
    have key : ∀ l : List (List Pt), l ≠ [] → (∀ c ∈ l, shoelace c < 0) → (l.map shoelace).sum < 0 := by
      intro l
      induction l with
      | nil => intro h; exact absurd rfl h
      | cons a l ih =>
        intro _ h
        rw [List.map_cons, List.sum_cons]
        have h1 := h a List.mem_cons_self
        rcases eq_or_ne l [] with rfl | hl
        · simpa using h1
        · have := ih hl fun c hc => h c (List.mem_cons_of_mem _ hc)
          linarith
    exact key _ (hG.cells g hg).some fun c hc => hpos c (hosub g hg c hc)
  set co := s.cells.map fun c => (c.vertices, c.origs) with hco
  have hcom : (ch.merged co).Perm co := hch.merged co
  have hin : ∀ x ∈ ch.merged co, ∃ g ∈ s.cells, x = (g.vertices, g.origs) := by
    intro x hx
    obtain ⟨g, hg, rfl⟩ := List.mem_map.1 (hcom.mem_iff.1 hx)
    exact ⟨g, hg, rfl⟩
  have hsubE : ∀ e ∈ allEdges sel, e ∈ A.net.halfEdges := by
    intro e he
    refine hB.sub e ?_
    obtain ⟨v, hv, he⟩ := List.mem_flatMap.1 he
    rw [hsel] at hv
    obtain ⟨d, hd, rfl⟩ := List.mem_map.1 hv
    exact List.mem_flatMap.2 ⟨_, List.mem_map_of_mem (List.mem_filter.1 hd).1, he⟩
  have hgE : ∀ g ∈ s.cells, ∀ e ∈ polyEdges g.vertices, e ∈ allEdges sel := by
    intro g hg e he
    have := (mem_border.1 ((hG.cells g hg).edges.mem_iff.1 he)).1
    obtain ⟨v, hv, he⟩ := List.mem_flatMap.1 this
    exact List.mem_flatMap.2 ⟨v, hosub g hg v hv, he⟩
  obtain ⟨m, hm⟩ := posOriginals_new (ch.merged co) [] (by
    have : ((ch.merged co).flatMap Prod.snd).Perm (s.cells.flatMap Cell.origs) := by
      refine (hcom.flatMap_right _).trans ?_
      rw [hco, List.flatMap_map]
    exact this.nodup_iff.2 hond) (by simp)
  obtain ⟨r, r1, r2, r3⟩ := makePolys_ok ch hch [] ((ch.merged co).map Prod.fst) (by
    intro p hp
    obtain ⟨x, hx, rfl⟩ := List.mem_map.1 hp
    obtain ⟨g, hg, rfl⟩ := hin x hx
    exact ⟨fun e he => hB.planar.ne e (hsubE e (hgE g hg e he)), hneg g hg⟩) (by simp)
  have hpoly : polyCells ch A sel = .ok r := by
    unfold polyCells
    show (addCells Merger.empty runs >>= _) = _
    rw [e1]
    show (getCellsOriginals s >>= _) = _
    rw [e3]
    show (splitSign (ch.merged co) >>= _) = _
    rw [splitSign_pos _ (by
      intro x hx
      obtain ⟨g, hg, rfl⟩ := hin x hx
      exact ⟨(hG.cells g hg).ne, hneg g hg⟩)]
    show (posOriginals (ch.merged co) [] >>= _) = _
    rw [hm]
    exact r1
  have hgrp : Groups sel r := by
    refine ⟨fun s hs => ?_, ch.merged co, (makePolys_outer ch _ _ r r1).symm, ?_, ?_⟩
    · rw [List.eq_nil_iff_forall_not_mem]
      intro k hk
      simpa using ((r2 s hs).2 k).1 hk
    · refine ((hcom.flatMap_right _).trans ?_).trans horig
      rw [hco, List.flatMap_map]
    · intro x hx
      obtain ⟨g, hg, rfl⟩ := hin x hx
      exact ⟨(hG.cells g hg).some, (hG.cells g hg).linked, (hG.cells g hg).edges⟩
  refine ⟨r, hpoly, hgrp, fun c hc => ?_⟩
  obtain ⟨hw, hedges⟩ := polyCells_spec ch hch A sel hdisc.nodup r hpoly
  have hcm := List.mem_toFinset.2 (List.mem_map_of_mem (f := Cell1.vertices) hc)
  have hval : ∀ v ∈ sel, windingNumber v c.point = 0 ∨ windingNumber v c.point = -1 := by
    intro v hv
    have hp := hpos v hv
    rw [hsel] at hv
    obtain ⟨d, hd, rfl⟩ := List.mem_map.1 hv
    have hd := (List.mem_filter.1 hd).1
    have := hN.pos_value (List.mem_toFinset.2 (List.mem_map_of_mem (f := Cell1.vertices) hd)) hcm hp
    rw [cellW_pt hF hd hc] at this
    exact this.symm
  have hoff : ∀ s ∈ r, ¬ OnBoundary s.outer c.point ∧ s.holes = [] := by
    intro s hs
    refine ⟨?_, ?_⟩
    · rintro ⟨e, he, hx⟩
      exact hB.off c hc ⟨e, hsubE e ((hedges s hs).1 e he), hx⟩
    · rw [List.eq_nil_iff_forall_not_mem]
      intro k hk
      simpa using ((r2 s hs).2 k).1 hk
  have hgw : ∀ g ∈ s.cells, windingNumber g.vertices c.point = (g.origs.map fun v => windingNumber v c.point).sum :=
    fun g hg => group_winding (hoed g hg) (hG.cells g hg).edges _
  have hle : ∀ l : List (List Pt), (∀ v ∈ l, v ∈ sel) → (l.map fun v => windingNumber v c.point).sum ≤ 0 := by
    intro l
    induction l with
    | nil => intro _; simp
    | cons a l ih =>
      intro h
      rw [List.map_cons, List.sum_cons]
      have h1 := ih fun v hv => h v (List.mem_cons_of_mem _ hv)
      rcases hval a (h a List.mem_cons_self) with h2 | h2 <;> rw [h2] <;> omega
  have hsum : (sel.map fun v => windingNumber v c.point).sum = -(if S c.point = true then 1 else 0) := by
    have h3 := faces_once hB (fun p => S p = true) (fun p q h1 h2 h3 => by rw [hface p q h1 h2 h3]) hfar.choose
      (fun q hq => by rw [hfar.choose_spec q hq]; simp) (hB.off c hc)
    rw [List.filter_congr (q := fun c => S c.point) (fun x _ => by simp)] at h3
    rw [hsel, List.map_map]
    change ((A.cells.filter fun c => S c.point).map fun c_1 => windingNumber c_1.vertices c.point).sum = _
    by_cases hs : S c.point = true
    · rw [if_pos hs] at h3 ⊢; omega
    · rw [if_neg hs] at h3 ⊢; omega
  have htot : (s.cells.map fun g => windingNumber g.vertices c.point).sum = (sel.map fun v => windingNumber v c.point).sum := by
    rw [← (horig.map _).sum_eq]
    have key : ∀ l : List (Cell Pt), (∀ g ∈ l, g ∈ s.cells) → (l.map fun g => windingNumber g.vertices c.point).sum =
        ((l.flatMap Cell.origs).map fun v => windingNumber v c.point).sum := by
      intro l
      induction l with
      | nil => intro _; rfl
      | cons a l ih =>
        intro h
        rw [List.map_cons, List.sum_cons, ih fun g hg => h g (List.mem_cons_of_mem _ hg), hgw a (h a List.mem_cons_self),
          List.flatMap_cons, List.map_append, List.sum_append]
    exact key _ fun _ h => h
  rw [hsum] at htot
  obtain ⟨v, d0, d1, d2, d3⟩ := c31_locate r hw c.point
  rw [d0]
  by_cases hs : S c.point = true
  · rw [if_pos hs] at htot ⊢
    congr 1
    rw [d1]
    obtain ⟨g, hg, hg0⟩ : ∃ g ∈ s.cells, windingNumber g.vertices c.point ≠ 0 := by
      by_contra hcon
      push Not at hcon
      rw [List.map_congr_left hcon] at htot
      simp at htot
    obtain ⟨p, hp, e⟩ := r3 g.vertices (List.mem_map.2 ⟨(g.vertices, g.origs), hcom.mem_iff.2 (List.mem_map_of_mem hg), rfl⟩)
    refine ⟨p, hp, ⟨(hoff p hp).1, by rw [e]; exact hg0⟩, fun k hk => ?_⟩
    rw [(hoff p hp).2] at hk
    cases hk
  · rw [if_neg hs] at htot ⊢
    have hz : ∀ g ∈ s.cells, windingNumber g.vertices c.point = 0 := by
      have key : ∀ l : List ℤ, (∀ x ∈ l, x ≤ 0) → l.sum = 0 → ∀ x ∈ l, x = 0 := by
        intro l
        induction l with
        | nil => intro _ _ x hx; cases hx
        | cons a l ih =>
          intro h h0 x hx
          rw [List.sum_cons] at h0
          have h1 := h a List.mem_cons_self
          have h2 : l.sum ≤ 0 := by
            clear ih h0 hx
            induction l with
            | nil => simp
            | cons b l ih' =>
              rw [List.sum_cons]
              have := h b (by simp)
              have := ih' (fun x hx => h x (by rcases List.mem_cons.1 hx with rfl | hx <;> simp [*]))
              omega
          rcases List.mem_cons.1 hx with rfl | hx
          · omega
          · exact ih (fun x hx => h x (List.mem_cons_of_mem _ hx)) (by omega) x hx
      intro g hg
      refine key (s.cells.map fun g => windingNumber g.vertices c.point) ?_ (by rw [htot]; simp) _ (List.mem_map_of_mem hg)
      intro x hx
      obtain ⟨g, hg, rfl⟩ := List.mem_map.1 hx
      rw [hgw g hg]
      exact hle _ (hosub g hg)
    have hout : ∀ p ∈ r, windingNumber p.outer c.point = 0 := by
      intro p hp
      obtain ⟨x, hx, e⟩ := List.mem_map.1 (r2 p hp).1
      obtain ⟨g, hg, rfl⟩ := hin x hx
      rw [← e]
      exact hz g hg
    have hv1 : v ≠ 1 := by
      rw [ne_eq, d1]
      rintro ⟨p, hp, hin, _⟩
      exact hin.2 (hout p hp)
    have hv0 : v ≠ 0 := by
      rw [ne_eq, d2]
      rintro ⟨_, p, hp, h | ⟨_, pre, k, post, e, _, h⟩⟩
      · exact (hoff p hp).1 h
      · have := (hoff p hp).2
        rw [e] at this
        simp at this
    congr 1
    rw [d3]
    intro p hp
    have hwf := ((SPWH.mk'_iff _ _ _).1 (hw p hp)).2.wf
    rcases p.locate_three hwf.1 hwf.2 c.point with h | h | h
    · exact absurd (d1.2 ⟨p, hp, h.2⟩) hv1
    · exact absurd (d2.2 ⟨fun h' => hv1 (d1.2 h'), p, hp, h.2⟩) hv0
    · exact h.2

/-- An operation whose selected cells make discs does not raise. -/
theorem arrangementOp_discs (ch : Choices) (hch : ch.Valid) (gs : List Geom2D) (op : List Bool → Bool)
    (hop : op (gs.map fun _ => false) = false) (hg : ∀ g ∈ gs, Geom2D.Usable g)
    (hd : ∀ A, build ch (gs.flatMap Geom2D.allSegments) = .ok A → BuildOK A → Full A →
      Discs ((A.cells.filter fun c => chosen gs op c.point).map Cell1.vertices) ∧
      ∀ c ∈ A.cells, chosen gs op c.point = true → shoelace c.vertices < 0) :
    ∃ A r, build ch (gs.flatMap Geom2D.allSegments) = .ok A ∧ BuildOK A ∧ Full A ∧ arrangementOp ch gs op = .ok r ∧
      Groups ((A.cells.filter fun c => chosen gs op c.point).map Cell1.vertices) r := by
  have hm : ∀ g ∈ gs, Geom2D.WellMade g := fun g h => (hg g h).made
  obtain ⟨A, hA, hF⟩ := build_ok hch (loops_geoms gs hm fun g h => (hg g h).cutting)
  obtain ⟨hB, hon⟩ := build_spec ch hch _ (segments_ne gs hm) A hA
  have hin : ∀ g ∈ gs, ∀ x, Geom2D.OnEdge g x → OnAny A.net.halfEdges x := fun g hg' x hx =>
    (hon x).2 ((onAny_flat gs x).2 ⟨g, hg', hx⟩)
  have hoff : ∀ c ∈ A.cells, ∀ g ∈ gs, ¬ Geom2D.OnEdge g c.point := fun c hc g hg' hx => hB.off c hc (hin g hg' _ hx)
  obtain ⟨d1, d2⟩ := hd A hA hB hF
  obtain ⟨r, hr, hgr, hl⟩ := polyCells_discs ch hch hB hF (chosen gs op) (chosen_face op hm hin) (chosen_far hop hm) _ rfl
    d1 (by
      intro c hc
      obtain ⟨x, hx, rfl⟩ := List.mem_map.1 hc
      obtain ⟨x1, x2⟩ := List.mem_filter.1 hx
      exact d2 x x1 x2)
  refine ⟨A, r, hA, hB, hF, ?_, hgr⟩
  unfold arrangementOp
  rw [hA]
  show (selectCells gs op A.cells >>= _) = _
  rw [selectCells_ok gs op hm A.cells hoff]
  show (polyCells ch A _ >>= _) = _
  rw [hr]
  show (checkResult gs op r A.cells >>= _) = _
  rw [checkResult_ok gs op hm r A.cells hoff hl]
  rfl

end Ply.Arr
