import Verif.Proofs.MergeActive

/-!
# Polygons are made from groups of cells that have no holes
-/

namespace Ply.Arr

open CellMerger Nest

theorem polyCells_loops (ch : Choices) (hch : ch.Valid) {A : Arrangement} (hB : BuildOK A) (hF : Full A) (S : Pt → Bool)
    (hface : ∀ p q, ¬ OnAny A.net.halfEdges p → ¬ OnAny A.net.halfEdges q → SameFace A.net.halfEdges p q → S p = S q)
    (hfar : ∃ M : ℚ, ∀ q : Pt, M < q.1 → S q = false) (sel : List (List Pt))
    (hsel : sel = (A.cells.filter fun c => S c.point).map Cell1.vertices) {w : List Pt → Pt × Pt → ℤ}
    (hP : Plane (A.cells.map Cell1.vertices) sel w) (hempty : ∀ l, (∀ e ∈ polyEdges l, e ∈ allEdges sel) →
      ∀ c ∈ A.cells.map Cell1.vertices, c ∉ sel → turn w l c = 0) (hpos : ∀ c ∈ sel, shoelace c < 0) :
    ∃ r, polyCells ch A sel = .ok r ∧ (∀ s ∈ r, s.holes = []) ∧
      ∀ c ∈ A.cells, Geom2D.locate r c.point = .ok (if S c.point then 1 else -1) := by
  classical
  have hN := nested hF.wheel hF.tiling
  set cs := ch.cells sel with hcs
  set n := (cs.map List.length).sum with hn
  set runs := cs.zipIdx.map fun c => (ch.merger c.2, (n + 1) * (n + 1), c.1) with hruns
  have hperm : cs.Perm sel := hch.cells sel
  have hrun : (runs.map fun r => r.2.2) = cs := by
    rw [hruns, List.map_map]
    have : ((fun r : Orders Pt × ℕ × List Pt => r.2.2) ∘ fun c : List Pt × ℕ =>
        (ch.merger c.2, (n + 1) * (n + 1), c.1)) = Prod.fst := rfl
    rw [this, List.zipIdx_map_fst]
  have hselN : (allEdges sel).Nodup := hP.edges hP.list fun _ h => h
  obtain ⟨s, Gs, e1, e2, hS, e3⟩ := merger_sorted hP runs (by rw [hrun]; exact hperm) (by
    intro r hr
    rw [hruns] at hr
    obtain ⟨c, _, rfl⟩ := List.mem_map.1 hr
    refine ⟨hch.merger _, ?_⟩
    have hlen : (allEdges sel).length = n := by
      have hl : (allEdges cs).length = (allEdges sel).length := (hperm.flatMap_right polyEdges).length_eq
      rw [hn, ← hl]
      unfold allEdges
      rw [List.length_flatMap]
      congr 1
      refine List.map_congr_left fun c _ => ?_
      rw [← List.length_map Prod.fst, polyEdges_map_fst]
    rw [hlen])
  rw [hrun] at e2
  have hone := Sorted.one hP hS (by rw [e2]; exact hperm) hempty
  have hfst : (Gs.flatMap Prod.fst).Perm sel := hS.all.trans (by rw [e2]; exact hperm)
  have hfnd : (Gs.flatMap Prod.fst).Nodup := hfst.nodup_iff.2 hP.list
  have hcell : ∀ g ∈ s.cells, ∃ G ∈ Gs, G.2 = [g] := by
    intro g hg
    obtain ⟨G, hG, hgG⟩ := List.mem_flatMap.1 (hS.cells.mem_iff.1 hg)
    obtain ⟨x, hx⟩ := hone G hG
    rw [hx, List.mem_singleton] at hgG
    exact ⟨G, hG, by rw [hx, hgG]⟩
  have hgsub : ∀ G ∈ Gs, ∀ c ∈ G.1, c ∈ sel := fun G hG c hc => hfst.mem_iff.1 (List.mem_flatMap.2 ⟨G, hG, hc⟩)
  have hged : ∀ G ∈ Gs, (allEdges G.1).Nodup := fun G hG =>
    hP.edges ((List.nodup_flatMap.1 hfnd).1 G hG) (hgsub G hG)
  have hbord : ∀ G ∈ Gs, ∀ g, G.2 = [g] → (polyEdges g.vertices).Perm (border G.1) := by
    intro G hG g hg
    have := (hS.grps G hG).edges
    rw [hg] at this
    simpa [cellsEdges] using this
  have hneg : ∀ g ∈ s.cells, shoelace g.vertices < 0 := by
    intro g hg
    obtain ⟨G, hG, hgG⟩ := hcell g hg
    rw [group_shoelace (hged G hG) (hbord G hG g hgG)]
    have key : ∀ l : List (List Pt), l ≠ [] → (∀ c ∈ l, shoelace c < 0) → (l.map shoelace).sum < 0 := by
      intro l
      induction l with
      | nil => intro h; exact absurd rfl h
      | cons a l ih =>
        intro _ h
        rw [List.map_cons, List.sum_cons]
        have h1 := h a List.mem_cons_self
        rcases eq_or_ne l [] with rfl | hl
        · simpa using h1
        · have := ih hl fun c hc => h c (List.mem_cons_of_mem _ hc)
          linarith
    exact key _ (hS.grps G hG).some fun c hc => hpos c (hgsub G hG c hc)
  have hgne : ∀ g ∈ s.cells, g.vertices ≠ [] := by
    intro g hg
    obtain ⟨G, hG, hgG⟩ := hcell g hg
    exact (hS.grps G hG).ne g (by rw [hgG]; simp)
  have hond : (s.cells.flatMap Cell.origs).Nodup := by
    refine (hS.cells.flatMap_right _).nodup_iff.2 ?_
    have key : ∀ Gs : List (List (List Pt) × List (Cell Pt)), (∀ G ∈ Gs, Grp G.1 G.2) → (∀ G ∈ Gs, ∃ x, G.2 = [x]) →
        (Gs.flatMap Prod.fst).Nodup → ((Gs.flatMap Prod.snd).flatMap Cell.origs).Nodup ∧
        ∀ o ∈ (Gs.flatMap Prod.snd).flatMap Cell.origs, o ∈ Gs.flatMap Prod.fst := by
      intro Gs
      induction Gs with
      | nil => intro _ _ _; simp
      | cons G Gs ih =>
        intro h1 h2 h3
        rw [List.flatMap_cons, List.nodup_append] at h3
        obtain ⟨i1, i2⟩ := ih (fun G hG => h1 G (List.mem_cons_of_mem _ hG)) (fun G hG => h2 G (List.mem_cons_of_mem _ hG)) h3.2.1
        obtain ⟨x, hx⟩ := h2 G List.mem_cons_self
        obtain ⟨o1, o2⟩ := (h1 G List.mem_cons_self).origs x (by rw [hx]; simp)
        have e : ((G :: Gs).flatMap Prod.snd).flatMap Cell.origs = x.origs ++ (Gs.flatMap Prod.snd).flatMap Cell.origs := by
          rw [List.flatMap_cons, hx, List.singleton_append, List.flatMap_cons]
        rw [e, List.nodup_append]
        refine ⟨⟨o1, i1, ?_⟩, ?_⟩
        · rintro o ho p hp rfl
          exact h3.2.2 o (o2 o ho) o (i2 o hp) rfl
        · intro o ho
          rw [List.flatMap_cons]
          rcases List.mem_append.1 ho with ho | ho
          · exact List.mem_append_left _ (o2 o ho)
          · exact List.mem_append_right _ (i2 o ho)
    exact (key Gs hS.grps hone hfnd).1
  set co := s.cells.map fun c => (c.vertices, c.origs) with hco
  have hcom : (ch.merged co).Perm co := hch.merged co
  have hin : ∀ x ∈ ch.merged co, ∃ g ∈ s.cells, x = (g.vertices, g.origs) := by
    intro x hx
    obtain ⟨g, hg, rfl⟩ := List.mem_map.1 (hcom.mem_iff.1 hx)
    exact ⟨g, hg, rfl⟩
  have hsubE : ∀ e ∈ allEdges sel, e ∈ A.net.halfEdges := by
    intro e he
    refine hB.sub e ?_
    obtain ⟨v, hv, he⟩ := List.mem_flatMap.1 he
    rw [hsel] at hv
    obtain ⟨d, hd, rfl⟩ := List.mem_map.1 hv
    exact List.mem_flatMap.2 ⟨_, List.mem_map_of_mem (List.mem_filter.1 hd).1, he⟩
  have hgE : ∀ g ∈ s.cells, ∀ e ∈ polyEdges g.vertices, e ∈ allEdges sel := by
    intro g hg e he
    obtain ⟨G, hG, hgG⟩ := hcell g hg
    have := (mem_border.1 ((hbord G hG g hgG).mem_iff.1 he)).1
    obtain ⟨v, hv, he⟩ := List.mem_flatMap.1 this
    exact List.mem_flatMap.2 ⟨v, hgsub G hG v hv, he⟩
  obtain ⟨m, hm⟩ := posOriginals_new (ch.merged co) [] (by
    have : ((ch.merged co).flatMap Prod.snd).Perm (s.cells.flatMap Cell.origs) := by
      refine (hcom.flatMap_right _).trans ?_
      rw [hco, List.flatMap_map]
    exact this.nodup_iff.2 hond) (by simp)
  obtain ⟨r, r1, r2, r3⟩ := makePolys_ok ch hch [] ((ch.merged co).map Prod.fst) (by
    intro p hp
    obtain ⟨x, hx, rfl⟩ := List.mem_map.1 hp
    obtain ⟨g, hg, rfl⟩ := hin x hx
    exact ⟨fun e he => hB.planar.ne e (hsubE e (hgE g hg e he)), hneg g hg⟩) (by simp)
  have hpoly : polyCells ch A sel = .ok r := by
    unfold polyCells
    show (addCells Merger.empty runs >>= _) = _
    rw [e1]
    show (getCellsOriginals s >>= _) = _
    rw [e3]
    show (splitSign (ch.merged co) >>= _) = _
    rw [splitSign_pos _ (by
      intro x hx
      obtain ⟨g, hg, rfl⟩ := hin x hx
      exact ⟨hgne g hg, hneg g hg⟩)]
    show (posOriginals (ch.merged co) [] >>= _) = _
    rw [hm]
    exact r1
  refine ⟨r, hpoly, fun s hs => by
    rw [List.eq_nil_iff_forall_not_mem]
    intro k hk
    simpa using ((r2 s hs).2 k).1 hk, fun c hc => ?_⟩
  obtain ⟨hw, hedges⟩ := polyCells_spec ch hch A sel hselN r hpoly
  have hcm := List.mem_toFinset.2 (List.mem_map_of_mem (f := Cell1.vertices) hc)
  have hval : ∀ v ∈ sel, windingNumber v c.point = 0 ∨ windingNumber v c.point = -1 := by
    intro v hv
    have hp := hpos v hv
    rw [hsel] at hv
    obtain ⟨d, hd, rfl⟩ := List.mem_map.1 hv
    have hd := (List.mem_filter.1 hd).1
    have := hN.pos_value (List.mem_toFinset.2 (List.mem_map_of_mem (f := Cell1.vertices) hd)) hcm hp
    rw [cellW_pt hF hd hc] at this
    exact this.symm
  have hoff : ∀ s ∈ r, ¬ OnBoundary s.outer c.point ∧ s.holes = [] := by
    intro s hs
    refine ⟨?_, ?_⟩
    · rintro ⟨e, he, hx⟩
      exact hB.off c hc ⟨e, hsubE e ((hedges s hs).1 e he), hx⟩
    · rw [List.eq_nil_iff_forall_not_mem]
      intro k hk
      simpa using ((r2 s hs).2 k).1 hk
  have hle : ∀ l : List (List Pt), (∀ v ∈ l, v ∈ sel) → (l.map fun v => windingNumber v c.point).sum ≤ 0 := by
    intro l
    induction l with
    | nil => intro _; simp
    | cons a l ih =>
      intro h
      rw [List.map_cons, List.sum_cons]
      have h1 := ih fun v hv => h v (List.mem_cons_of_mem _ hv)
      rcases hval a (h a List.mem_cons_self) with h2 | h2 <;> rw [h2] <;> omega
  have hsum : (sel.map fun v => windingNumber v c.point).sum = -(if S c.point = true then 1 else 0) := by
    have h3 := faces_once hB (fun p => S p = true) (fun p q h1 h2 h3 => by rw [hface p q h1 h2 h3]) hfar.choose
      (fun q hq => by rw [hfar.choose_spec q hq]; simp) (hB.off c hc)
    rw [List.filter_congr (q := fun c => S c.point) (fun x _ => by simp)] at h3
    rw [hsel, List.map_map]
    change ((A.cells.filter fun c => S c.point).map fun c_1 => windingNumber c_1.vertices c.point).sum = _
    by_cases hs : S c.point = true
    · rw [if_pos hs] at h3 ⊢; omega
    · rw [if_neg hs] at h3 ⊢; omega
  have hgw : ∀ g ∈ s.cells, windingNumber g.vertices c.point ≤ 0 := by
    intro g hg
    obtain ⟨G, hG, hgG⟩ := hcell g hg
    rw [group_winding (hged G hG) (hbord G hG g hgG)]
    exact hle _ (hgsub G hG)
  have htot : (s.cells.map fun g => windingNumber g.vertices c.point).sum = (sel.map fun v => windingNumber v c.point).sum := by
    rw [← (hfst.map _).sum_eq, (hS.cells.map _).sum_eq]
    have key : ∀ l : List (List (List Pt) × List (Cell Pt)), (∀ G ∈ l, G ∈ Gs) →
        ((l.flatMap Prod.snd).map fun g => windingNumber g.vertices c.point).sum =
        ((l.flatMap Prod.fst).map fun v => windingNumber v c.point).sum := by
      intro l
      induction l with
      | nil => intro _; rfl
      | cons a l ih =>
        intro h
        obtain ⟨x, hx⟩ := hone a (h a List.mem_cons_self)
        rw [List.flatMap_cons, List.flatMap_cons, List.map_append, List.sum_append, List.map_append, List.sum_append,
          ih fun g hg => h g (List.mem_cons_of_mem _ hg), hx, List.map_singleton, List.sum_singleton,
          group_winding (hged a (h a List.mem_cons_self)) (hbord a (h a List.mem_cons_self) x hx)]
    exact key _ fun _ h => h
  rw [hsum] at htot
  obtain ⟨v, d0, d1, d2, d3⟩ := c31_locate r hw c.point
  rw [d0]
  by_cases hs : S c.point = true
  · rw [if_pos hs] at htot ⊢
    congr 1
    rw [d1]
    obtain ⟨g, hg, hg0⟩ : ∃ g ∈ s.cells, windingNumber g.vertices c.point ≠ 0 := by
      by_contra hcon
      push Not at hcon
      rw [List.map_congr_left hcon] at htot
      simp at htot
    obtain ⟨p, hp, e⟩ := r3 g.vertices (List.mem_map.2 ⟨(g.vertices, g.origs), hcom.mem_iff.2 (List.mem_map_of_mem hg), rfl⟩)
    refine ⟨p, hp, ⟨(hoff p hp).1, by rw [e]; exact hg0⟩, fun k hk => ?_⟩
    rw [(hoff p hp).2] at hk
    cases hk
  · rw [if_neg hs] at htot ⊢
    have hz : ∀ g ∈ s.cells, windingNumber g.vertices c.point = 0 := by
      have key : ∀ l : List ℤ, (∀ x ∈ l, x ≤ 0) → l.sum = 0 → ∀ x ∈ l, x = 0 := by
        intro l
        induction l with
        | nil => intro _ _ x hx; cases hx
        | cons a l ih =>
          intro h h0 x hx
          rw [List.sum_cons] at h0
          have h1 := h a List.mem_cons_self
          have h2 : l.sum ≤ 0 := by
            clear ih h0 hx
            induction l with
            | nil => simp
            | cons b l ih' =>
              rw [List.sum_cons]
              have := h b (by simp)
              have := ih' (fun x hx => h x (by rcases List.mem_cons.1 hx with rfl | hx <;> simp [*]))
              omega
          rcases List.mem_cons.1 hx with rfl | hx
          · omega
          · exact ih (fun x hx => h x (List.mem_cons_of_mem _ hx)) (by omega) x hx
      intro g hg
      refine key (s.cells.map fun g => windingNumber g.vertices c.point) ?_ (by rw [htot]; simp) _ (List.mem_map_of_mem hg)
      intro x hx
      obtain ⟨g, hg, rfl⟩ := List.mem_map.1 hx
      exact hgw g hg
    have hout : ∀ p ∈ r, windingNumber p.outer c.point = 0 := by
      intro p hp
      obtain ⟨x, hx, e⟩ := List.mem_map.1 (r2 p hp).1
      obtain ⟨g, hg, rfl⟩ := hin x hx
      rw [← e]
      exact hz g hg
    have hv1 : v ≠ 1 := by
      rw [ne_eq, d1]
      rintro ⟨p, hp, hin, _⟩
      exact hin.2 (hout p hp)
    have hv0 : v ≠ 0 := by
      rw [ne_eq, d2]
      rintro ⟨_, p, hp, h | ⟨_, pre, k, post, e, _, h⟩⟩
      · exact (hoff p hp).1 h
      · have := (hoff p hp).2
        rw [e] at this
        simp at this
    congr 1
    rw [d3]
    intro p hp
    have hwf := ((SPWH.mk'_iff _ _ _).1 (hw p hp)).2.wf
    rcases p.locate_three hwf.1 hwf.2 c.point with h | h | h
    · exact absurd (d1.2 ⟨p, hp, h.2⟩) hv1
    · exact absurd (d2.2 ⟨fun h' => hv1 (d1.2 h'), p, hp, h.2⟩) hv0
    · exact h.2

/-- An operation whose selected cells make groups without holes does not raise. -/
theorem arrangementOp_loops (ch : Choices) (hch : ch.Valid) (gs : List Geom2D) (op : List Bool → Bool)
    (hop : op (gs.map fun _ => false) = false) (hg : ∀ g ∈ gs, Geom2D.Usable g)
    (hd : ∀ A, build ch (gs.flatMap Geom2D.allSegments) = .ok A → BuildOK A → Full A →
      (∃ w, Plane (A.cells.map Cell1.vertices) ((A.cells.filter fun c => chosen gs op c.point).map Cell1.vertices) w ∧
        ∀ l, (∀ e ∈ polyEdges l, e ∈ allEdges ((A.cells.filter fun c => chosen gs op c.point).map Cell1.vertices)) →
          ∀ c ∈ A.cells.map Cell1.vertices, c ∉ (A.cells.filter fun c => chosen gs op c.point).map Cell1.vertices → turn w l c = 0) ∧
      ∀ c ∈ A.cells, chosen gs op c.point = true → shoelace c.vertices < 0) :
    ∃ r, arrangementOp ch gs op = .ok r ∧ ∀ s ∈ r, s.holes = [] := by
  have hm : ∀ g ∈ gs, Geom2D.WellMade g := fun g h => (hg g h).made
  obtain ⟨A, hA, hF⟩ := build_ok hch (loops_geoms gs hm fun g h => (hg g h).cutting)
  obtain ⟨hB, hon⟩ := build_spec ch hch _ (segments_ne gs hm) A hA
  have hin : ∀ g ∈ gs, ∀ x, Geom2D.OnEdge g x → OnAny A.net.halfEdges x := fun g hg' x hx =>
    (hon x).2 ((onAny_flat gs x).2 ⟨g, hg', hx⟩)
  have hoff : ∀ c ∈ A.cells, ∀ g ∈ gs, ¬ Geom2D.OnEdge g c.point := fun c hc g hg' hx => hB.off c hc (hin g hg' _ hx)
  obtain ⟨⟨w, d1, d0⟩, d2⟩ := hd A hA hB hF
  obtain ⟨r, hr, hgr, hl⟩ := polyCells_loops ch hch hB hF (chosen gs op) (chosen_face op hm hin) (chosen_far hop hm) _ rfl
    d1 d0 (by
      intro c hc
      obtain ⟨x, hx, rfl⟩ := List.mem_map.1 hc
      obtain ⟨x1, x2⟩ := List.mem_filter.1 hx
      exact d2 x x1 x2)
  refine ⟨r, ?_, hgr⟩
  unfold arrangementOp
  rw [hA]
  show (selectCells gs op A.cells >>= _) = _
  rw [selectCells_ok gs op hm A.cells hoff]
  show (polyCells ch A _ >>= _) = _
  rw [hr]
  show (checkResult gs op r A.cells >>= _) = _
  rw [checkResult_ok gs op hm r A.cells hoff hl]
  rfl

end Ply.Arr
