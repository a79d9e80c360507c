import Verif.Proofs.TotalFace
import Verif.Proofs.TotalMerge
import Verif.Proofs.WindingAffine

/-!
# Polygons are made from cells that are adjacent only to their reverse
-/

namespace Ply.Arr

open CellMerger Nest

/-! ### The loops -/

def alone (c : List Pt) : List Pt × List (List Pt) := (c, [c])

def twice (c : List Pt) : List Pt × List Pt := (c, c)

theorem splitSign_ok (L : List (List Pt)) (h : ∀ c ∈ L, c ≠ [] ∧ shoelace c ≠ 0) :
    splitSign (L.map alone) = .ok ((L.filter fun c => decide (shoelace c < 0)).map alone,
      (L.filter fun c => decide (¬ shoelace c < 0)).map alone) := by
  induction L with
  | nil => rfl
  | cons c L ih =>
    obtain ⟨h1, h2⟩ := h c List.mem_cons_self
    rw [List.map_cons, splitSign]
    show (simplePolygonArea c >>= _) = _
    rw [area_eq_shoelace c h1]
    show (ensure (-shoelace c ≠ 0) >>= _) = _
    rw [ensure_pos (neg_ne_zero.2 h2)]
    show (splitSign (L.map alone) >>= _) = _
    rw [ih fun c hc => h c (List.mem_cons_of_mem _ hc)]
    show Except.ok (if -shoelace c > 0 then _ else _) = _
    by_cases hc : shoelace c < 0
    · rw [if_pos (by linarith), List.filter_cons_of_pos (by simpa using hc), List.filter_cons_of_neg (by simpa using hc)]
      rfl
    · rw [if_neg (by linarith), List.filter_cons_of_neg (by simpa using hc), List.filter_cons_of_pos (by simpa using hc)]
      rfl

theorem posOriginals_ok (P : List (List Pt)) (m : List (List Pt × List Pt)) (hP : P.Nodup) (hm : ∀ x ∈ m, x.1 ∉ P) :
    posOriginals (P.map alone) m = .ok (m ++ P.map twice) := by
  induction P generalizing m with
  | nil => simp [posOriginals]
  | cons p P ih =>
    rw [List.map_cons, posOriginals]
    have h1 : posOriginals1 p [p] m = .ok (m ++ [(p, p)]) := by
      rw [posOriginals1, ensure_pos]
      · rfl
      · rw [List.all_eq_true]
        intro x hx
        simp only [decide_eq_true_eq]
        exact fun e => hm x hx (e ▸ List.mem_cons_self)
    show (posOriginals1 p [p] m >>= _) = _
    rw [h1]
    show posOriginals (P.map alone) (m ++ [(p, p)]) = _
    rw [ih _ (List.nodup_cons.1 hP).2]
    · simp [twice]
    · intro x hx
      rcases List.mem_append.1 hx with hx | hx
      · exact fun h => hm x hx (List.mem_cons_of_mem _ h)
      · simp only [List.mem_singleton] at hx
        rw [hx]
        exact (List.nodup_cons.1 hP).1

theorem getPos_twice (P : List (List Pt)) (c : List Pt) : getPos (P.map twice) c = if c ∈ P then some c else none := by
  induction P with
  | nil => rfl
  | cons p P ih =>
    unfold getPos at ih ⊢
    rw [List.map_cons, List.find?_cons]
    by_cases h : p = c
    · subst h
      simp [twice]
    · have : decide ((twice p).1 = c) = false := decide_eq_false h
      rw [this]
      simp only
      rw [ih]
      have hc : c ∈ p :: P ↔ c ∈ P := by
        rw [List.mem_cons]
        exact ⟨fun h' => h'.resolve_left (Ne.symm h), Or.inr⟩
      simp only [hc]

theorem posNegatives_ok (conts : List (List Pt × Option (List Pt))) (P : List (List Pt)) (N : List (List Pt))
    (f : List Pt → List Pt) (hN : ∀ n ∈ N, n ∉ P ∧ outwards conts (P.map twice) (conts.length + 1) n = .ok (some (f n))) :
    posNegatives conts (P.map twice) (N.map alone) = .ok (N.map fun n => (f n, n)) := by
  induction N with
  | nil => rfl
  | cons n N ih =>
    obtain ⟨h1, h2⟩ := hN n List.mem_cons_self
    rw [List.map_cons, posNegatives]
    have : findOuter conts (P.map twice) [n] none = .ok (some (f n)) := by
      rw [findOuter, getPos_twice, if_neg h1]
      dsimp only
      rw [h2]
      rfl
    show (findOuter conts (P.map twice) [n] none >>= _) = _
    rw [this]
    show (posNegatives conts (P.map twice) (N.map alone) >>= _) = _
    rw [ih fun n hn => hN n (List.mem_cons_of_mem _ hn)]
    rfl

theorem makePolys_ok (ch : Choices) (hch : ch.Valid) (pn : List (List Pt × List Pt)) (P : List (List Pt))
    (hP : ∀ p ∈ P, NoRepeat p ∧ shoelace p < 0) (hpn : ∀ x ∈ pn, NoRepeat x.2 ∧ 0 < shoelace x.2) :
    ∃ r, makePolys ch pn P = .ok r ∧ (∀ s ∈ r, s.outer ∈ P ∧ ∀ k, k ∈ s.holes ↔ (s.outer, k.reverse) ∈ pn) ∧
      ∀ p ∈ P, ∃ s ∈ r, s.outer = p := by
  induction P with
  | nil => exact ⟨[], rfl, by simp, by simp⟩
  | cons p P ih =>
    obtain ⟨r, h1, h2, h3⟩ := ih fun p hp => hP p (List.mem_cons_of_mem _ hp)
    set negs := ((pn.filter fun x => decide (x.1 = p)).map Prod.snd).dedup with hnegs
    have hmem : ∀ k, k ∈ (ch.holes p negs).map List.reverse ↔ (p, k.reverse) ∈ pn := by
      intro k
      rw [List.mem_map]
      constructor
      · rintro ⟨x, hx, rfl⟩
        rw [(hch.holes p negs).mem_iff, hnegs, List.mem_dedup] at hx
        obtain ⟨y, hy, rfl⟩ := List.mem_map.1 hx
        obtain ⟨y1, y2⟩ := List.mem_filter.1 hy
        rw [List.reverse_reverse]
        have : y.1 = p := by simpa using y2
        rw [← this]
        exact y1
      · intro hk
        refine ⟨k.reverse, ?_, List.reverse_reverse k⟩
        rw [(hch.holes p negs).mem_iff, hnegs, List.mem_dedup]
        exact List.mem_map.2 ⟨_, List.mem_filter.2 ⟨hk, by simp⟩, rfl⟩
    have hmk : SPWH.mk' p ((ch.holes p negs).map List.reverse) = .ok ⟨p, (ch.holes p negs).map List.reverse⟩ := by
      rw [SPWH.mk'_iff]
      refine ⟨rfl, (hP p List.mem_cons_self).1, (hP p List.mem_cons_self).2, ?_⟩
      intro k hk
      obtain ⟨n1, n2⟩ := hpn _ ((hmem k).1 hk)
      dsimp only at n1 n2
      have e1 : shoelace k = -shoelace k.reverse := by
        conv_lhs => rw [← List.reverse_reverse k]
        unfold shoelace
        rw [map_reverse_sum (fun e => cross e.1 e.2) (by intro e; unfold cross; ring) k.reverse]
        ring
      refine ⟨by rw [e1]; linarith, ?_⟩
      intro e he
      have := (polyEdges_reverse k).mem_iff.2 (List.mem_map.2 ⟨e, he, rfl⟩)
      exact Ne.symm (n1 _ this)
    refine ⟨⟨p, (ch.holes p negs).map List.reverse⟩ :: r, ?_, ?_, ?_⟩
    · rw [makePolys]
      show (SPWH.mk' p ((ch.holes p negs).map List.reverse) >>= _) = _
      rw [hmk]
      show (makePolys ch pn P >>= _) = _
      rw [h1]
      rfl
    · intro s hs
      rcases List.mem_cons.1 hs with rfl | hs
      · exact ⟨List.mem_cons_self, hmem⟩
      · exact ⟨List.mem_cons_of_mem _ (h2 s hs).1, (h2 s hs).2⟩
    · intro q hq
      rcases List.mem_cons.1 hq with rfl | hq
      · exact ⟨_, List.mem_cons_self, rfl⟩
      · obtain ⟨s, hs, e⟩ := h3 q hq
        exact ⟨s, List.mem_cons_of_mem _ hs, e⟩

/-! ### The search outwards -/

open Classical in
/-- The other cells that wind around a cell. -/
noncomputable def wrapping (net : Net) (cells : List (List Pt)) (c : List Pt) : Finset (List Pt) :=
  cells.toFinset.filter fun a => a ≠ c ∧ cellW net a c ≠ 0

theorem mem_wrapping {net : Net} {cells : List (List Pt)} {c a : List Pt} :
    a ∈ wrapping net cells c ↔ a ∈ cells ∧ a ≠ c ∧ cellW net a c ≠ 0 := by
  unfold wrapping
  rw [Finset.mem_filter, List.mem_toFinset]

theorem shoelace_opposite {a b : List Pt} (ha : (polyEdges a).Nodup) (hb : (polyEdges b).Nodup) (h : Opposite a b) :
    shoelace b = -shoelace a := by
  have hp : (polyEdges b).Perm ((polyEdges a).map opp) := by
    rw [List.perm_ext_iff_of_nodup hb (ha.map fun x y h => opp_inj.1 h)]
    intro e
    rw [List.mem_map]
    constructor
    · intro he
      exact ⟨opp e, h.2 e he, rfl⟩
    · rintro ⟨f, hf, rfl⟩
      exact h.1 f hf
  unfold shoelace
  rw [(hp.map _).sum_eq, List.map_map]
  have : ((fun e : Pt × Pt => cross e.1 e.2) ∘ opp) = fun e : Pt × Pt => -cross e.1 e.2 := by
    funext e
    simp only [Function.comp, opp, cross]
    ring
  rw [this]
  have hneg : ∀ E : List Seg, (E.map fun e => -cross e.1 e.2).sum = -(E.map fun e => cross e.1 e.2).sum := by
    intro E
    induction E with
    | nil => simp
    | cons e E ih => simp only [List.map_cons, List.sum_cons, ih]; ring
  rw [hneg]
  ring

/-- The selected cells, where the selection depends on the face and is bounded; `live` are those without a reverse. -/
structure Selected (A : Arrangement) (S : Pt → Prop) (sel live : List (List Pt)) : Prop where
  built : BuildOK A
  full : Full A
  face : ∀ p q, ¬ OnAny A.net.halfEdges p → ¬ OnAny A.net.halfEdges q → SameFace A.net.halfEdges p q → (S p ↔ S q)
  far : ∃ M : ℚ, ∀ q : Pt, M < q.1 → ¬ S q
  iff : ∀ c ∈ A.cells, c.vertices ∈ sel ↔ S c.point
  sub : ∀ v ∈ sel, ∃ c ∈ A.cells, c.vertices = v
  paired : Paired sel
  nodup : live.Nodup
  alive : ∀ c, c ∈ live ↔ c ∈ sel ∧ ∀ b ∈ sel, ¬ Adjacent c b

theorem Selected.outwards {A : Arrangement} {S : Pt → Prop} {sel live : List (List Pt)} (h : Selected A S sel live)
    {P : List (List Pt)} (hP : ∀ c, c ∈ P ↔ c ∈ live ∧ cellPos c) (n : ℕ) {c : Cell1} (hc : c ∈ A.cells) (hs : S c.point)
    (hl : c.vertices ∉ P) (hn : (wrapping A.net (A.cells.map Cell1.vertices) c.vertices).card < n) :
    ∃ p ∈ P, outwards A.containers (P.map twice) n c.vertices = .ok (some p) ∧
      p ≠ c.vertices ∧ cellW A.net p c.vertices ≠ 0 ∧
      ∀ b ∈ live, b ≠ c.vertices → cellW A.net b c.vertices ≠ 0 → b = p ∨ cellW A.net b p ≠ 0 := by
  have hN := nested h.full.wheel h.full.tiling
  induction n generalizing c with
  | zero => omega
  | succ n ih =>
    have hcm := List.mem_toFinset.2 (List.mem_map_of_mem (f := Cell1.vertices) hc)
    obtain ⟨o, ho, hok⟩ := container_ok h.full hc
    have hlm : ∀ b ∈ live, b ∈ (A.cells.map Cell1.vertices).toFinset := by
      intro b hb
      obtain ⟨d, hd, rfl⟩ := h.sub b ((h.alive b).1 hb).1
      exact List.mem_toFinset.2 (List.mem_map_of_mem hd)
    cases o with
    | none =>
      exfalso
      obtain ⟨_, hfar⟩ := container_none h.full h.built hc ho
      obtain ⟨M, hM⟩ := h.far
      obtain ⟨M', hM'⟩ : ∃ M' : ℚ, ∀ q : Pt, M' < q.1 → ¬ OnAny A.net.halfEdges q := by
        obtain ⟨M', -, hM'⟩ := far_bound [] (A.net.halfEdges.map fun e => [e.1, e.2])
        refine ⟨M', fun q hq => ?_⟩
        rintro ⟨e, he, t, t0, t1, e'⟩
        have h1 := hM' _ (List.mem_map_of_mem he) e.1 (by simp)
        have h2 := hM' _ (List.mem_map_of_mem he) e.2 (by simp)
        have h3 := congrArg Prod.fst e'
        unfold along at h3
        dsimp only at h3
        nlinarith
      obtain ⟨q, hq, hsf⟩ := hfar (max M M')
      exact hM q ((le_max_left _ _).trans_lt hq)
        ((h.face _ _ (h.built.off c hc) (hM' q ((le_max_right _ _).trans_lt hq)) hsf).1 hs)
    | some v =>
      obtain ⟨hv, hne, hw, hdeg, hsg⟩ := hok.2 v rfl
      obtain ⟨d, hd, rfl⟩ := List.mem_map.1 hv
      dsimp only at hne hw hdeg hsg
      have hdm := List.mem_toFinset.2 hv
      have hinner : ∀ b ∈ live, b ≠ c.vertices → cellW A.net b c.vertices ≠ 0 → b ≠ d.vertices → cellW A.net b d.vertices ≠ 0 :=
        fun b hb h1 h2 h3 => hN.innermost (hlm b hb) hdm hcm h1 h3 h2 hw hdeg
      obtain ⟨hds, hdead⟩ : S d.point ∧ (cellPos c.vertices → d.vertices ∉ live) := by
        by_cases hpc : cellPos c.vertices
        · have hcs := (h.iff c hc).2 hs
          have hnl : c.vertices ∉ live := fun hx => hl ((hP _).2 ⟨hx, hpc⟩)
          obtain ⟨b, hb, hab⟩ : ∃ b ∈ sel, Adjacent c.vertices b := by
            by_contra hcon
            push Not at hcon
            exact hnl ((h.alive _).2 ⟨hcs, hcon⟩)
          obtain ⟨b', hb', rfl⟩ := h.sub b hb
          have hop := h.paired.opp _ hcs _ hb hab
          have hbm := List.mem_toFinset.2 (List.mem_map_of_mem (f := Cell1.vertices) hb')
          have hsh := shoelace_opposite (cell_ok h.full hc).nodup (cell_ok h.full hb').nodup hop
          have hbn : ¬ cellPos b'.vertices := by
            unfold cellPos at hpc ⊢
            rw [hsh]
            linarith
          have hconn : cellConn A.net c.vertices b'.vertices := by
            obtain ⟨u, v, e1, e2⟩ := hab
            exact ⟨(u, v), e1, (v, u), e2, conn_rev h.full.wheel ((cell_ok h.full hc).sub _ e1)⟩
          have := hN.container_pos hdm hcm hbm hpc hbn hconn hw hdeg
          rw [cell_eq h.full hd hb' this]
          exact ⟨(h.iff b' hb').1 hb, fun _ hx => ((h.alive _).1 hx).2 _ hcs (adjacent_symm hab)⟩
        · have := (container_neg h.full h.built hc hpc hd ho).1
          exact ⟨(h.face _ _ (h.built.off c hc) (h.built.off d hd) this).1 hs, fun h => absurd h hpc⟩
      by_cases hdP : d.vertices ∈ P
      · refine ⟨d.vertices, hdP, ?_, hne, hw, ?_⟩
        · rw [Arr.outwards, ho]
          show (match getPos (P.map twice) d.vertices with
            | some o => (return some o : Except PyErr (Option (List Pt)))
            | none => Arr.outwards A.containers (P.map twice) n d.vertices) = _
          rw [getPos_twice, if_pos hdP]
          rfl
        · intro b hb h1 h2
          by_cases h3 : b = d.vertices
          · exact Or.inl h3
          · exact Or.inr (hinner b hb h1 h2 h3)
      · have hlt : (wrapping A.net (A.cells.map Cell1.vertices) d.vertices).card < n := by
          have : (wrapping A.net (A.cells.map Cell1.vertices) d.vertices).card <
              (wrapping A.net (A.cells.map Cell1.vertices) c.vertices).card := by
            refine Finset.card_lt_card ⟨fun a ha => ?_, fun hsub => ?_⟩
            · obtain ⟨a1, a2, a3⟩ := mem_wrapping.1 ha
              have am := List.mem_toFinset.2 a1
              refine mem_wrapping.2 ⟨a1, ?_, hN.around_trans am hdm hcm a2 a3 hw⟩
              rintro rfl
              have d1 := hN.degree_lt am hdm a2 a3
              omega
            · exact (mem_wrapping.1 (hsub (mem_wrapping.2 ⟨hv, hne, hw⟩))).2.1 rfl
          omega
        obtain ⟨p, hp, e, p1, p2, p3⟩ := ih hd hds hdP hlt
        have hpm := hlm p ((hP p).1 hp).1
        refine ⟨p, hp, ?_, ?_, hN.around_trans hpm hdm hcm p1 p2 hw, ?_⟩
        · rw [Arr.outwards, ho]
          show (match getPos (P.map twice) d.vertices with
            | some o => (return some o : Except PyErr (Option (List Pt)))
            | none => Arr.outwards A.containers (P.map twice) n d.vertices) = _
          rw [getPos_twice, if_neg hdP]
          exact e
        · rintro rfl
          have d1 := hN.degree_lt hpm hdm p1 p2
          omega
        · intro b hb h1 h2
          by_cases h3 : b = d.vertices
          · exfalso
            rw [h3] at hb
            by_cases hpc : cellPos c.vertices
            · exact hdead hpc hb
            · exact hdP ((hP _).2 ⟨hb, hsg.2 hpc⟩)
          · exact p3 b hb h3 (hinner b hb h1 h2 h3)

/-! ### The polygons -/

theorem Paired.perm {a b : List (List Pt)} (h : Paired a) (p : b.Perm a) : Paired b :=
  ⟨fun c hc => h.ne c (p.mem_iff.1 hc), (p.flatMap_right _).nodup_iff.2 h.nodup, fun c hc => h.self c (p.mem_iff.1 hc),
    fun x hx y hy => h.opp x (p.mem_iff.1 hx) y (p.mem_iff.1 hy)⟩

theorem map_alone_of {l : List (List Pt × List (List Pt))} {live : List (List Pt)} (h : l.Perm (live.map alone)) :
    ∃ live' : List (List Pt), live'.Perm live ∧ l = live'.map alone := by
  refine ⟨l.map Prod.fst, ?_, ?_⟩
  · have := h.map Prod.fst
    rw [List.map_map] at this
    have e : (Prod.fst ∘ alone : List Pt → List Pt) = id := rfl
    rwa [e, List.map_id] at this
  · rw [List.map_map]
    conv_lhs => rw [← List.map_id l]
    refine List.map_congr_left fun c hc => ?_
    obtain ⟨x, _, rfl⟩ := List.mem_map.1 (h.mem_iff.1 hc)
    rfl

theorem sum_signs {α : Type*} (l : List α) (hl : l.Nodup) (f : α → ℤ) (e : ℤ) (h : ∀ x ∈ l, f x = e ∨ f x = 0) (he : e ≠ 0) :
    ∃ F : Finset α, (∀ x, x ∈ F ↔ x ∈ l ∧ f x ≠ 0) ∧ (l.map f).sum = (F.card : ℤ) * e := by
  classical
  refine ⟨l.toFinset.filter fun x => f x ≠ 0, fun x => by rw [Finset.mem_filter, List.mem_toFinset], ?_⟩
  induction l with
  | nil => simp
  | cons a l ih =>
    obtain ⟨h1, h2⟩ := List.nodup_cons.1 hl
    have i := ih h2 fun x hx => h x (List.mem_cons_of_mem _ hx)
    rw [List.map_cons, List.sum_cons, i, List.toFinset_cons, Finset.filter_insert]
    rcases h a List.mem_cons_self with ha | ha
    · rw [if_pos (by rw [ha]; exact he), Finset.card_insert_of_notMem (by simp [h1]), ha]
      push_cast
      ring
    · rw [if_neg (by rw [ha]; simp), ha, zero_add]

theorem polyCells_total (ch : Choices) (hch : ch.Valid) {A : Arrangement} (hB : BuildOK A) (hF : Full A) (S : Pt → Bool)
    (hface : ∀ p q, ¬ OnAny A.net.halfEdges p → ¬ OnAny A.net.halfEdges q → SameFace A.net.halfEdges p q → S p = S q)
    (hfar : ∃ M : ℚ, ∀ q : Pt, M < q.1 → S q = false) (sel : List (List Pt))
    (hsel : sel = (A.cells.filter fun c => S c.point).map Cell1.vertices) (hpair : Paired sel) :
    ∃ r, polyCells ch A sel = .ok r ∧ ∀ c ∈ A.cells, Geom2D.locate r c.point = .ok (if S c.point then 1 else -1) := by
  classical
  have hN := nested hF.wheel hF.tiling
  set cs := ch.cells sel with hcs
  set n := (cs.map List.length).sum with hn
  set runs := cs.zipIdx.map fun c => (ch.merger c.2, (n + 1) * (n + 1), c.1) with hruns
  have hperm : cs.Perm sel := hch.cells sel
  have hrun : (runs.map fun r => r.2.2) = cs := by
    rw [hruns, List.map_map]
    have : ((fun r : Orders Pt × ℕ × List Pt => r.2.2) ∘ fun c : List Pt × ℕ =>
        (ch.merger c.2, (n + 1) * (n + 1), c.1)) = Prod.fst := rfl
    rw [this, List.zipIdx_map_fst]
  obtain ⟨s, live0, e1, e2, e3, e4⟩ := merger_ok runs (by rw [hrun]; exact Paired.perm hpair hperm) (by
    intro r hr
    rw [hruns] at hr
    obtain ⟨c, _, rfl⟩ := List.mem_map.1 hr
    exact ⟨hch.merger _, by positivity⟩)
  obtain ⟨L, hL, e5⟩ := map_alone_of (l := ch.merged (live0.map fun c => (c, [c]))) (live := live0) (hch.merged _)
  have hsub : ∀ v ∈ sel, ∃ c ∈ A.cells, c.vertices = v := by
    intro v hv
    rw [hsel] at hv
    obtain ⟨c, hc, rfl⟩ := List.mem_map.1 hv
    exact ⟨c, (List.mem_filter.1 hc).1, rfl⟩
  have hiff : ∀ c ∈ A.cells, c.vertices ∈ sel ↔ S c.point = true := by
    intro c hc
    rw [hsel, List.mem_map]
    constructor
    · rintro ⟨d, hd, e⟩
      rw [cell_eq hF (List.mem_filter.1 hd).1 hc e] at hd
      exact (List.mem_filter.1 hd).2
    · exact fun h => ⟨c, List.mem_filter.2 ⟨hc, h⟩, rfl⟩
  have hS : Selected A (fun p => S p = true) sel L := by
    refine ⟨hB, hF, fun p q h1 h2 h3 => by rw [hface p q h1 h2 h3], ?_, hiff, hsub, hpair, hL.nodup_iff.2 e2, ?_⟩
    · obtain ⟨M, hM⟩ := hfar
      exact ⟨M, fun q hq => by rw [hM q hq]; simp⟩
    · intro c
      rw [hL.mem_iff, e4, hrun]
      simp only [hperm.mem_iff]
  have hLc : ∀ v ∈ L, ∃ c ∈ A.cells, c.vertices = v ∧ S c.point = true := by
    intro v hv
    have := ((hS.alive v).1 hv).1
    obtain ⟨c, hc, rfl⟩ := hsub v this
    exact ⟨c, hc, rfl, (hiff c hc).1 this⟩
  have hLm : ∀ v ∈ L, v ∈ (A.cells.map Cell1.vertices).toFinset := by
    intro v hv
    obtain ⟨c, hc, rfl, _⟩ := hLc v hv
    exact List.mem_toFinset.2 (List.mem_map_of_mem hc)
  have hLok : ∀ v ∈ L, CellOK A.net v := fun v hv => hF.tiling.ok v (List.mem_toFinset.1 (hLm v hv))
  set P := L.filter fun c => decide (shoelace c < 0) with hPd
  set N := L.filter fun c => decide (¬ shoelace c < 0) with hNd
  have hP : ∀ c, c ∈ P ↔ c ∈ L ∧ cellPos c := by
    intro c; rw [hPd, List.mem_filter, decide_eq_true_eq]; rfl
  have hNm : ∀ c, c ∈ N ↔ c ∈ L ∧ ¬ cellPos c := by
    intro c; rw [hNd, List.mem_filter, decide_eq_true_eq]; rfl
  have hPnd : P.Nodup := hS.nodup.filter _
  have hNnd : N.Nodup := hS.nodup.filter _
  have hout : ∀ v ∈ N, ∃ p ∈ P, outwards A.containers (P.map twice) (A.containers.length + 1) v = .ok (some p) ∧
      p ≠ v ∧ cellW A.net p v ≠ 0 ∧ ∀ b ∈ L, b ≠ v → cellW A.net b v ≠ 0 → b = p ∨ cellW A.net b p ≠ 0 := by
    intro v hv
    obtain ⟨v1, v2⟩ := (hNm v).1 hv
    obtain ⟨c, hc, rfl, hs⟩ := hLc v v1
    refine hS.outwards hP _ hc hs (fun h => v2 ((hP _).1 h).2) ?_
    have : (wrapping A.net (A.cells.map Cell1.vertices) c.vertices).card ≤ A.containers.length := by
      have h1 : A.containers.length = (A.cells.map Cell1.vertices).length := by rw [← hF.keys, List.length_map]
      rw [h1]
      exact (Finset.card_filter_le _ _).trans (List.toFinset_card_le _)
    omega
  choose! f f1 f2 f3 f4 f5 using hout
  have hnr : ∀ v ∈ L, NoRepeat v := fun v hv e he => hB.planar.ne e ((hLok v hv).sub e he)
  have hsh : ∀ v ∈ L, shoelace v ≠ 0 := by
    intro v hv
    obtain ⟨e, he⟩ := (hLok v hv).edge
    rcases (hLok v hv).side hF.wheel he with h | h
    · exact h.1.ne
    · exact h.1.ne'
  obtain ⟨r, r1, r2, r3⟩ := makePolys_ok ch hch (N.map fun v => (f v, v)) P
    (fun p hp => ⟨hnr p ((hP p).1 hp).1, ((hP p).1 hp).2⟩) (by
      intro x hx
      obtain ⟨v, hv, rfl⟩ := List.mem_map.1 hx
      obtain ⟨v1, v2⟩ := (hNm v).1 hv
      refine ⟨hnr v v1, ?_⟩
      have h1 := hsh v v1
      unfold cellPos at v2
      exact lt_of_le_of_ne (not_lt.1 v2) (Ne.symm h1))
  have hpoly : polyCells ch A sel = .ok r := by
    unfold polyCells
    show (addCells Merger.empty runs >>= _) = _
    rw [e1]
    show (getCellsOriginals s >>= _) = _
    rw [e3]
    show (splitSign (ch.merged (live0.map fun c => (c, [c]))) >>= _) = _
    rw [e5, splitSign_ok L fun c hc => ⟨(hLok c hc).ne, hsh c hc⟩]
    show (posOriginals (P.map alone) [] >>= _) = _
    rw [posOriginals_ok P [] hPnd (by simp)]
    show (posNegatives A.containers (P.map twice) (N.map alone) >>= _) = _
    rw [posNegatives_ok A.containers P N f fun v hv => ⟨fun h => ((hNm v).1 hv).2 ((hP v).1 h).2, f2 v hv⟩]
    show makePolys ch (N.map fun v => (f v, v)) ((P.map alone).map Prod.fst) = _
    rw [List.map_map]
    have : (Prod.fst ∘ alone : List Pt → List Pt) = id := rfl
    rw [this, List.map_id]
    exact r1
  refine ⟨r, hpoly, fun c hc => ?_⟩
  obtain ⟨hw, hedges⟩ := polyCells_spec ch hch A sel hpair.nodup r hpoly
  have hcm := List.mem_toFinset.2 (List.mem_map_of_mem (f := Cell1.vertices) hc)
  have hwp : ∀ v ∈ L, cellW A.net v c.vertices = windingNumber v c.point := by
    intro v hv
    obtain ⟨d, hd, rfl, _⟩ := hLc v hv
    exact cellW_pt hF hd hc
  set w : List Pt → ℤ := fun v => windingNumber v c.point with hwd
  have hsubE : ∀ e ∈ allEdges sel, e ∈ A.net.halfEdges := by
    intro e he
    obtain ⟨v, hv, he⟩ := List.mem_flatMap.1 he
    obtain ⟨d, hd, rfl⟩ := hsub v hv
    exact (cell_ok hF hd).sub e he
  have hoff : ∀ s ∈ r, ¬ OnBoundary s.outer c.point ∧ ∀ k ∈ s.holes, ¬ OnBoundary k c.point := by
    intro s hs
    refine ⟨?_, fun k hk => ?_⟩
    · rintro ⟨e, he, hx⟩
      exact hB.off c hc ⟨e, hsubE e ((hedges s hs).1 e he), hx⟩
    · rintro ⟨e, he, hx⟩
      exact hB.off c hc ⟨_, hsubE _ ((hedges s hs).2 k hk e he), (onSeg_rev e _).2 hx⟩
  have hsum : (P.map w).sum + (N.map w).sum = -(if S c.point = true then 1 else 0) := by
    have h1 : (L.map w).sum = (sel.map w).sum := by
      have hre : runEdges runs = allEdges cs := by unfold runEdges; rw [hrun]
      have hlen : (allEdges cs).length = n := by
        unfold allEdges
        rw [List.length_flatMap, hn]
        congr 1
        exact List.map_congr_left fun l _ => polyEdges_length l
      have hcr : CompleteRuns runs := by
        intro x hx
        rw [hruns] at hx
        obtain ⟨c, _, rfl⟩ := List.mem_map.1 hx
        refine ⟨hch.merger _, ?_⟩
        rw [hre, hlen]
      have h2 := c28_winding runs hcr (by rw [hre]; exact (hperm.flatMap_right _).nodup_iff.2 hpair.nodup) e1 c.point
      rw [hrun] at h2
      have h3 : s.cells.map Cell.vertices = live0 := by
        unfold getCellsOriginals at e3
        obtain ⟨_, _, h4⟩ := (bind_ok _ _ _).1 e3
        cases h5 : live0 with
        | nil =>
          rw [h5] at h4
          have h6 := Except.ok.inj h4
          rw [List.map_nil, List.map_eq_nil_iff] at h6
          rw [h6]; rfl
        | cons a l =>
          rw [← h5]
          have h6 := congrArg (List.map Prod.fst) (Except.ok.inj h4)
          simpa [List.map_map, Function.comp_def] using h6
      rw [h3] at h2
      rw [((hL.map w)).sum_eq]
      exact h2.trans (hperm.map w).sum_eq
    have h2 : (P.map w).sum + (N.map w).sum = (L.map w).sum := by
      rw [← List.sum_append, ← List.map_append]
      refine (List.Perm.map w ?_).sum_eq
      have := List.filter_append_perm (fun c : List Pt => decide (shoelace c < 0)) L
      rw [hPd, hNd]
      have hq : (L.filter fun c => decide (¬ shoelace c < 0)) = L.filter fun c => !decide (shoelace c < 0) := by
        refine List.filter_congr fun x _ => ?_
        by_cases hx : shoelace x < 0 <;> simp [hx]
      rw [hq]
      exact this
    have h3 := faces_once hB (fun p => S p = true) (fun p q h1 h2 h3 => by rw [hface p q h1 h2 h3]) hfar.choose
      (fun q hq => by rw [hfar.choose_spec q hq]; simp) (hB.off c hc)
    rw [List.filter_congr (q := fun c => S c.point) (fun x _ => by simp)] at h3
    have h4 : ((A.cells.filter fun c => S c.point).map fun c_1 => windingNumber c_1.vertices c.point) = sel.map w := by
      rw [hsel, List.map_map]; rfl
    rw [h4] at h3
    rw [h2, h1]
    by_cases hs : S c.point = true
    · rw [if_pos hs] at h3 ⊢; omega
    · rw [if_neg hs] at h3 ⊢; omega
  obtain ⟨Py, mP, sP⟩ := sum_signs P hPnd w (-1) (by
    intro v hv
    obtain ⟨v1, v2⟩ := (hP v).1 hv
    have := hN.pos_value (hLm v v1) hcm v2
    rw [hwp v v1] at this
    exact this) (by norm_num)
  obtain ⟨Ny, mN, sN⟩ := sum_signs N hNnd w 1 (by
    intro v hv
    obtain ⟨v1, v2⟩ := (hNm v).1 hv
    have := hN.neg_value (hLm v v1) hcm v2
    rw [hwp v v1] at this
    exact this.symm) (by norm_num)
  rw [sP, sN] at hsum
  have hmaps : ∀ v ∈ Ny, f v ∈ Py := by
    intro v hv
    obtain ⟨v1, v2⟩ := (mN v).1 hv
    have hvL := ((hNm v).1 v1).1
    have hfL := ((hP _).1 (f1 v v1)).1
    refine (mP _).2 ⟨f1 v v1, ?_⟩
    have := hN.around_trans (hLm _ hfL) (hLm _ hvL) hcm (f3 v v1) (f4 v v1) (by rw [hwp v hvL]; exact v2)
    rw [hwp _ hfL] at this
    exact this
  have hinj : ∀ v ∈ Ny, ∀ u ∈ Ny, f v = f u → v = u := by
    have one : ∀ v ∈ N, ∀ u ∈ N, f v = f u → v ≠ u → cellW A.net v u ≠ 0 → False := by
      intro v hv u hu hfu hvu hw'
      have hvL := ((hNm v).1 hv).1
      have hfL := ((hP _).1 (f1 v hv)).1
      rcases f5 u hu v hvL hvu hw' with h | h
      · exact ((hNm v).1 hv).2 (h ▸ ((hP _).1 (f1 u hu)).2)
      · rw [← hfu] at h
        have d1 := hN.degree_lt (hLm _ hvL) (hLm _ hfL) (Ne.symm (f3 v hv)) h
        have d2 := hN.degree_lt (hLm _ hfL) (hLm _ hvL) (f3 v hv) (f4 v hv)
        omega
    intro v hv u hu hfu
    obtain ⟨v1, v2⟩ := (mN v).1 hv
    obtain ⟨u1, u2⟩ := (mN u).1 hu
    by_contra hvu
    have hvL := ((hNm v).1 v1).1
    have huL := ((hNm u).1 u1).1
    rcases hN.comparable (hLm _ hvL) (hLm _ huL) hcm hvu (by rw [hwp v hvL]; exact v2) (by rw [hwp u huL]; exact u2) with h | h
    · exact one v v1 u u1 hfu hvu h
    · exact one u u1 v v1 hfu.symm (Ne.symm hvu) h
  obtain ⟨v, d0, d1, d2, d3⟩ := c31_locate r hw c.point
  rw [d0]
  have himage : (Ny.image f) ⊆ Py := by
    intro x hx
    obtain ⟨v, hv, rfl⟩ := Finset.mem_image.1 hx
    exact hmaps v hv
  have hcard : (Ny.image f).card = Ny.card := Finset.card_image_of_injOn fun v hv u hu h => hinj v hv u hu h
  by_cases hs : S c.point = true
  · rw [if_pos hs] at hsum ⊢
    congr 1
    rw [d1]
    obtain ⟨p, hp, hp'⟩ : ∃ p ∈ Py, p ∉ Ny.image f := by
      by_contra hcon
      push Not at hcon
      have := Finset.card_le_card (show Py ⊆ Ny.image f from hcon)
      rw [hcard] at this
      omega
    obtain ⟨p1, p2⟩ := (mP p).1 hp
    obtain ⟨s, hs', rfl⟩ := r3 p p1
    refine ⟨s, hs', ⟨(hoff s hs').1, p2⟩, fun k hk => ⟨(hoff s hs').2 k hk, ?_⟩⟩
    obtain ⟨x, hx, e⟩ := List.mem_map.1 (((r2 s hs').2 k).1 hk)
    by_contra hne
    apply hp'
    have e1 : f x = s.outer := congrArg Prod.fst e
    have e2 : x = k.reverse := congrArg Prod.snd e
    refine Finset.mem_image.2 ⟨x, (mN x).2 ⟨hx, ?_⟩, e1⟩
    rw [hwd, e2]
    dsimp only
    rw [windingNumber_reverse]
    exact neg_ne_zero.2 hne
  · rw [if_neg hs] at hsum ⊢
    have himg : Ny.image f = Py := Finset.eq_of_subset_of_card_le himage (by rw [hcard]; omega)
    have hv1 : v ≠ 1 := by
      rw [ne_eq, d1]
      rintro ⟨s, hs', hin, hh⟩
      have : s.outer ∈ Py := (mP _).2 ⟨(r2 s hs').1, hin.2⟩
      rw [← himg] at this
      obtain ⟨x, hx, e⟩ := Finset.mem_image.1 this
      obtain ⟨x1, x2⟩ := (mN x).1 hx
      have hk : x.reverse ∈ s.holes := ((r2 s hs').2 _).2 (by
        rw [List.reverse_reverse, ← e]
        exact List.mem_map_of_mem (f := fun v => (f v, v)) x1)
      have := (hh _ hk).2
      rw [windingNumber_reverse] at this
      exact x2 (neg_eq_zero.1 this)
    have hv0 : v ≠ 0 := by
      rw [ne_eq, d2]
      rintro ⟨_, s, hs', h | ⟨_, pre, k, post, e, _, h⟩⟩
      · exact (hoff s hs').1 h
      · exact (hoff s hs').2 k (by rw [e]; simp) h
    congr 1
    rw [d3]
    intro s hs'
    have hwf := ((SPWH.mk'_iff _ _ _).1 (hw s hs')).2.wf
    rcases s.locate_three hwf.1 hwf.2 c.point with h | h | h
    · exact absurd (d1.2 ⟨s, hs', h.2⟩) hv1
    · exact absurd (d2.2 ⟨fun h' => hv1 (d1.2 h'), s, hs', h.2⟩) hv0
    · exact h.2

end Ply.Arr
