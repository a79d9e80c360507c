import Verif.Proofs.ArrCells
import Verif.Proofs.ArrSound
import Verif.Props.CellMerger

/-!
# The n-ary operation on geoms is sound
-/

namespace Ply.Arr

open CellMerger

/-! ### The arrangement -/

/-- What holds of an arrangement that was built. -/
structure BuildOK (A : Arrangement) : Prop where
  planar : Planar A.net.halfEdges
  nodup : (allEdges (A.cells.map Cell1.vertices)).Nodup
  sub : ∀ e ∈ allEdges (A.cells.map Cell1.vertices), e ∈ A.net.halfEdges
  off : ∀ c ∈ A.cells, ¬ OnAny A.net.halfEdges c.point
  every : ∀ e ∈ A.net.halfEdges, ∃ c ∈ A.cells, e ∈ polyEdges c.vertices
  sees : ∀ c ∈ A.cells, ∀ e ∈ polyEdges c.vertices, ∃ p, Sees A.net.halfEdges e p ∧ SameFace A.net.halfEdges p c.point
  all : ∀ p, A.net.halfEdges ≠ [] → ¬ OnAny A.net.halfEdges p →
    ∃ c ∈ A.cells, SameFace A.net.halfEdges p c.point

theorem findPoints_spec (R : Rays) (aabb : AABB) (l : List (List Pt × Bool)) (cs : List Cell1)
    (h : findPoints R aabb l = .ok cs) :
    cs.map Cell1.vertices = l.map Prod.fst ∧ cs.map Cell1.negative = l.map Prod.snd ∧
      ∀ c ∈ cs, findPoint R aabb c.vertices = .ok c.point := by
  induction l generalizing cs with
  | nil => cases h; simp
  | cons c l ih =>
    rw [findPoints] at h
    obtain ⟨pt, h1, h⟩ := (bind_ok _ _ _).1 h
    obtain ⟨loc, h2, h⟩ := (bind_ok _ _ _).1 h
    have : ∃ r, findPoints R aabb l = .ok r ∧ (⟨c.1, c.2, pt⟩ : Cell1) :: r = cs := by
      split_ifs at h <;>
      · obtain ⟨_, h3, h⟩ := (bind_ok _ _ _).1 h
        obtain ⟨r, h4, h⟩ := (bind_ok _ _ _).1 h
        cases h
        exact ⟨r, h4, rfl⟩
    obtain ⟨r, h4, rfl⟩ := this
    obtain ⟨a, b, d⟩ := ih r h4
    refine ⟨by simp [a], by simp [b], ?_⟩
    intro x hx
    rcases List.mem_cons.1 hx with rfl | hx
    · exact h1
    · exact d x hx

theorem buildRays_spec (net : Net) (R : Rays) (h : buildRays net = .ok R) :
    RaysOK R ∧ R.halfEdges = net.halfEdges := by
  unfold buildRays at h
  obtain ⟨gv, h1, h⟩ := (bind_ok _ _ _).1 h
  obtain ⟨gs, h2, h⟩ := (bind_ok _ _ _).1 h
  obtain ⟨tree, h3, h⟩ := (bind_ok _ _ _).1 h
  cases h
  exact ⟨⟨gs, h2, h3⟩, rfl⟩

theorem build_spec (ch : Choices) (hch : ch.Valid) (segments : List Seg) (hd : ∀ s ∈ segments, s.1 ≠ s.2)
    (A : Arrangement) (h : build ch segments = .ok A) :
    BuildOK A ∧ ∀ x, OnAny A.net.halfEdges x ↔ OnAny segments x := by
  obtain ⟨net, aabb, verts, hb, _, _, hn, hon, _⟩ := buildNet_spec ch hch segments hd
  unfold build at h
  obtain ⟨na, h1, h⟩ := (bind_ok _ _ _).1 h
  rw [hb] at h1
  cases h1
  dsimp only at h
  obtain ⟨_, _, h⟩ := (bind_ok _ _ _).1 h
  obtain ⟨R, hR, h⟩ := (bind_ok _ _ _).1 h
  obtain ⟨st, hst, h⟩ := (bind_ok _ _ _).1 h
  obtain ⟨cells, hcells, h⟩ := (bind_ok _ _ _).1 h
  obtain ⟨info, _, h⟩ := (bind_ok _ _ _).1 h
  obtain ⟨conts, _, h⟩ := (bind_ok _ _ _).1 h
  cases h
  have hP := hn.planar
  obtain ⟨hRok, hRe⟩ := buildRays_spec net R hR
  obtain ⟨hC, hall⟩ := findCells_spec hch hP hn.fans _ _ _ _ (fun e he => he)
    ⟨rfl, by simp, by simp, by simp⟩ (fun e he => Or.inl he) hst
  obtain ⟨hv, _, hpt⟩ := findPoints_spec R aabb st.cells cells hcells
  have hsees : ∀ c ∈ cells, ∀ a b rest, c.vertices = a :: b :: rest → Sees net.halfEdges (a, b) c.point := by
    intro c hc a b rest e
    have := hpt c hc
    rw [e] at this
    have := findPoint_sees hRok (by rw [hRe]; exact hP) aabb a b rest c.point this
    rwa [hRe] at this
  have hmem : ∀ c ∈ cells, ∃ s ∈ st.cells, s.1 = c.vertices := by
    intro c hc
    have : c.vertices ∈ cells.map Cell1.vertices := List.mem_map_of_mem hc
    rw [hv] at this
    exact List.mem_map.1 this
  have hmem' : ∀ s ∈ st.cells, ∃ c ∈ cells, c.vertices = s.1 := by
    intro s hs
    have : s.1 ∈ st.cells.map Prod.fst := List.mem_map_of_mem hs
    rw [← hv] at this
    exact List.mem_map.1 this
  have hedges : st.heCell.map Prod.fst = allEdges (cells.map Cell1.vertices) := by
    rw [hv, hC.he]
    unfold allEdges
    rw [List.flatMap_map, List.map_flatMap]
    congr 1
    funext c
    simp [edgesIter_eq, Function.comp_def]
  have hlink : ∀ c ∈ cells, ∀ e ∈ polyEdges c.vertices, ∃ p, Sees net.halfEdges e p ∧ SameFace net.halfEdges p c.point := by
    intro c hc e he
    obtain ⟨s, hs, es⟩ := hmem c hc
    obtain ⟨a, b, rest, h1, h2, h3⟩ := hC.two s hs
    have hsee := hsees c hc a b rest (by rw [← es, h1])
    rcases h3 e (by rw [edgesIter_eq, es]; exact he) with rfl | ⟨x, y, hx, hy, hxy⟩
    · exact ⟨c.point, hsee, SameFace.refl _ _⟩
    · exact ⟨y, hy, hxy.symm.trans (sees_same hP h2 hx hsee)⟩
  have hevery : ∀ e ∈ net.halfEdges, ∃ c ∈ cells, e ∈ polyEdges c.vertices := by
    intro e he
    obtain ⟨s, hs, h⟩ := hall e he
    obtain ⟨c, hc, hcs⟩ := hmem' s hs
    exact ⟨c, hc, by rw [hcs, ← edgesIter_eq]; exact h⟩
  refine ⟨⟨hP, ?_, ?_, ?_, hevery, hlink, ?_⟩, hon⟩
  · dsimp only
    rw [← hedges]; exact hC.nodup
  · intro e he
    dsimp only at he
    rw [hv] at he
    obtain ⟨v, h1, h2⟩ := List.mem_flatMap.1 he
    obtain ⟨c, hc, rfl⟩ := List.mem_map.1 h1
    exact hC.sub c hc e (by rw [edgesIter_eq]; exact h2)
  · intro c hc
    obtain ⟨s, hs, e⟩ := hmem c hc
    obtain ⟨a, b, rest, h1, h2⟩ := hC.two s hs
    exact (hsees c hc a b rest (by rw [← e, h1])).off
  · intro p hne hp
    dsimp only at hne hp ⊢
    obtain ⟨k, hk, q, hpq, hq⟩ := sees_exists hP hne hp
    obtain ⟨c, hc, hkc⟩ := hevery k hk
    obtain ⟨y, hy, hyc⟩ := hlink c hc k hkc
    exact ⟨c, hc, hpq.trans ((sees_same hP hk hq hy).trans hyc)⟩

/-! ### Polygons -/

theorem splitSign_spec (l p n : List (List Pt × List (List Pt))) (h : splitSign l = .ok (p, n)) :
    (∀ c ∈ p, c ∈ l) ∧ ∀ c ∈ n, c ∈ l := by
  induction l generalizing p n with
  | nil => cases h; simp
  | cons c l ih =>
    rw [splitSign] at h
    obtain ⟨a, h1, h⟩ := (bind_ok _ _ _).1 h
    obtain ⟨_, h2, h⟩ := (bind_ok _ _ _).1 h
    obtain ⟨⟨p', n'⟩, h3, h⟩ := (bind_ok _ _ _).1 h
    obtain ⟨i1, i2⟩ := ih p' n' h3
    dsimp only at h
    split_ifs at h <;> cases h <;> constructor <;> intro x hx <;>
      simp only [List.mem_cons] at hx ⊢ <;> grind

theorem posNegatives_spec (conts : List (List Pt × Option (List Pt))) (m : List (List Pt × List Pt))
    (l : List (List Pt × List (List Pt))) (r : List (List Pt × List Pt)) (h : posNegatives conts m l = .ok r) :
    r.map Prod.snd = l.map Prod.fst := by
  induction l generalizing r with
  | nil => cases h; simp
  | cons c l ih =>
    rw [posNegatives] at h
    obtain ⟨o, h1, h⟩ := (bind_ok _ _ _).1 h
    cases o with
    | none => cases h
    | some o =>
      dsimp only at h
      obtain ⟨r', h2, h⟩ := (bind_ok _ _ _).1 h
      cases h
      simp [ih r' h2]

theorem makePolys_spec (ch : Choices) (hch : ch.Valid) (pn : List (List Pt × List Pt)) (l : List (List Pt))
    (r : Geom2D) (h : makePolys ch pn l = .ok r) :
    r.WellMade ∧ ∀ s ∈ r, s.outer ∈ l ∧ ∀ h ∈ s.holes, h.reverse ∈ pn.map Prod.snd := by
  induction l generalizing r with
  | nil => cases h; exact ⟨by intro s hs; simp at hs, by intro s hs; simp at hs⟩
  | cons p l ih =>
    rw [makePolys] at h
    obtain ⟨s, h1, h⟩ := (bind_ok _ _ _).1 h
    obtain ⟨r', h2, h⟩ := (bind_ok _ _ _).1 h
    cases h
    obtain ⟨i1, i2⟩ := ih r' h2
    have hs := (SPWH.mk'_iff _ _ _).1 h1
    constructor
    · intro x hx
      rcases List.mem_cons.1 hx with rfl | hx
      · rw [hs.1] at h1 ⊢; exact h1
      · exact i1 x hx
    · intro x hx
      rcases List.mem_cons.1 hx with rfl | hx
      · rw [hs.1]
        refine ⟨List.mem_cons_self, ?_⟩
        intro h hh
        obtain ⟨k, hk, rfl⟩ := List.mem_map.1 hh
        rw [List.reverse_reverse]
        have := (hch.holes p _).mem_iff.1 hk
        rw [List.mem_dedup] at this
        obtain ⟨y, hy, rfl⟩ := List.mem_map.1 this
        exact List.mem_map_of_mem (List.mem_of_mem_filter hy)
      · exact ⟨List.mem_cons_of_mem _ (i2 x hx).1, (i2 x hx).2⟩

theorem polyEdges_length {α : Type*} (l : List α) : (polyEdges l).length = l.length := by
  cases l <;> simp [polyEdges]

theorem polyCells_spec (ch : Choices) (hch : ch.Valid) (A : Arrangement) (cells : List (List Pt))
    (hnd : (allEdges cells).Nodup) (r : Geom2D) (h : polyCells ch A cells = .ok r) :
    r.WellMade ∧ ∀ s ∈ r, (∀ e ∈ polyEdges s.outer, e ∈ allEdges cells) ∧
      ∀ k ∈ s.holes, ∀ e ∈ polyEdges k, (e.2, e.1) ∈ allEdges cells := by
  unfold polyCells at h
  dsimp only at h
  set cs := ch.cells cells with hcs
  set n := (cs.map List.length).sum with hn
  set runs := cs.zipIdx.map fun c => (ch.merger c.2, (n + 1) * (n + 1), c.1) with hruns
  have hperm : cs.Perm cells := hch.cells cells
  have hre : runEdges runs = allEdges cs := by
    unfold runEdges
    rw [hruns, List.map_map]
    have : ((fun r : Orders Pt × ℕ × List Pt => r.2.2) ∘ fun c : List Pt × ℕ =>
        (ch.merger c.2, (n + 1) * (n + 1), c.1)) = Prod.fst := rfl
    rw [this, List.zipIdx_map_fst]
  have hlen : (allEdges cs).length = n := by
    unfold allEdges
    rw [List.length_flatMap, hn]
    congr 1
    exact List.map_congr_left fun l _ => polyEdges_length l
  have hpe : (allEdges cs).Perm (allEdges cells) := hperm.flatMap_right _
  have hcr : CompleteRuns runs := by
    intro x hx
    obtain ⟨c, _, rfl⟩ := List.mem_map.1 hx
    refine ⟨hch.merger _, ?_⟩
    rw [hre, hlen]
  obtain ⟨m, hm, h⟩ := (bind_ok _ _ _).1 h
  obtain ⟨co, hco, h⟩ := (bind_ok _ _ _).1 h
  obtain ⟨⟨pos, neg⟩, hsp, h⟩ := (bind_ok _ _ _).1 h
  dsimp only at h
  obtain ⟨pm, hpm, h⟩ := (bind_ok _ _ _).1 h
  obtain ⟨pn, hpn, h⟩ := (bind_ok _ _ _).1 h
  obtain ⟨hw, hr⟩ := makePolys_spec ch hch pn _ r h
  have hmerged : ∀ c ∈ co, ∀ e ∈ polyEdges c.1, e ∈ allEdges cells := by
    rcases c28_main runs hcr (by rw [hre]; exact hpe.nodup_iff.2 hnd) with h' | ⟨s, h', _, _, D, hD⟩
    · rw [hm] at h'; cases h'
    · rw [hm] at h'
      cases h'
      unfold getCellsOriginals at hco
      obtain ⟨_, _, hco⟩ := (bind_ok _ _ _).1 hco
      cases hco
      intro c hc e he
      obtain ⟨k, hk, rfl⟩ := List.mem_map.1 hc
      rw [hre] at hD
      refine hpe.mem_iff.1 (hD.mem_iff.2 ?_)
      refine List.mem_append.2 (Or.inr ?_)
      exact List.mem_flatMap.2 ⟨k.vertices, List.mem_map_of_mem hk, he⟩
  obtain ⟨s1, s2⟩ := splitSign_spec _ _ _ hsp
  have hpn' := posNegatives_spec _ _ _ _ hpn
  refine ⟨hw, fun s hs => ⟨?_, ?_⟩⟩
  · obtain ⟨c, hc, e⟩ := List.mem_map.1 (hr s hs).1
    intro x hx
    rw [← e] at hx
    exact hmerged c ((hch.merged co).mem_iff.1 (s1 c hc)) x hx
  · intro k hk e he
    have := (hr s hs).2 k hk
    rw [hpn'] at this
    obtain ⟨c, hc, ec⟩ := List.mem_map.1 this
    refine hmerged c ((hch.merged co).mem_iff.1 (s2 c hc)) _ ?_
    rw [ec]
    exact (polyEdges_reverse k).mem_iff.2 (List.mem_map.2 ⟨e, he, rfl⟩)

/-! ### Locations -/

theorem onEdge_iff (g : Geom2D) (x : Pt) : OnAny g.allSegments x ↔ g.OnEdge x := by
  unfold Geom2D.allSegments SPWH.segments Geom2D.OnEdge OnAny OnBoundary
  simp only [edgesIter_eq]
  constructor
  · rintro ⟨e, he, hx⟩
    obtain ⟨s, hs, he⟩ := List.mem_flatMap.1 he
    refine ⟨s, hs, ?_⟩
    rcases List.mem_append.1 he with h | h
    · exact Or.inl ⟨e, h, hx⟩
    · obtain ⟨k, hk, h⟩ := List.mem_flatMap.1 h
      rw [edgesIter_eq] at h
      exact Or.inr ⟨k, hk, e, h, hx⟩
  · rintro ⟨s, hs, ⟨e, h, hx⟩ | ⟨k, hk, e, h, hx⟩⟩
    · exact ⟨e, List.mem_flatMap.2 ⟨s, hs, List.mem_append_left _ h⟩, hx⟩
    · exact ⟨e, List.mem_flatMap.2 ⟨s, hs, List.mem_append_right _
        (List.mem_flatMap.2 ⟨k, hk, by rw [edgesIter_eq]; exact h⟩)⟩, hx⟩

theorem onAny_flat (gs : List Geom2D) (x : Pt) :
    OnAny (gs.flatMap Geom2D.allSegments) x ↔ ∃ g ∈ gs, Geom2D.OnEdge g x := by
  simp only [← onEdge_iff]
  unfold OnAny
  simp only [List.mem_flatMap]
  constructor
  · rintro ⟨e, ⟨g, hg, he⟩, hx⟩; exact ⟨g, hg, e, he, hx⟩
  · rintro ⟨g, hg, e, he, hx⟩; exact ⟨e, ⟨g, hg, he⟩, hx⟩

/-- `locate` is the same at points of the same face. -/
theorem locate_face {H : List Seg} (g : Geom2D) (hg : g.WellMade) (hin : ∀ x, g.OnEdge x → OnAny H x) {p q : Pt}
    (hp : ¬ OnAny H p) (hq : ¬ OnAny H q) (h : SameFace H p q) :
    Geom2D.locate g p = .ok 1 ↔ Geom2D.locate g q = .ok 1 := by
  obtain ⟨v, e1, e2, _⟩ := c31_locate g hg p
  obtain ⟨w, f1, f2, _⟩ := c31_locate g hg q
  rw [e1, f1, Except.ok.injEq, Except.ok.injEq, e2, f2]
  refine exists_congr fun s => and_congr_right fun hs => ?_
  have hb : ∀ l, (∀ x, OnBoundary l x → g.OnEdge x) →
      (¬ OnBoundary l p ∧ ¬ OnBoundary l q) ∧ windingNumber l p = windingNumber l q := by
    intro l hl
    exact ⟨⟨fun hx => hp (hin _ (hl _ hx)), fun hx => hq (hin _ (hl _ hx))⟩,
      h l fun e he x hx => hin _ (hl _ ⟨e, he, hx⟩)⟩
  have ho := hb s.outer fun x hx => ⟨s, hs, Or.inl hx⟩
  have hh := fun k (hk : k ∈ s.holes) => hb k fun x hx => ⟨s, hs, Or.inr ⟨k, hk, hx⟩⟩
  unfold InRegion InPoly OutPoly
  refine and_congr ?_ (forall₂_congr fun k hk => ?_)
  · rw [ho.2]
    simp only [ho.1.1, ho.1.2, not_false_iff, true_and]
  · have := hh k hk
    rw [this.2]
    simp only [this.1.1, this.1.2, not_false_iff, true_and]

/-! ### The operation -/

theorem flags_spec (pt : Pt) (gs : List Geom2D) (fs : List Bool) (h : flags pt gs = .ok fs) :
    fs = gs.map fun g => decide (Geom2D.locate g pt = .ok 1) := by
  induction gs generalizing fs with
  | nil => cases h; rfl
  | cons g gs ih =>
    rw [flags] at h
    obtain ⟨loc, h1, h⟩ := (bind_ok _ _ _).1 h
    obtain ⟨_, h2, h⟩ := (bind_ok _ _ _).1 h
    obtain ⟨r, h3, h⟩ := (bind_ok _ _ _).1 h
    cases h
    rw [ensure_ok] at h2
    rw [List.map_cons, ← ih r h3, h1]
    rcases h2 with rfl | rfl <;> simp

theorem selectCells_spec (gs : List Geom2D) (op : List Bool → Bool) (cs : List Cell1) (r : List (List Pt))
    (h : selectCells gs op cs = .ok r) : r.Sublist (cs.map Cell1.vertices) := by
  induction cs generalizing r with
  | nil => cases h; simp
  | cons c cs ih =>
    rw [selectCells] at h
    obtain ⟨fs, h1, h⟩ := (bind_ok _ _ _).1 h
    obtain ⟨r', h2, h⟩ := (bind_ok _ _ _).1 h
    cases h
    split_ifs
    · exact (ih r' h2).cons_cons _
    · exact (ih r' h2).cons _

theorem checkResult_spec (gs : List Geom2D) (op : List Bool → Bool) (r : Geom2D) (hr : r.WellMade)
    (cs : List Cell1) (h : checkResult gs op r cs = .ok ()) :
    ∀ c ∈ cs, (Geom2D.locate r c.point = .ok 1 ↔
      op (gs.map fun g => decide (Geom2D.locate g c.point = .ok 1)) = true) := by
  induction cs with
  | nil => simp
  | cons c cs ih =>
    rw [checkResult] at h
    obtain ⟨fs, h1, h⟩ := (bind_ok _ _ _).1 h
    obtain ⟨loc, h2, h⟩ := (bind_ok _ _ _).1 h
    have hfs := flags_spec _ _ _ h1
    have key : checkResult gs op r cs = .ok () ∧ if op fs then loc > 0 else loc < 0 := by
      split_ifs at h ⊢ <;>
      · obtain ⟨_, h3, h⟩ := (bind_ok _ _ _).1 h
        rw [ensure_ok] at h3
        exact ⟨h, h3⟩
    intro x hx
    rcases List.mem_cons.1 hx with rfl | hx
    · rw [← hfs, h2, Except.ok.injEq]
      have hk := key.2
      obtain ⟨v, e, d1, d0, dm⟩ := c31_locate r hr x.point
      rw [h2] at e
      cases e
      have hthree : loc = 1 ∨ loc = 0 ∨ loc = -1 := by
        rw [d1, d0, dm]
        by_cases ha : ∃ s ∈ r, InRegion s.outer s.holes x.point
        · exact Or.inl ha
        · refine Or.inr ?_
          by_cases hb : ∃ s ∈ r, OnRegionBoundary s.outer s.holes x.point
          · exact Or.inl ⟨ha, hb⟩
          · refine Or.inr fun s hs => ?_
            have hw := ((SPWH.mk'_iff _ _ _).1 (hr s hs)).2.wf
            rcases s.locate_three hw.1 hw.2 x.point with h | h | h
            · exact absurd ⟨s, hs, h.2⟩ ha
            · exact absurd ⟨s, hs, h.2⟩ hb
            · exact h.2
      split_ifs at hk with ho
      · simp only [ho, iff_true]; omega
      · simp only [ho]; constructor
        · intro h; omega
        · intro h; simp at h
    · exact ih key.1 x hx

theorem segments_ne (gs : List Geom2D) (hg : ∀ g ∈ gs, Geom2D.WellMade g) :
    ∀ s ∈ gs.flatMap Geom2D.allSegments, s.1 ≠ s.2 := by
  intro e he
  obtain ⟨g, hgs, he⟩ := List.mem_flatMap.1 he
  obtain ⟨s, hs, he⟩ := List.mem_flatMap.1 he
  obtain ⟨_, h1, _, h2⟩ := (SPWH.mk'_iff _ _ _).1 (hg g hgs s hs)
  rcases List.mem_append.1 he with h | h
  · rw [edgesIter_eq] at h; exact h1 e h
  · obtain ⟨k, hk, h⟩ := List.mem_flatMap.1 h
    rw [edgesIter_eq] at h
    exact (h2 k hk).2 e h

theorem wellMade_nil {g : Geom2D} (hg : g.WellMade) (h : ∀ x, ¬ g.OnEdge x) : g = [] := by
  cases g with
  | nil => rfl
  | cons s g =>
    obtain ⟨_, _, h2, _⟩ := (SPWH.mk'_iff _ _ _).1 (hg s List.mem_cons_self)
    have hne := ne_nil_of_shoelace h2
    cases ho : s.outer with
    | nil => exact absurd ho hne
    | cons a l =>
      refine absurd ⟨s, List.mem_cons_self, Or.inl ?_⟩ (h a)
      rw [ho]
      cases l with
      | nil => exact ⟨(a, a), by simp [polyEdges], 0, le_rfl, zero_le_one, by simp [along]⟩
      | cons b l => exact ⟨(a, b), by simp [polyEdges], 0, le_rfl, zero_le_one, by simp [along]⟩

theorem allEdges_sublist {V : Type} {a b : List (List V)} (h : a.Sublist b) :
    (allEdges a).Sublist (allEdges b) := by
  induction h with
  | slnil => exact List.Sublist.refl _
  | cons x _ ih => exact ih.trans (List.sublist_append_right _ _)
  | cons_cons x _ ih => exact List.Sublist.append_left ih _

theorem arrangementOp_sound (ch : Choices) (hch : ch.Valid) : ArrSound (arrangementOp ch) := by
  intro gs op r hop hg h
  unfold arrangementOp at h
  obtain ⟨A, hA, h⟩ := (bind_ok _ _ _).1 h
  obtain ⟨cells, hcells, h⟩ := (bind_ok _ _ _).1 h
  obtain ⟨polys, hpolys, h⟩ := (bind_ok _ _ _).1 h
  obtain ⟨_, hcheck, h⟩ := (bind_ok _ _ _).1 h
  cases h
  obtain ⟨hB, hon⟩ := build_spec ch hch _ (segments_ne gs hg) A hA
  set H := A.net.halfEdges with hH
  have hon' : ∀ x, OnAny H x ↔ ∃ g ∈ gs, Geom2D.OnEdge g x := fun x => (hon x).trans (onAny_flat gs x)
  have hsub := allEdges_sublist (selectCells_spec gs op A.cells cells hcells)
  obtain ⟨hw, he⟩ := polyCells_spec ch hch A cells (hsub.nodup hB.nodup) r hpolys
  have hrin : ∀ x, Geom2D.OnEdge r x → OnAny H x := by
    rintro x ⟨s, hs, ⟨e, h1, h2⟩ | ⟨k, hk, e, h1, h2⟩⟩
    · exact ⟨e, hB.sub e (hsub.subset ((he s hs).1 e h1)), h2⟩
    · refine ⟨_, hB.sub _ (hsub.subset ((he s hs).2 k hk e h1)), (onSeg_rev e x).2 h2⟩
  refine ⟨hw, fun p hp => (hon' p).1 (hrin p hp), fun p hp => ?_⟩
  have hoff : ¬ OnAny H p := fun hx => by
    obtain ⟨g, h1, h2⟩ := (hon' p).1 hx
    exact hp g h1 h2
  by_cases hne : H = []
  · have hno : ∀ x, ¬ OnAny H x := by
      rintro x ⟨s, hs, _⟩
      rw [hne] at hs; simp at hs
    have hr0 : r = [] := wellMade_nil hw fun x hx => hno x (hrin x hx)
    have hg0 : ∀ g ∈ gs, g = [] := fun g hg' =>
      wellMade_nil (hg g hg') fun x hx => hno x ((hon' x).2 ⟨g, hg', hx⟩)
    have : (gs.map fun g => decide (Geom2D.locate g p = .ok 1)) = gs.map fun _ => false := by
      refine List.map_congr_left fun g hg' => ?_
      rw [hg0 g hg', locate_empty]; simp
    rw [this, hop, hr0, locate_empty]; simp
  · obtain ⟨c, hc, hface⟩ := hB.all p hne hoff
    have hcoff := hB.off c hc
    rw [locate_face r hw hrin hoff hcoff hface, checkResult_spec gs op r hw A.cells hcheck c hc]
    have : (gs.map fun g => decide (Geom2D.locate g c.point = .ok 1)) =
        gs.map fun g => decide (Geom2D.locate g p = .ok 1) := by
      refine List.map_congr_left fun g hg' => ?_
      rw [decide_eq_decide]
      exact (locate_face g (hg g hg') (fun x hx => (hon' x).2 ⟨g, hg', hx⟩) hoff hcoff hface).symm
    rw [this]

end Ply.Arr
