import Verif.Proofs.TotalDiscs
import Verif.Proofs.PlateNet

/-!
# Polygons with holes are made from groups of cells with one ring as their border
-/

namespace Ply.Arr

open CellMerger Nest

/-! ### The loops -/

theorem splitSign_any (l : List (List Pt × List (List Pt))) (h : ∀ c ∈ l, c.1 ≠ [] ∧ shoelace c.1 ≠ 0) :
    splitSign l = .ok (l.filter fun c => decide (shoelace c.1 < 0), l.filter fun c => decide (¬ shoelace c.1 < 0)) := by
  induction l with
  | nil => rfl
  | cons c L ih =>
    obtain ⟨h1, h2⟩ := h c List.mem_cons_self
    rw [splitSign]
    rw [area_eq_shoelace c.1 h1]
    show (ensure (-shoelace c.1 ≠ 0) >>= _) = _
    rw [ensure_pos (neg_ne_zero.2 h2)]
    show (splitSign L >>= _) = _
    rw [ih fun c hc => h c (List.mem_cons_of_mem _ hc)]
    show Except.ok (if -shoelace c.1 > 0 then _ else _) = _
    by_cases hc : shoelace c.1 < 0
    · rw [if_pos (by linarith), List.filter_cons_of_pos (by simpa using hc), List.filter_cons_of_neg (by simpa using hc)]
    · rw [if_neg (by linarith), List.filter_cons_of_neg (by simpa using hc), List.filter_cons_of_pos (by simpa using hc)]

/-- The cells of the groups, each with the outline of its group. -/
def spread (P : List (List Pt × List (List Pt))) : List (List Pt × List Pt) := P.flatMap fun g => g.2.map fun o => (o, g.1)

theorem mem_spread {P : List (List Pt × List (List Pt))} {x : List Pt × List Pt} :
    x ∈ spread P ↔ ∃ g ∈ P, x.1 ∈ g.2 ∧ x.2 = g.1 := by
  unfold spread
  rw [List.mem_flatMap]
  refine exists_congr fun g => and_congr_right fun _ => ?_
  rw [List.mem_map]
  constructor
  · rintro ⟨o, ho, rfl⟩; exact ⟨ho, rfl⟩
  · rintro ⟨h1, h2⟩; exact ⟨x.1, h1, by rw [← h2]⟩

theorem posOriginals_spread (l : List (List Pt × List (List Pt))) : ∀ m : List (List Pt × List Pt), (l.flatMap Prod.snd).Nodup →
    (∀ x ∈ m, x.1 ∉ l.flatMap Prod.snd) → posOriginals l m = .ok (m ++ spread l) := by
  induction l with
  | nil => intro m _ _; simp [posOriginals, spread]
  | cons c l ih =>
    intro m hn hm
    rw [List.flatMap_cons] at hn hm
    obtain ⟨n1, n2, n3⟩ := List.nodup_append.1 hn
    rw [posOriginals, posOriginals1_new c.1 c.2 m n1 fun x hx h => hm x hx (List.mem_append_left _ h)]
    show posOriginals l _ = _
    rw [ih _ n2]
    · unfold spread; rw [List.flatMap_cons, List.append_assoc]
    intro x hx h
    rcases List.mem_append.1 hx with hx | hx
    · exact hm x hx (List.mem_append_right _ h)
    · obtain ⟨o, ho, rfl⟩ := List.mem_map.1 hx
      exact n3 o ho o h rfl

theorem getPos_none {P : List (List Pt × List (List Pt))} {o : List Pt} (h : ∀ g ∈ P, o ∉ g.2) : getPos (spread P) o = none := by
  unfold getPos
  rw [Option.map_eq_none_iff, List.find?_eq_none]
  intro x hx
  obtain ⟨g, hg, h1, -⟩ := mem_spread.1 hx
  simp only [decide_eq_true_eq]
  rintro rfl
  exact h g hg h1

theorem getPos_some {P : List (List Pt × List (List Pt))} {o : List Pt} {g : List Pt × List (List Pt)} (hg : g ∈ P) (ho : o ∈ g.2)
    (hu : ∀ k ∈ P, o ∈ k.2 → k = g) : getPos (spread P) o = some g.1 := by
  unfold getPos
  cases h : (spread P).find? fun x => decide (x.1 = o) with
  | none =>
    have := List.find?_eq_none.1 h (o, g.1) (mem_spread.2 ⟨g, hg, ho, rfl⟩)
    simp at this
  | some x =>
    have h1 := List.mem_of_find?_eq_some h
    have h2 : x.1 = o := by simpa using List.find?_some h
    obtain ⟨k, hk, k1, k2⟩ := mem_spread.1 h1
    rw [Option.map_some, k2, hu k hk (h2 ▸ k1)]

theorem findOuter_same (conts : List (List Pt × Option (List Pt))) (m : List (List Pt × List Pt)) (v : List Pt) (l : List (List Pt))
    (h : ∀ o ∈ l, getPos m o = none ∧ outwards conts m (conts.length + 1) o = .ok (some v)) :
    findOuter conts m l (some v) = .ok (some v) ∧ (l ≠ [] → findOuter conts m l none = .ok (some v)) := by
  induction l with
  | nil => exact ⟨rfl, fun h => absurd rfl h⟩
  | cons o l ih =>
    obtain ⟨i1, -⟩ := ih fun o ho => h o (List.mem_cons_of_mem _ ho)
    obtain ⟨h1, h2⟩ := h o List.mem_cons_self
    constructor
    · rw [findOuter, h1]
      dsimp only
      rw [h2]
      show (ensure (v = v) >>= _) = _
      rw [ensure_pos rfl]
      exact i1
    · intro _
      rw [findOuter, h1]
      dsimp only
      rw [h2]
      exact i1

theorem posNegatives_same (conts : List (List Pt × Option (List Pt))) (m : List (List Pt × List Pt))
    (N : List (List Pt × List (List Pt))) (f : List Pt × List (List Pt) → List Pt)
    (hN : ∀ n ∈ N, n.2 ≠ [] ∧ ∀ o ∈ n.2, getPos m o = none ∧ outwards conts m (conts.length + 1) o = .ok (some (f n))) :
    posNegatives conts m N = .ok (N.map fun n => (f n, n.1)) := by
  induction N with
  | nil => rfl
  | cons n N ih =>
    obtain ⟨h1, h2⟩ := hN n List.mem_cons_self
    rw [posNegatives]
    show (findOuter conts m n.2 none >>= _) = _
    rw [(findOuter_same conts m (f n) n.2 h2).2 h1]
    show (posNegatives conts m N >>= _) = _
    rw [ih fun n hn => hN n (List.mem_cons_of_mem _ hn)]
    rfl

/-! ### Groups -/

/-- The selected cells, where the selection depends on the face and is bounded, in groups with one outline each. -/
structure Parted (A : Arrangement) (S : Pt → Prop) (sel : List (List Pt)) (Gs : List (List Pt × List (List Pt))) : Prop where
  built : BuildOK A
  full : Full A
  face : ∀ p q, ¬ OnAny A.net.halfEdges p → ¬ OnAny A.net.halfEdges q → SameFace A.net.halfEdges p q → (S p ↔ S q)
  far : ∃ M : ℚ, ∀ q : Pt, M < q.1 → ¬ S q
  iff : ∀ c ∈ A.cells, c.vertices ∈ sel ↔ S c.point
  sub : ∀ v ∈ sel, ∃ c ∈ A.cells, c.vertices = v
  list : sel.Nodup
  nodup : (allEdges sel).Nodup
  perm : (Gs.flatMap Prod.snd).Perm sel
  ne : ∀ g ∈ Gs, g.1 ≠ []
  has : ∀ g ∈ Gs, g.2 ≠ []
  linked : ∀ g ∈ Gs, CellMerger.Linked g.2
  edges : ∀ g ∈ Gs, (polyEdges g.1).Perm (border g.2)

section
variable {A : Arrangement} {S : Pt → Prop} {sel : List (List Pt)} {Gs : List (List Pt × List (List Pt))} (h : Parted A S sel Gs)
include h

theorem Parted.cell {g : List Pt × List (List Pt)} (hg : g ∈ Gs) {v : List Pt} (hv : v ∈ g.2) :
    ∃ c ∈ A.cells, c.vertices = v ∧ S c.point := by
  have h1 : v ∈ sel := h.perm.mem_iff.1 (List.mem_flatMap.2 ⟨g, hg, hv⟩)
  obtain ⟨c, hc, rfl⟩ := h.sub v h1
  exact ⟨c, hc, rfl, (h.iff c hc).1 h1⟩

theorem Parted.mem {g : List Pt × List (List Pt)} (hg : g ∈ Gs) {v : List Pt} (hv : v ∈ g.2) :
    v ∈ (A.cells.map Cell1.vertices).toFinset := by
  obtain ⟨c, hc, rfl, -⟩ := h.cell hg hv
  exact List.mem_toFinset.2 (List.mem_map_of_mem hc)

theorem Parted.group {c : Cell1} (hc : c ∈ A.cells) (hs : S c.point) : ∃ g ∈ Gs, c.vertices ∈ g.2 :=
  List.mem_flatMap.1 (h.perm.mem_iff.2 ((h.iff c hc).2 hs))

theorem Parted.same {g k : List Pt × List (List Pt)} (hg : g ∈ Gs) (hk : k ∈ Gs) {v : List Pt} (h1 : v ∈ g.2) (h2 : v ∈ k.2) :
    g = k := by
  have hn := (List.nodup_flatMap.1 (h.perm.nodup_iff.2 h.list)).2
  by_contra hne
  have : Std.Symm (Function.onFun List.Disjoint (Prod.snd : List Pt × List (List Pt) → List (List Pt))) :=
    ⟨fun a b (h : List.Disjoint _ _) => h.symm⟩
  exact (hn.forall hg hk hne : List.Disjoint _ _) h1 h2

theorem Parted.distinct : Gs.Nodup := by
  have hn := (List.nodup_flatMap.1 (h.perm.nodup_iff.2 h.list)).2
  refine hn.imp_of_mem ?_
  rintro x y hx - hd rfl
  obtain ⟨L, hL⟩ := List.exists_mem_of_ne_nil _ (h.has x hx)
  exact hd hL hL

theorem Parted.edgesNodup {g : List Pt × List (List Pt)} (hg : g ∈ Gs) : (allEdges g.2).Nodup := by
  refine edges_sub_nodup h.nodup ?_ fun c hc => h.perm.mem_iff.1 (List.mem_flatMap.2 ⟨g, hg, hc⟩)
  exact (List.nodup_flatMap.1 (h.perm.nodup_iff.2 h.list)).1 g hg

/-- The cells of a group are in the same part of the drawing. -/
theorem Parted.conn {g : List Pt × List (List Pt)} (hg : g ∈ Gs) {u v : List Pt} (hu : u ∈ g.2) (hv : v ∈ g.2) :
    cellConn A.net u v := by
  have hN := nested h.full.wheel h.full.tiling
  have := h.linked g hg u hu v hv
  induction this with
  | refl => exact hN.refl u (h.mem hg hu)
  | @tail a b _ hab ih =>
    obtain ⟨ha, hb, p, q, e1, e2⟩ := hab
    refine hN.trans u (h.mem hg hu) a (h.mem hg ha) b (h.mem hg hb) (ih ha) ?_
    obtain ⟨c, hc, rfl, -⟩ := h.cell hg ha
    exact ⟨(p, q), e1, (q, p), e2, conn_rev h.full.wheel ((cell_ok h.full hc).sub _ e1)⟩

/-- The outline determines the group. -/
theorem Parted.outline {g k : List Pt × List (List Pt)} (hg : g ∈ Gs) (hk : k ∈ Gs) (e : g.1 = k.1) : g = k := by
  obtain ⟨v, hv⟩ := List.exists_mem_of_ne_nil _ (h.ne g hg)
  obtain ⟨x, hx, -⟩ := polyEdges_fst hv
  obtain ⟨a, ha, xa⟩ := List.mem_flatMap.1 (mem_border.1 ((h.edges g hg).mem_iff.1 hx)).1
  obtain ⟨b, hb, xb⟩ := List.mem_flatMap.1 (mem_border.1 ((h.edges k hk).mem_iff.1 (e ▸ hx))).1
  have : a = b := h.full.tiling.uniq a (List.mem_toFinset.1 (h.mem hg ha)) b (List.mem_toFinset.1 (h.mem hk hb)) x xa xb
  exact h.same hg hk ha (this ▸ hb)

theorem Parted.positive {g : List Pt × List (List Pt)} (hg : g ∈ Gs) (hp : ∀ v ∈ g.2, cellPos v) : shoelace g.1 < 0 := by
  rw [group_shoelace (h.edgesNodup hg) (h.edges g hg)]
  have key : ∀ l : List (List Pt), l ≠ [] → (∀ c ∈ l, shoelace c < 0) → (l.map shoelace).sum < 0 := by
    intro l
    induction l with
    | nil => intro h; exact absurd rfl h
    | cons a l ih =>
      intro _ h
      rw [List.map_cons, List.sum_cons]
      have h1 := h a List.mem_cons_self
      rcases eq_or_ne l [] with rfl | hl
      · simpa using h1
      · have := ih hl fun c hc => h c (List.mem_cons_of_mem _ hc)
        linarith
  exact key _ (h.has g hg) hp

/-- The areas of the cells of a part add up to zero, so that a group with the negative cell turns the other way. -/
theorem Parted.negative {g : List Pt × List (List Pt)} (hg : g ∈ Gs) {n : List Pt} (hn : n ∈ g.2) (hp : ¬ cellPos n) :
    0 < shoelace g.1 := by
  classical
  have hN := nested h.full.wheel h.full.tiling
  set cells := A.cells.map Cell1.vertices with hcells
  have hm : ∀ v ∈ cells, v ∈ cells.toFinset := fun v hv => List.mem_toFinset.2 hv
  set K := cells.filter fun v => decide (cellConn A.net n v) with hK
  have hmK : ∀ v, v ∈ K ↔ v ∈ cells ∧ cellConn A.net n v := by
    intro v; rw [hK, List.mem_filter, decide_eq_true_eq]
  have hKn : (allEdges K).Nodup := (allEdges_sublist List.filter_sublist).nodup h.built.nodup
  have hrev : ∀ v ∈ K, ∀ e ∈ polyEdges v, ∃ u ∈ K, opp e ∈ polyEdges u := by
    intro v hv e he
    obtain ⟨v1, v2⟩ := (hmK v).1 hv
    have hv' := h.full.tiling.ok v v1
    obtain ⟨u, hu, hue⟩ := h.full.tiling.cover _ (h.built.planar.rev e (hv'.sub e he))
    exact ⟨u, (hmK u).2 ⟨hu, hN.trans n (h.mem hg hn) v (hm v v1) u (hm u hu) v2 ⟨e, he, _, hue, conn_rev h.full.wheel (hv'.sub e he)⟩⟩, hue⟩
  have hb : border K = [] := by
    rw [List.eq_nil_iff_forall_not_mem]
    intro e he
    obtain ⟨h1, h2⟩ := mem_border.1 he
    obtain ⟨v, hv, he⟩ := List.mem_flatMap.1 h1
    obtain ⟨u, hu, hue⟩ := hrev v hv e he
    exact h2 (List.mem_flatMap.2 ⟨u, hu, hue⟩)
  have hsum := group_shoelace hKn (v := []) (by rw [hb]; exact List.Perm.refl _)
  have h0 : shoelace [] = 0 := by unfold shoelace; simp [polyEdges]
  rw [h0] at hsum
  -- the other cells
  have hgK : ∀ v ∈ g.2, v ∈ K := fun v hv => (hmK v).2 ⟨List.mem_toFinset.1 (h.mem hg hv), h.conn hg hn hv⟩
  have hgn : g.2.Nodup := (List.nodup_flatMap.1 (h.perm.nodup_iff.2 h.list)).1 g hg
  have hKl : K.Nodup := h.full.nodup.filter _
  set R := K.filter fun v => decide (v ∉ g.2) with hR
  have hperm : (g.2 ++ R).Perm K := by
    have h1 := List.filter_append_perm (fun v => decide (v ∈ g.2)) K
    have h2 : (K.filter fun v => decide (v ∈ g.2)).Perm g.2 := by
      refine (List.perm_ext_iff_of_nodup (hKl.filter _) hgn).2 fun v => ?_
      rw [List.mem_filter, decide_eq_true_eq]
      exact ⟨fun h => h.2, fun h => ⟨hgK v h, h⟩⟩
    have h3 : R = K.filter fun v => !decide (v ∈ g.2) := by
      rw [hR]
      exact List.filter_congr fun v _ => by by_cases hv : v ∈ g.2 <;> simp [hv]
    rw [h3]
    exact (List.Perm.append_right _ h2.symm).trans h1
  have hmR : ∀ v, v ∈ R ↔ v ∈ K ∧ v ∉ g.2 := by
    intro v; rw [hR, List.mem_filter, decide_eq_true_eq]
  have hRpos : ∀ v ∈ R, shoelace v < 0 := by
    intro v hv
    obtain ⟨v1, v2⟩ := (hmR v).1 hv
    obtain ⟨v3, v4⟩ := (hmK v).1 v1
    by_contra hcon
    obtain ⟨m, _, _, _, m3⟩ := hN.negative (h.mem hg hn)
    have e1 := m3 v (hm v v3) v4 hcon
    have e2 := m3 n (h.mem hg hn) (hN.refl n (h.mem hg hn)) hp
    exact v2 (e1.trans e2.symm ▸ hn)
  have hRne : R ≠ [] := by
    obtain ⟨v, hv⟩ := List.exists_mem_of_ne_nil _ (h.ne g hg)
    obtain ⟨e, he, -⟩ := polyEdges_fst hv
    obtain ⟨b1, b2⟩ := mem_border.1 ((h.edges g hg).mem_iff.1 he)
    obtain ⟨a, ha, ea⟩ := List.mem_flatMap.1 b1
    obtain ⟨u, hu, hue⟩ := hrev a (hgK a ha) e ea
    intro hcon
    have : u ∈ R := (hmR u).2 ⟨hu, fun hx => b2 (List.mem_flatMap.2 ⟨u, hx, hue⟩)⟩
    rw [hcon] at this
    cases this
  have key : ∀ l : List (List Pt), l ≠ [] → (∀ c ∈ l, shoelace c < 0) → (l.map shoelace).sum < 0 := by
    intro l
    induction l with
    | nil => intro h; exact absurd rfl h
    | cons a l ih =>
      intro _ h
      rw [List.map_cons, List.sum_cons]
      have h1 := h a List.mem_cons_self
      rcases eq_or_ne l [] with rfl | hl
      · simpa using h1
      · have := ih hl fun c hc => h c (List.mem_cons_of_mem _ hc)
        linarith
  have hR0 := key R hRne hRpos
  rw [← (hperm.map shoelace).sum_eq, List.map_append, List.sum_append] at hsum
  rw [group_shoelace (h.edgesNodup hg) (h.edges g hg)]
  linarith

/-- A group either has only positive cells or one negative one. -/
theorem Parted.sign {g : List Pt × List (List Pt)} (hg : g ∈ Gs) :
    (shoelace g.1 < 0 ∧ ∀ v ∈ g.2, cellPos v) ∨
    (0 < shoelace g.1 ∧ ∃ n ∈ g.2, ¬ cellPos n ∧ ∀ v ∈ g.2, v ≠ n → cellPos v) := by
  by_cases hp : ∀ v ∈ g.2, cellPos v
  · exact Or.inl ⟨h.positive hg hp, hp⟩
  · push Not at hp
    obtain ⟨n, hn, hnp⟩ := hp
    refine Or.inr ⟨h.negative hg hn hnp, n, hn, hnp, fun v hv hne => ?_⟩
    by_contra hcon
    have hN := nested h.full.wheel h.full.tiling
    obtain ⟨m, _, _, _, m3⟩ := hN.negative (h.mem hg hn)
    have e1 := m3 v (h.mem hg hv) (h.conn hg hn hv) hcon
    have e2 := m3 n (h.mem hg hn) (hN.refl n (h.mem hg hn)) hnp
    exact hne (e1.trans e2.symm)

/-- The search outwards from a cell of a negative group gets to a positive group. -/
theorem Parted.outwards {P : List (List Pt × List (List Pt))} (hP : ∀ g, g ∈ P ↔ g ∈ Gs ∧ shoelace g.1 < 0) (k : ℕ) {c : Cell1}
    (hc : c ∈ A.cells) {g : List Pt × List (List Pt)} (hg : g ∈ Gs) (hcg : c.vertices ∈ g.2) (hgn : ¬ shoelace g.1 < 0)
    (hk : (wrapping A.net (A.cells.map Cell1.vertices) c.vertices).card < k) :
    ∃ p ∈ P, ∃ d ∈ p.2, (∀ n, (wrapping A.net (A.cells.map Cell1.vertices) c.vertices).card < n →
        Arr.outwards A.containers (spread P) n c.vertices = .ok (some p.1)) ∧
      d ≠ c.vertices ∧ cellW A.net d c.vertices ≠ 0 ∧
      ∀ q ∈ Gs, ∀ b ∈ q.2, ¬ cellPos b → b ≠ c.vertices → cellW A.net b c.vertices ≠ 0 →
        (∃ o ∈ q.2, cellPos o ∧ cellW A.net o c.vertices ≠ 0) ∨ cellW A.net b d ≠ 0 := by
  have hN := nested h.full.wheel h.full.tiling
  have hPn : ∀ {g}, g ∈ Gs → ¬ shoelace g.1 < 0 → ∀ o ∈ g.2, getPos (spread P) o = none := by
    intro g hg hgn o ho
    refine getPos_none fun k hk hok => hgn ?_
    rw [h.same hg ((hP k).1 hk).1 ho hok]
    exact ((hP k).1 hk).2
  induction k generalizing c g with
  | zero => omega
  | succ k ih =>
    have hcm := List.mem_toFinset.2 (List.mem_map_of_mem (f := Cell1.vertices) hc)
    have hs : S c.point := (h.iff c hc).1 (h.perm.mem_iff.1 (List.mem_flatMap.2 ⟨g, hg, hcg⟩))
    obtain ⟨o, ho, hok⟩ := container_ok h.full hc
    cases o with
    | none =>
      exfalso
      obtain ⟨_, hfar⟩ := container_none h.full h.built hc ho
      obtain ⟨M, hM⟩ := h.far
      obtain ⟨M', hM'⟩ : ∃ M' : ℚ, ∀ q : Pt, M' < q.1 → ¬ OnAny A.net.halfEdges q := by
        obtain ⟨M', -, hM'⟩ := far_bound [] (A.net.halfEdges.map fun e => [e.1, e.2])
        refine ⟨M', fun q hq => ?_⟩
        rintro ⟨e, he, t, t0, t1, e'⟩
        have h1 := hM' _ (List.mem_map_of_mem he) e.1 (by simp)
        have h2 := hM' _ (List.mem_map_of_mem he) e.2 (by simp)
        have h3 := congrArg Prod.fst e'
        unfold along at h3
        dsimp only at h3
        nlinarith
      obtain ⟨q, hq, hsf⟩ := hfar (max M M')
      exact hM q ((le_max_left _ _).trans_lt hq)
        ((h.face _ _ (h.built.off c hc) (hM' q ((le_max_right _ _).trans_lt hq)) hsf).1 hs)
    | some v =>
      obtain ⟨hv, hne, hw, hdeg, hsg⟩ := hok.2 v rfl
      obtain ⟨d, hd, rfl⟩ := List.mem_map.1 hv
      dsimp only at hne hw hdeg hsg
      have hdm := List.mem_toFinset.2 hv
      have hstep : ∀ n, Arr.outwards A.containers (spread P) (n + 1) c.vertices =
          match getPos (spread P) d.vertices with
          | some o => (return some o : Except PyErr (Option (List Pt)))
          | none => Arr.outwards A.containers (spread P) n d.vertices := by
        intro n
        rw [Arr.outwards, ho]
        rfl
      have hinner : ∀ b ∈ (A.cells.map Cell1.vertices).toFinset, b ≠ c.vertices → cellW A.net b c.vertices ≠ 0 → b ≠ d.vertices →
          cellW A.net b d.vertices ≠ 0 := fun b hb h1 h2 h3 => hN.innermost hb hdm hcm h1 h3 h2 hw hdeg
      have hlt : (wrapping A.net (A.cells.map Cell1.vertices) d.vertices).card <
          (wrapping A.net (A.cells.map Cell1.vertices) c.vertices).card := by
        refine Finset.card_lt_card ⟨fun a ha => ?_, fun hsub => ?_⟩
        · obtain ⟨a1, a2, a3⟩ := mem_wrapping.1 ha
          have am := List.mem_toFinset.2 a1
          refine mem_wrapping.2 ⟨a1, ?_, hN.around_trans am hdm hcm a2 a3 hw⟩
          rintro rfl
          have d1 := hN.degree_lt am hdm a2 a3
          omega
        · exact (mem_wrapping.1 (hsub (mem_wrapping.2 ⟨hv, hne, hw⟩))).2.1 rfl
      -- the next cell is selected, and in the same group if the cell is positive
      have hds : S d.point ∧ (cellPos c.vertices → d.vertices ∈ g.2) := by
        by_cases hpc : cellPos c.vertices
        · rcases h.sign hg with ⟨h1, -⟩ | ⟨-, n, hn, hnp, -⟩
          · exact absurd h1 hgn
          have := hN.container_pos hdm hcm (h.mem hg hn) hpc hnp (h.conn hg hcg hn) hw hdeg
          refine ⟨(h.iff d hd).1 (h.perm.mem_iff.1 (List.mem_flatMap.2 ⟨g, hg, this ▸ hn⟩)), fun _ => this ▸ hn⟩
        · have := (container_neg h.full h.built hc hpc hd ho).1
          exact ⟨(h.face _ _ (h.built.off c hc) (h.built.off d hd) this).1 hs, fun h => absurd h hpc⟩
      obtain ⟨q, hq, hdq⟩ := h.group hd hds.1
      by_cases hqp : shoelace q.1 < 0
      · have hqP := (hP q).2 ⟨hq, hqp⟩
        refine ⟨q, hqP, d.vertices, hdq, fun n hn => ?_, hne, hw, fun q' hq' b hb hbn hbc hbw => Or.inr ?_⟩
        · obtain ⟨n, rfl⟩ : ∃ m, n = m + 1 := ⟨n - 1, by omega⟩
          rw [hstep, getPos_some hqP hdq fun k hk hdk => h.same ((hP k).1 hk).1 hq hdk hdq]
          rfl
        · refine hinner b (h.mem hq' hb) hbc hbw ?_
          rintro rfl
          rcases h.sign hq with ⟨-, h2⟩ | ⟨h1, -⟩
          · exact hbn (h2 _ hdq)
          · linarith
      · obtain ⟨p, hp, x, hx, e, p1, p2, p3⟩ := ih hd hq hdq hqp (by omega)
        have hxm := h.mem ((hP p).1 hp).1 hx
        refine ⟨p, hp, x, hx, fun n hn => ?_, ?_, hN.around_trans hxm hdm hcm p1 p2 hw, fun q' hq' b hb hbn hbc hbw => ?_⟩
        · obtain ⟨n, rfl⟩ : ∃ m, n = m + 1 := ⟨n - 1, by omega⟩
          rw [hstep, hPn hq hqp _ hdq]
          exact e n (by omega)
        · rintro rfl
          have d1 := hN.degree_lt hxm hdm p1 p2
          omega
        · by_cases hbd : b = d.vertices
          · left
            have hpc : cellPos c.vertices := by
              by_contra hpc
              exact hbn (hbd ▸ hsg.2 hpc)
            have hq'g := h.same hq' hg hb (hbd ▸ hds.2 hpc)
            refine ⟨c.vertices, hq'g ▸ hcg, hpc, ?_⟩
            rw [hN.own _ hcm, if_pos hpc]
            decide
          · rcases p3 q' hq' b hb hbn hbd (hinner b (h.mem hq' hb) hbc hbw hbd) with ⟨o, o1, o2, o3⟩ | h4
            · left
              by_cases hod : o = d.vertices
              · exact ⟨o, o1, o2, hod ▸ hw⟩
              · exact ⟨o, o1, o2, hN.around_trans (h.mem hq' o1) hdm hcm hod o3 hw⟩
            · exact Or.inr h4

/-- All cells of a negative group lead to the same positive group. -/
theorem Parted.outer {P : List (List Pt × List (List Pt))} (hP : ∀ g, g ∈ P ↔ g ∈ Gs ∧ shoelace g.1 < 0)
    {g : List Pt × List (List Pt)} (hg : g ∈ Gs) (hgn : ¬ shoelace g.1 < 0) :
    ∃ p ∈ P, (∀ o ∈ g.2, getPos (spread P) o = none ∧
        Arr.outwards A.containers (spread P) (A.containers.length + 1) o = .ok (some p.1)) ∧
      ∃ n ∈ g.2, ¬ cellPos n ∧ (∀ v ∈ g.2, v ≠ n → cellPos v) ∧ ∃ d ∈ p.2, d ≠ n ∧ cellW A.net d n ≠ 0 ∧
        ∀ q ∈ Gs, ∀ b ∈ q.2, ¬ cellPos b → b ≠ n → cellW A.net b n ≠ 0 →
          (∃ o ∈ q.2, cellPos o ∧ cellW A.net o n ≠ 0) ∨ cellW A.net b d ≠ 0 := by
  have hN := nested h.full.wheel h.full.tiling
  have hPn : ∀ o ∈ g.2, getPos (spread P) o = none := by
    intro o ho
    refine getPos_none fun k hk hok => hgn ?_
    rw [h.same hg ((hP k).1 hk).1 ho hok]
    exact ((hP k).1 hk).2
  have hcard : ∀ v : List Pt, (wrapping A.net (A.cells.map Cell1.vertices) v).card ≤ A.containers.length := by
    intro v
    have h1 : A.containers.length = (A.cells.map Cell1.vertices).length := by rw [← h.full.keys, List.length_map]
    rw [h1]
    exact (Finset.card_filter_le _ _).trans (List.toFinset_card_le _)
  rcases h.sign hg with ⟨h1, -⟩ | ⟨-, n, hn, hnp, hothers⟩
  · exact absurd h1 hgn
  obtain ⟨c, hc, rfl, -⟩ := h.cell hg hn
  obtain ⟨p, hp, d, hd, e, d1, d2, d3⟩ := h.outwards hP _ hc hg hn hgn (Nat.lt_succ_self _)
  refine ⟨p, hp, fun o ho => ⟨hPn o ho, ?_⟩, c.vertices, hn, hnp, hothers, d, hd, d1, d2, d3⟩
  by_cases hoc : o = c.vertices
  · rw [hoc]; exact e _ (Nat.lt_succ_of_le (hcard _))
  · obtain ⟨x, hx, rfl, -⟩ := h.cell hg ho
    have hxp := hothers _ ho hoc
    obtain ⟨y, hy, hok⟩ := container_ok h.full hx
    cases y with
    | none => exact absurd hxp (container_none h.full h.built hx hy).1
    | some v =>
      obtain ⟨hv, hne, hw, hdeg, hsg⟩ := hok.2 v rfl
      have hvm := List.mem_toFinset.2 hv
      dsimp only at hne hw hdeg hsg
      have hvc := hN.container_pos hvm (h.mem hg ho) (h.mem hg hn) hxp hnp (h.conn hg ho hn) hw hdeg
      subst hvc
      rw [Arr.outwards, hy]
      show (match getPos (spread P) c.vertices with
          | some o => (return some o : Except PyErr (Option (List Pt)))
          | none => Arr.outwards A.containers (spread P) A.containers.length c.vertices) = _
      rw [hPn _ hn]
      refine e _ ?_
      have hlt : (wrapping A.net (A.cells.map Cell1.vertices) c.vertices).card <
          (wrapping A.net (A.cells.map Cell1.vertices) x.vertices).card := by
        refine Finset.card_lt_card ⟨fun a ha => ?_, fun hsub => ?_⟩
        · obtain ⟨a1, a2, a3⟩ := mem_wrapping.1 ha
          have am := List.mem_toFinset.2 a1
          refine mem_wrapping.2 ⟨a1, ?_, hN.around_trans am hvm (h.mem hg ho) a2 a3 hw⟩
          rintro rfl
          have d1 := hN.degree_lt am hvm a2 a3
          omega
        · exact (mem_wrapping.1 (hsub (mem_wrapping.2 ⟨hv, hne, hw⟩))).2.1 rfl
      have := hcard x.vertices
      omega

/-! ### Winding numbers of groups -/

/-- The winding number of a group around the points of a cell. -/
theorem Parted.winding {g : List Pt × List (List Pt)} (hg : g ∈ Gs) {c : Cell1} (hc : c ∈ A.cells) :
    windingNumber g.1 c.point = (g.2.map fun v => cellW A.net v c.vertices).sum := by
  rw [group_winding (h.edgesNodup hg) (h.edges g hg)]
  congr 1
  refine List.map_congr_left fun v hv => ?_
  obtain ⟨d, hd, rfl, -⟩ := h.cell hg hv
  exact (cellW_pt h.full hd hc).symm

/-- At most one positive cell of a group winds around a cell. -/
theorem Parted.once {g : List Pt × List (List Pt)} (hg : g ∈ Gs) {c : Cell1} (hc : c ∈ A.cells) {u v : List Pt} (hu : u ∈ g.2)
    (hv : v ∈ g.2) (pu : cellPos u) (pv : cellPos v) (wu : cellW A.net u c.vertices ≠ 0) (wv : cellW A.net v c.vertices ≠ 0) :
    u = v := by
  have hN := nested h.full.wheel h.full.tiling
  have hcm := List.mem_toFinset.2 (List.mem_map_of_mem (f := Cell1.vertices) hc)
  by_contra hne
  rcases hN.comparable (h.mem hg hu) (h.mem hg hv) hcm hne wu wv with h1 | h1
  · rw [hN.same _ (h.mem hg hu) _ (h.mem hg hv) (h.conn hg hu hv) hne, hN.own _ (h.mem hg hu), if_pos pu] at h1
    exact h1 rfl
  · rw [hN.same _ (h.mem hg hv) _ (h.mem hg hu) (h.conn hg hv hu) (Ne.symm hne), hN.own _ (h.mem hg hv), if_pos pv] at h1
    exact h1 rfl

end

/-- A sum with at most one number other than zero. -/
theorem sum_once {α : Type*} (l : List α) (hl : l.Nodup) (f : α → ℤ) (e : ℤ) (h : ∀ x ∈ l, f x = e ∨ f x = 0)
    (hu : ∀ x ∈ l, ∀ y ∈ l, f x ≠ 0 → f y ≠ 0 → x = y) :
    (∀ x ∈ l, f x ≠ 0 → (l.map f).sum = e) ∧ ((∀ x ∈ l, f x = 0) → (l.map f).sum = 0) := by
  induction l with
  | nil => simp
  | cons a l ih =>
    obtain ⟨h1, h2⟩ := List.nodup_cons.1 hl
    obtain ⟨i1, i2⟩ := ih h2 (fun x hx => h x (List.mem_cons_of_mem _ hx))
      fun x hx y hy => hu x (List.mem_cons_of_mem _ hx) y (List.mem_cons_of_mem _ hy)
    rw [List.map_cons, List.sum_cons]
    constructor
    · intro x hx hx0
      rcases List.mem_cons.1 hx with rfl | hx
      · rw [i2, (h x List.mem_cons_self).resolve_right hx0, add_zero]
        intro y hy
        by_contra hy0
        exact h1 (hu x List.mem_cons_self y (List.mem_cons_of_mem _ hy) hx0 hy0 ▸ hy)
      · rw [i1 x hx hx0]
        have : f a = 0 := by
          by_contra ha
          exact h1 (hu a List.mem_cons_self x (List.mem_cons_of_mem _ hx) ha hx0 ▸ hx)
        rw [this, zero_add]
    · intro h0
      rw [h0 a List.mem_cons_self, i2 fun x hx => h0 x (List.mem_cons_of_mem _ hx), zero_add]

section
variable {A : Arrangement} {S : Pt → Prop} {sel : List (List Pt)} {Gs : List (List Pt × List (List Pt))} (h : Parted A S sel Gs)
include h

/-- A positive group winds around the cells that one of its cells winds around. -/
theorem Parted.pos_winding {g : List Pt × List (List Pt)} (hg : g ∈ Gs) (hp : ∀ v ∈ g.2, cellPos v) {c : Cell1} (hc : c ∈ A.cells) :
    (∀ v ∈ g.2, cellW A.net v c.vertices ≠ 0 → windingNumber g.1 c.point = -1) ∧
    (windingNumber g.1 c.point = -1 ∨ windingNumber g.1 c.point = 0) := by
  have hN := nested h.full.wheel h.full.tiling
  have hcm := List.mem_toFinset.2 (List.mem_map_of_mem (f := Cell1.vertices) hc)
  have hgn : g.2.Nodup := (List.nodup_flatMap.1 (h.perm.nodup_iff.2 h.list)).1 g hg
  obtain ⟨s1, s2⟩ := sum_once g.2 hgn (fun v => cellW A.net v c.vertices) (-1)
    (fun v hv => hN.pos_value (h.mem hg hv) hcm (hp v hv)) fun u hu v hv => h.once hg hc hu hv (hp u hu) (hp v hv)
  rw [h.winding hg hc]
  refine ⟨s1, ?_⟩
  by_cases hx : ∀ v ∈ g.2, cellW A.net v c.vertices = 0
  · exact Or.inr (s2 hx)
  · push Not at hx
    obtain ⟨v, hv, hx⟩ := hx
    exact Or.inl (s1 v hv hx)

/-- A negative group winds around the cells that only its negative cell winds around. -/
theorem Parted.neg_winding {g : List Pt × List (List Pt)} (hg : g ∈ Gs) {n : List Pt} (hn : n ∈ g.2) (hnp : ¬ cellPos n)
    (ho : ∀ v ∈ g.2, v ≠ n → cellPos v) {c : Cell1} (hc : c ∈ A.cells) :
    (windingNumber g.1 c.point = 1 ∧ cellW A.net n c.vertices ≠ 0 ∧ ∀ v ∈ g.2, cellPos v → cellW A.net v c.vertices = 0) ∨
      windingNumber g.1 c.point = 0 := by
  have hN := nested h.full.wheel h.full.tiling
  have hcm := List.mem_toFinset.2 (List.mem_map_of_mem (f := Cell1.vertices) hc)
  have hgn : g.2.Nodup := (List.nodup_flatMap.1 (h.perm.nodup_iff.2 h.list)).1 g hg
  obtain ⟨l1, l2, hl⟩ := List.append_of_mem hn
  have hperm : g.2.Perm (n :: (l1 ++ l2)) := by rw [hl]; exact List.perm_middle
  have hnd := hperm.nodup_iff.1 hgn
  set R := l1 ++ l2 with hR
  have hRm : ∀ v ∈ R, v ∈ g.2 ∧ v ≠ n := fun v hv =>
    ⟨hperm.mem_iff.2 (List.mem_cons_of_mem _ hv), fun e => (List.nodup_cons.1 hnd).1 (e ▸ hv)⟩
  have hRp : ∀ v ∈ R, cellPos v := fun v hv => ho v (hRm v hv).1 (hRm v hv).2
  obtain ⟨s1, s2⟩ := sum_once R (List.nodup_cons.1 hnd).2 (fun v => cellW A.net v c.vertices) (-1)
    (fun v hv => hN.pos_value (h.mem hg (hRm v hv).1) hcm (hRp v hv))
    fun u hu v hv => h.once hg hc (hRm u hu).1 (hRm v hv).1 (hRp u hu) (hRp v hv)
  have hval := hN.neg_value (h.mem hg hn) hcm hnp
  rw [h.winding hg hc, (hperm.map _).sum_eq, List.map_cons, List.sum_cons]
  by_cases hx : ∀ v ∈ R, cellW A.net v c.vertices = 0
  · rw [s2 hx, add_zero]
    rcases hval with h0 | h0
    · exact Or.inr h0
    · refine Or.inl ⟨h0, by rw [h0]; decide, fun v hv hp => ?_⟩
      refine hx v ((List.mem_cons.1 (hperm.mem_iff.1 hv)).resolve_left ?_)
      rintro rfl
      exact hnp hp
  · push Not at hx
    obtain ⟨v, hv, hx⟩ := hx
    rw [s1 v hv hx]
    right
    have hnv : cellW A.net n v ≠ 0 := by
      rw [hN.same n (h.mem hg hn) v (h.mem hg (hRm v hv).1) (h.conn hg hn (hRm v hv).1) (Ne.symm (hRm v hv).2),
        hN.own n (h.mem hg hn), if_neg hnp]
      decide
    have := hN.around_trans (h.mem hg hn) (h.mem hg (hRm v hv).1) hcm (Ne.symm (hRm v hv).2) hnv hx
    rw [hval.resolve_left this]
    rfl

end

/-- The outlines of the polygons are the borders of linked groups of the cells, and so are their holes, turned round.  Each
group that borders a hole belongs to one that borders an outline; the two kinds of borders of one polygon wind once around the
cells inside it, and not around others. -/
def HoledGroups (A : Arrangement) (sel : List (List Pt)) (r : Geom2D) : Prop :=
  ∃ (P N : List (List Pt × List (List Pt))) (f : List Pt × List (List Pt) → List Pt × List (List Pt)),
    ((P ++ N).flatMap Prod.snd).Perm sel ∧
    (∀ x ∈ P ++ N, x.2 ≠ [] ∧ CellMerger.Linked x.2 ∧ (polyEdges x.1).Perm (border x.2)) ∧
    (∀ x ∈ P, shoelace x.1 < 0) ∧ (∀ x ∈ N, 0 < shoelace x.1) ∧ (∀ x ∈ N, f x ∈ P) ∧ r.map SPWH.outer = P.map Prod.fst ∧
    (∀ s ∈ r, ∀ p ∈ P, p.1 = s.outer → s.holes.Perm ((N.filter fun x => decide (f x = p)).map fun x => x.1.reverse)) ∧
    ∀ c ∈ A.cells, ∀ p ∈ P,
      windings (p.1 :: (N.filter fun x => decide (f x = p)).map Prod.fst) c.point = 0 ∨
      windings (p.1 :: (N.filter fun x => decide (f x = p)).map Prod.fst) c.point = -1

theorem makePolys_nodup (ch : Choices) (hch : ch.Valid) (pn : List (List Pt × List Pt)) (P : List (List Pt)) :
    ∀ r, makePolys ch pn P = .ok r → ∀ s ∈ r, s.holes.Nodup := by
  induction P with
  | nil =>
    intro r h s hs
    cases h
    cases hs
  | cons p P ih =>
    intro r h s hs
    rw [makePolys] at h
    cases e1 : SPWH.mk' p ((ch.holes p ((pn.filter fun x => decide (x.1 = p)).map Prod.snd).dedup).map List.reverse) with
    | error e => rw [e1] at h; cases h
    | ok q =>
      cases e2 : makePolys ch pn P with
      | error e => rw [e1, e2] at h; cases h
      | ok r' =>
        rw [e1, e2] at h
        cases h
        rcases List.mem_cons.1 hs with rfl | hs
        · rw [((SPWH.mk'_iff _ _ _).1 e1).1]
          exact ((hch.holes p _).nodup_iff.2 (List.nodup_dedup _)).map List.reverse_injective
        · exact ih r' e2 s hs

/-- Polygons are made from any selected cells that make discs. -/
theorem polyCells_groups (ch : Choices) (hch : ch.Valid) {A : Arrangement} (hB : BuildOK A) (hF : Full A) (S : Pt → Bool)
    (hface : ∀ p q, ¬ OnAny A.net.halfEdges p → ¬ OnAny A.net.halfEdges q → SameFace A.net.halfEdges p q → S p = S q)
    (hfar : ∃ M : ℚ, ∀ q : Pt, M < q.1 → S q = false) (sel : List (List Pt))
    (hsel : sel = (A.cells.filter fun c => S c.point).map Cell1.vertices) (hdisc : Fusing sel) :
    ∃ r, polyCells ch A sel = .ok r ∧ HoledGroups A sel r ∧
      ∀ c ∈ A.cells, Geom2D.locate r c.point = .ok (if S c.point then 1 else -1) := by
  classical
  have hN := nested hF.wheel hF.tiling
  set cs := ch.cells sel with hcs
  set n := (cs.map List.length).sum with hn
  set runs := cs.zipIdx.map fun c => (ch.merger c.2, (n + 1) * (n + 1), c.1) with hruns
  have hperm : cs.Perm sel := hch.cells sel
  have hrun : (runs.map fun r => r.2.2) = cs := by
    rw [hruns, List.map_map]
    have : ((fun r : Orders Pt × ℕ × List Pt => r.2.2) ∘ fun c : List Pt × ℕ =>
        (ch.merger c.2, (n + 1) * (n + 1), c.1)) = Prod.fst := rfl
    rw [this, List.zipIdx_map_fst]
  have hdisc' : Fusing cs := by
    refine ⟨fun c hc => hdisc.ne c (hperm.mem_iff.1 hc), hperm.nodup_iff.2 hdisc.list,
      ((hperm.flatMap_right _).nodup_iff.2 hdisc.nodup), fun c hc => hdisc.self c (hperm.mem_iff.1 hc), ?_⟩
    exact fun F h1 h2 h3 h4 => hdisc.ring F h1 h2 (fun c hc => hperm.mem_iff.1 (h3 c hc)) h4
  obtain ⟨s, e1, hG, e3⟩ := merger_groups runs (by rw [hrun]; exact hdisc') (by
    intro r hr
    rw [hruns] at hr
    obtain ⟨c, _, rfl⟩ := List.mem_map.1 hr
    exact ⟨hch.merger _, by positivity⟩)
  rw [hrun] at hG
  set Gs := ch.merged (s.cells.map fun c => (c.vertices, c.origs)) with hGs
  have hcom : Gs.Perm (s.cells.map fun c => (c.vertices, c.origs)) := hch.merged _
  have hin : ∀ x ∈ Gs, ∃ g ∈ s.cells, x = (g.vertices, g.origs) := by
    intro x hx
    obtain ⟨g, hg, rfl⟩ := List.mem_map.1 (hcom.mem_iff.1 hx)
    exact ⟨g, hg, rfl⟩
  have hsub : ∀ v ∈ sel, ∃ c ∈ A.cells, c.vertices = v := by
    intro v hv
    rw [hsel] at hv
    obtain ⟨c, hc, rfl⟩ := List.mem_map.1 hv
    exact ⟨c, (List.mem_filter.1 hc).1, rfl⟩
  have hiff : ∀ c ∈ A.cells, c.vertices ∈ sel ↔ S c.point = true := by
    intro c hc
    rw [hsel, List.mem_map]
    constructor
    · rintro ⟨d, hd, e⟩
      rw [cell_eq hF (List.mem_filter.1 hd).1 hc e] at hd
      exact (List.mem_filter.1 hd).2
    · exact fun h => ⟨c, List.mem_filter.2 ⟨hc, h⟩, rfl⟩
  have h : Parted A (fun p => S p = true) sel Gs := by
    refine ⟨hB, hF, fun p q h1 h2 h3 => by rw [hface p q h1 h2 h3], ?_, hiff, hsub, hdisc.list, hdisc.nodup, ?_, ?_, ?_, ?_, ?_⟩
    · obtain ⟨M, hM⟩ := hfar
      exact ⟨M, fun q hq => by rw [hM q hq]; simp⟩
    · refine ((hcom.flatMap_right _).trans ?_).trans (hG.origs.trans hperm)
      rw [List.flatMap_map]
    all_goals
      intro x hx
      obtain ⟨g, hg, rfl⟩ := hin x hx
    · exact (hG.cells g hg).ne
    · exact (hG.cells g hg).some
    · exact (hG.cells g hg).linked
    · exact (hG.cells g hg).edges
  set P := Gs.filter fun c => decide (shoelace c.1 < 0) with hPd
  set N := Gs.filter fun c => decide (¬ shoelace c.1 < 0) with hNd
  have hP : ∀ g, g ∈ P ↔ g ∈ Gs ∧ shoelace g.1 < 0 := by
    intro g; rw [hPd, List.mem_filter, decide_eq_true_eq]
  have hNm : ∀ g, g ∈ N ↔ g ∈ Gs ∧ ¬ shoelace g.1 < 0 := by
    intro g; rw [hNd, List.mem_filter, decide_eq_true_eq]
  have hPN : (P ++ N).Perm Gs := by
    have := List.filter_append_perm (fun c : List Pt × List (List Pt) => decide (shoelace c.1 < 0)) Gs
    have hq : N = Gs.filter fun c => !decide (shoelace c.1 < 0) := by
      rw [hNd]
      refine List.filter_congr fun x _ => ?_
      by_cases hx : shoelace x.1 < 0 <;> simp [hx]
    rw [hq]
    exact this
  have hPpos : ∀ g ∈ P, ∀ v ∈ g.2, cellPos v := by
    intro g hg
    obtain ⟨g1, g2⟩ := (hP g).1 hg
    rcases h.sign g1 with h1 | ⟨h1, -⟩
    · exact h1.2
    · linarith
  have hout : ∀ g ∈ N, ∃ p ∈ P, (∀ o ∈ g.2, getPos (spread P) o = none ∧
        outwards A.containers (spread P) (A.containers.length + 1) o = .ok (some p.1)) ∧
      ∃ n ∈ g.2, ¬ cellPos n ∧ (∀ v ∈ g.2, v ≠ n → cellPos v) ∧ ∃ d ∈ p.2, d ≠ n ∧ cellW A.net d n ≠ 0 ∧
        ∀ q ∈ Gs, ∀ b ∈ q.2, ¬ cellPos b → b ≠ n → cellW A.net b n ≠ 0 →
          (∃ o ∈ q.2, cellPos o ∧ cellW A.net o n ≠ 0) ∨ cellW A.net b d ≠ 0 :=
    fun g hg => h.outer hP ((hNm g).1 hg).1 ((hNm g).1 hg).2
  choose! f f1 f2 ν ν1 ν2 ν3 δ δ1 δ2 δ3 δ4 using hout
  have hsubE : ∀ e ∈ allEdges sel, e ∈ A.net.halfEdges := by
    intro e he
    obtain ⟨v, hv, he⟩ := List.mem_flatMap.1 he
    obtain ⟨d, hd, rfl⟩ := hsub v hv
    exact (cell_ok hF hd).sub e he
  have hnr : ∀ g ∈ Gs, NoRepeat g.1 := by
    intro g hg e he
    refine hB.planar.ne e (hsubE e ?_)
    obtain ⟨v, hv, he⟩ := List.mem_flatMap.1 (mem_border.1 ((h.edges g hg).mem_iff.1 he)).1
    exact List.mem_flatMap.2 ⟨v, h.perm.mem_iff.1 (List.mem_flatMap.2 ⟨g, hg, hv⟩), he⟩
  have hsh : ∀ g ∈ Gs, shoelace g.1 ≠ 0 := by
    intro g hg
    rcases h.sign hg with ⟨h1, -⟩ | ⟨h1, -⟩
    · exact h1.ne
    · exact h1.ne'
  have hNpos : ∀ g ∈ N, 0 < shoelace g.1 := fun g hg =>
    lt_of_le_of_ne (not_lt.1 ((hNm g).1 hg).2) (Ne.symm (hsh g ((hNm g).1 hg).1))
  obtain ⟨r, r1, r2, r3⟩ := makePolys_ok ch hch (N.map fun g => ((f g).1, g.1)) (P.map Prod.fst)
    (by
      intro p hp
      obtain ⟨g, hg, rfl⟩ := List.mem_map.1 hp
      exact ⟨hnr g ((hP g).1 hg).1, ((hP g).1 hg).2⟩) (by
      intro x hx
      obtain ⟨g, hg, rfl⟩ := List.mem_map.1 hx
      exact ⟨hnr g ((hNm g).1 hg).1, hNpos g hg⟩)
  have hpoly : polyCells ch A sel = .ok r := by
    unfold polyCells
    show (addCells Merger.empty runs >>= _) = _
    rw [e1]
    show (getCellsOriginals s >>= _) = _
    rw [e3]
    show (splitSign Gs >>= _) = _
    rw [splitSign_any Gs fun g hg => ⟨h.ne g hg, hsh g hg⟩]
    show (posOriginals P [] >>= _) = _
    rw [posOriginals_spread P [] ?_ (by simp)]
    · show (posNegatives A.containers (spread P) N >>= _) = _
      rw [posNegatives_same A.containers (spread P) N (fun g => (f g).1) fun g hg => ⟨h.has g ((hNm g).1 hg).1, f2 g hg⟩]
      exact r1
    · have := h.perm.nodup_iff.2 h.list
      rw [← (hPN.flatMap_right _).nodup_iff, List.flatMap_append] at this
      exact (List.nodup_append.1 this).1
  have hNmem : ∀ g ∈ N, ν g ∈ (A.cells.map Cell1.vertices).toFinset := fun g hg => h.mem ((hNm g).1 hg).1 (ν1 g hg)
  have hDmem : ∀ g ∈ N, δ g ∈ (A.cells.map Cell1.vertices).toFinset := fun g hg => h.mem ((hP _).1 (f1 g hg)).1 (δ1 g hg)
  have hwin : ∀ c ∈ A.cells, ∀ g ∈ N, windingNumber g.1 c.point ≠ 0 →
      cellW A.net (ν g) c.vertices ≠ 0 ∧ ∀ v ∈ g.2, cellPos v → cellW A.net v c.vertices = 0 := by
    intro c hc g g1 g2
    rcases h.neg_winding ((hNm g).1 g1).1 (ν1 g g1) (ν2 g g1) (ν3 g g1) hc with h1 | h1
    · exact h1.2
    · exact absurd h1 g2
  have hmap : ∀ c ∈ A.cells, ∀ g ∈ N, windingNumber g.1 c.point ≠ 0 → windingNumber (f g).1 c.point ≠ 0 := by
    intro c hc g g1 hw
    obtain ⟨g2, -⟩ := hwin c hc g g1 hw
    have := hN.around_trans (hDmem g g1) (hNmem g g1) (List.mem_toFinset.2 (List.mem_map_of_mem (f := Cell1.vertices) hc)) (δ2 g g1)
      (δ3 g g1) g2
    rw [(h.pos_winding ((hP _).1 (f1 g g1)).1 (hPpos _ (f1 g g1)) hc).1 _ (δ1 g g1) this]
    decide
  have hinj' : ∀ c ∈ A.cells, ∀ g ∈ N, ∀ k ∈ N, windingNumber g.1 c.point ≠ 0 → windingNumber k.1 c.point ≠ 0 → f g = f k → g = k := by
    intro c hc
    have hcm := List.mem_toFinset.2 (List.mem_map_of_mem (f := Cell1.vertices) hc)
    have one : ∀ g ∈ N, ∀ k ∈ N, windingNumber g.1 c.point ≠ 0 → windingNumber k.1 c.point ≠ 0 → f g = f k → ν g ≠ ν k →
        cellW A.net (ν g) (ν k) ≠ 0 → False := by
      intro g g1 k k1 wg wk hfe hne hw'
      obtain ⟨g2, g3⟩ := hwin c hc g g1 wg
      obtain ⟨k2, k3⟩ := hwin c hc k k1 wk
      rcases δ4 k k1 g ((hNm g).1 g1).1 (ν g) (ν1 g g1) (ν2 g g1) hne hw' with ⟨o, o1, o2, o3⟩ | h4
      · have hok : o ≠ ν k := fun e => ν2 k k1 (e ▸ o2)
        exact hN.around_trans (h.mem ((hNm g).1 g1).1 o1) (hNmem k k1) hcm hok o3 k2 (g3 o o1 o2)
      · have hx := hN.around_trans (hDmem g g1) (hNmem g g1) (hDmem k k1) (δ2 g g1) (δ3 g g1) h4
        have hdd : δ g = δ k := by
          by_contra hne'
          have hkf : δ k ∈ (f g).2 := hfe ▸ δ1 k k1
          rw [hN.same _ (hDmem g g1) _ (hDmem k k1) (h.conn ((hP _).1 (f1 g g1)).1 (δ1 g g1) hkf) hne', hN.own _ (hDmem g g1),
            if_pos (hPpos _ (f1 g g1) _ (δ1 g g1))] at hx
          exact hx rfl
        rw [← hdd] at h4
        have d1 := hN.degree_lt (hNmem g g1) (hDmem g g1) (Ne.symm (δ2 g g1)) h4
        have d2 := hN.degree_lt (hDmem g g1) (hNmem g g1) (δ2 g g1) (δ3 g g1)
        omega
    intro g g1 k k1 wg wk hfe
    obtain ⟨g2, -⟩ := hwin c hc g g1 wg
    obtain ⟨k2, -⟩ := hwin c hc k k1 wk
    by_contra hgk
    have hne : ν g ≠ ν k := fun e => hgk (h.same ((hNm g).1 g1).1 ((hNm k).1 k1).1 (ν1 g g1) (e ▸ ν1 k k1))
    rcases hN.comparable (hNmem g g1) (hNmem k k1) hcm hne g2 k2 with h1 | h1
    · exact one g g1 k k1 wg wk hfe hne h1
    · exact one k k1 g g1 wk wg hfe.symm (Ne.symm hne) h1
  have hNn : N.Nodup := h.distinct.filter _
  have hgrp : HoledGroups A sel r := by
    refine ⟨P, N, f, (hPN.flatMap_right _).trans h.perm, fun x hx => ?_, fun x hx => ((hP x).1 hx).2, hNpos, f1,
      makePolys_outer ch _ _ r r1, fun s hs p hp e => ?_, fun c hc p hp => ?_⟩
    · have hx := hPN.mem_iff.1 hx
      exact ⟨h.has x hx, h.linked x hx, h.edges x hx⟩
    · refine (List.perm_ext_iff_of_nodup (makePolys_nodup ch hch _ _ r r1 s hs) ?_).2 fun k => ?_
      · refine (hNn.filter _).map_on fun x hx y hy e => ?_
        have hx := (List.mem_filter.1 hx).1
        have hy := (List.mem_filter.1 hy).1
        exact h.outline ((hNm x).1 hx).1 ((hNm y).1 hy).1 (List.reverse_injective e)
      · rw [(r2 s hs).2 k, List.mem_map, List.mem_map]
        constructor
        · rintro ⟨x, hx, e'⟩
          refine ⟨x, List.mem_filter.2 ⟨hx, decide_eq_true ?_⟩, ?_⟩
          · exact h.outline ((hP _).1 (f1 x hx)).1 ((hP _).1 hp).1 ((congrArg Prod.fst e').trans e.symm)
          · rw [show x.1 = k.reverse from congrArg Prod.snd e', List.reverse_reverse]
        · rintro ⟨x, hx, rfl⟩
          obtain ⟨x1, x2⟩ := List.mem_filter.1 hx
          refine ⟨x, x1, ?_⟩
          rw [List.reverse_reverse, of_decide_eq_true x2, e]
    · unfold windings
      rw [List.map_cons, List.sum_cons, List.map_map]
      obtain ⟨s1, s2⟩ := sum_once (N.filter fun x => decide (f x = p)) (hNn.filter _) (fun g => windingNumber g.1 c.point) 1
        (fun g hg => by
          have g1 := (List.mem_filter.1 hg).1
          rcases h.neg_winding ((hNm g).1 g1).1 (ν1 g g1) (ν2 g g1) (ν3 g g1) hc with h1 | h1
          · exact Or.inl h1.1
          · exact Or.inr h1) (fun g hg k hk w1 w2 => by
          obtain ⟨g1, g2⟩ := List.mem_filter.1 hg
          obtain ⟨k1, k2⟩ := List.mem_filter.1 hk
          exact hinj' c hc g g1 k k1 w1 w2 ((of_decide_eq_true g2).trans (of_decide_eq_true k2).symm))
      have hv := (h.pos_winding ((hP p).1 hp).1 (hPpos p hp) hc).2
      have e : ((fun L => windingNumber L c.point) ∘ Prod.fst) = fun g : List Pt × List (List Pt) => windingNumber g.1 c.point := rfl
      rw [e]
      by_cases hx : ∀ g ∈ N.filter fun x => decide (f x = p), windingNumber g.1 c.point = 0
      · rw [s2 hx, add_zero]
        exact hv.symm
      · push Not at hx
        obtain ⟨g, hg, hx⟩ := hx
        obtain ⟨g1, g2⟩ := List.mem_filter.1 hg
        have := hmap c hc g g1 hx
        rw [of_decide_eq_true g2] at this
        rw [s1 g hg hx, hv.resolve_right this]
        exact Or.inl rfl
  refine ⟨r, hpoly, hgrp, fun c hc => ?_⟩
  obtain ⟨hw, hedges⟩ := polyCells_spec ch hch A sel hdisc.nodup r hpoly
  have hcm := List.mem_toFinset.2 (List.mem_map_of_mem (f := Cell1.vertices) hc)
  set w : List Pt × List (List Pt) → ℤ := fun g => windingNumber g.1 c.point with hwd
  have hoff : ∀ s ∈ r, ¬ OnBoundary s.outer c.point ∧ ∀ k ∈ s.holes, ¬ OnBoundary k c.point := by
    intro s hs
    refine ⟨?_, fun k hk => ?_⟩
    · rintro ⟨e, he, hx⟩
      exact hB.off c hc ⟨e, hsubE e ((hedges s hs).1 e he), hx⟩
    · rintro ⟨e, he, hx⟩
      exact hB.off c hc ⟨_, hsubE _ ((hedges s hs).2 k hk e he), (onSeg_rev e _).2 hx⟩
  have hsum : (P.map w).sum + (N.map w).sum = -(if S c.point = true then 1 else 0) := by
    have h1 : (P.map w).sum + (N.map w).sum = (Gs.map w).sum := by
      rw [← List.sum_append, ← List.map_append]
      exact (hPN.map w).sum_eq
    have h2 : (Gs.map w).sum = (sel.map fun v => windingNumber v c.point).sum := by
      rw [← (h.perm.map _).sum_eq]
      have key : ∀ l : List (List Pt × List (List Pt)), (∀ g ∈ l, g ∈ Gs) → (l.map w).sum =
          ((l.flatMap Prod.snd).map fun v => windingNumber v c.point).sum := by
        intro l
        induction l with
        | nil => intro _; rfl
        | cons a l ih =>
          intro hl
          rw [List.map_cons, List.sum_cons, ih fun g hg => hl g (List.mem_cons_of_mem _ hg), hwd]
          dsimp only
          have ha := hl a List.mem_cons_self
          rw [group_winding (h.edgesNodup ha) (h.edges a ha), List.flatMap_cons, List.map_append, List.sum_append]
      exact key _ fun _ h => h
    have h3 := faces_once hB (fun p => S p = true) (fun p q h1 h2 h3 => by rw [hface p q h1 h2 h3]) hfar.choose
      (fun q hq => by rw [hfar.choose_spec q hq]; simp) (hB.off c hc)
    rw [List.filter_congr (q := fun c => S c.point) (fun x _ => by simp)] at h3
    have h4 : ((A.cells.filter fun c => S c.point).map fun c_1 => windingNumber c_1.vertices c.point) =
        sel.map fun v => windingNumber v c.point := by
      rw [hsel, List.map_map]; rfl
    rw [h4] at h3
    rw [h1, h2]
    by_cases hs : S c.point = true
    · rw [if_pos hs] at h3 ⊢; omega
    · rw [if_neg hs] at h3 ⊢; omega
  obtain ⟨Py, mP, sP⟩ := sum_signs P (h.distinct.filter _) w (-1) (fun g hg =>
    (h.pos_winding ((hP g).1 hg).1 (hPpos g hg) hc).2) (by norm_num)
  obtain ⟨Ny, mN, sN⟩ := sum_signs N (h.distinct.filter _) w 1 (by
    intro g hg
    rcases h.neg_winding ((hNm g).1 hg).1 (ν1 g hg) (ν2 g hg) (ν3 g hg) hc with h1 | h1
    · exact Or.inl h1.1
    · exact Or.inr h1) (by norm_num)
  rw [sP, sN] at hsum
  have hmaps : ∀ g ∈ Ny, f g ∈ Py := by
    intro g hg
    obtain ⟨g1, g2⟩ := (mN g).1 hg
    exact (mP _).2 ⟨f1 g g1, hmap c hc g g1 g2⟩
  have hinj : ∀ g ∈ Ny, ∀ k ∈ Ny, f g = f k → g = k := fun g hg k hk =>
    hinj' c hc g ((mN g).1 hg).1 k ((mN k).1 hk).1 ((mN g).1 hg).2 ((mN k).1 hk).2
  obtain ⟨v, d0, d1, d2, d3⟩ := c31_locate r hw c.point
  rw [d0]
  have himage : (Ny.image f) ⊆ Py := by
    intro x hx
    obtain ⟨v, hv, rfl⟩ := Finset.mem_image.1 hx
    exact hmaps v hv
  have hcard : (Ny.image f).card = Ny.card := Finset.card_image_of_injOn fun v hv u hu h => hinj v hv u hu h
  by_cases hs : S c.point = true
  · rw [if_pos hs] at hsum ⊢
    congr 1
    rw [d1]
    obtain ⟨p, hp, hp'⟩ : ∃ p ∈ Py, p ∉ Ny.image f := by
      by_contra hcon
      push Not at hcon
      have := Finset.card_le_card (show Py ⊆ Ny.image f from hcon)
      rw [hcard] at this
      omega
    obtain ⟨p1, p2⟩ := (mP p).1 hp
    obtain ⟨s, hs', hsp⟩ := r3 p.1 (List.mem_map_of_mem p1)
    refine ⟨s, hs', ⟨(hoff s hs').1, by rw [hsp]; exact p2⟩, fun k hk => ⟨(hoff s hs').2 k hk, ?_⟩⟩
    obtain ⟨x, hx, e⟩ := List.mem_map.1 (((r2 s hs').2 k).1 hk)
    by_contra hne
    apply hp'
    have e1 : (f x).1 = s.outer := congrArg Prod.fst e
    have e2 : x.1 = k.reverse := congrArg Prod.snd e
    refine Finset.mem_image.2 ⟨x, (mN x).2 ⟨hx, ?_⟩, h.outline ((hP _).1 (f1 x hx)).1 ((hP _).1 p1).1 (e1.trans hsp)⟩
    rw [hwd]
    dsimp only
    rw [e2, windingNumber_reverse]
    exact neg_ne_zero.2 hne
  · rw [if_neg hs] at hsum ⊢
    have himg : Ny.image f = Py := Finset.eq_of_subset_of_card_le himage (by rw [hcard]; omega)
    have hv1 : v ≠ 1 := by
      rw [ne_eq, d1]
      rintro ⟨s, hs', hin, hh⟩
      obtain ⟨g, hg, eg⟩ := List.mem_map.1 (r2 s hs').1
      have : g ∈ Py := (mP _).2 ⟨hg, by rw [hwd]; dsimp only; rw [eg]; exact hin.2⟩
      rw [← himg] at this
      obtain ⟨x, hx, e⟩ := Finset.mem_image.1 this
      obtain ⟨x1, x2⟩ := (mN x).1 hx
      have hk : x.1.reverse ∈ s.holes := ((r2 s hs').2 _).2 (by
        rw [List.reverse_reverse, ← eg, ← e]
        exact List.mem_map_of_mem (f := fun g => ((f g).1, g.1)) x1)
      have := (hh _ hk).2
      rw [windingNumber_reverse] at this
      exact x2 (neg_eq_zero.1 this)
    have hv0 : v ≠ 0 := by
      rw [ne_eq, d2]
      rintro ⟨_, s, hs', h | ⟨_, pre, k, post, e, _, h⟩⟩
      · exact (hoff s hs').1 h
      · exact (hoff s hs').2 k (by rw [e]; simp) h
    congr 1
    rw [d3]
    intro p hp
    have hwf := ((SPWH.mk'_iff _ _ _).1 (hw p hp)).2.wf
    rcases p.locate_three hwf.1 hwf.2 c.point with h | h | h
    · exact absurd (d1.2 ⟨p, hp, h.2⟩) hv1
    · exact absurd (d2.2 ⟨fun h' => hv1 (d1.2 h'), p, hp, h.2⟩) hv0
    · exact h.2

/-- An operation whose selected cells make discs does not raise. -/
theorem arrangementOp_groups (ch : Choices) (hch : ch.Valid) (gs : List Geom2D) (op : List Bool → Bool)
    (hop : op (gs.map fun _ => false) = false) (hg : ∀ g ∈ gs, Geom2D.Usable g)
    (hd : ∀ A, build ch (gs.flatMap Geom2D.allSegments) = .ok A → BuildOK A → Full A →
      Fusing ((A.cells.filter fun c => chosen gs op c.point).map Cell1.vertices)) :
    ∃ A r, build ch (gs.flatMap Geom2D.allSegments) = .ok A ∧ BuildOK A ∧ Full A ∧ arrangementOp ch gs op = .ok r ∧
      HoledGroups A ((A.cells.filter fun c => chosen gs op c.point).map Cell1.vertices) r := by
  have hm : ∀ g ∈ gs, Geom2D.WellMade g := fun g h => (hg g h).made
  obtain ⟨A, hA, hF⟩ := build_ok hch (loops_geoms gs hm fun g h => (hg g h).cutting)
  obtain ⟨hB, hon⟩ := build_spec ch hch _ (segments_ne gs hm) A hA
  have hin : ∀ g ∈ gs, ∀ x, Geom2D.OnEdge g x → OnAny A.net.halfEdges x := fun g hg' x hx =>
    (hon x).2 ((onAny_flat gs x).2 ⟨g, hg', hx⟩)
  have hoff : ∀ c ∈ A.cells, ∀ g ∈ gs, ¬ Geom2D.OnEdge g c.point := fun c hc g hg' hx => hB.off c hc (hin g hg' _ hx)
  obtain ⟨r, hr, hgr, hl⟩ := polyCells_groups ch hch hB hF (chosen gs op) (chosen_face op hm hin) (chosen_far hop hm) _ rfl
    (hd A hA hB hF)
  refine ⟨A, r, hA, hB, hF, ?_, hgr⟩
  unfold arrangementOp
  rw [hA]
  show (selectCells gs op A.cells >>= _) = _
  rw [selectCells_ok gs op hm A.cells hoff]
  show (polyCells ch A _ >>= _) = _
  rw [hr]
  show (checkResult gs op r A.cells >>= _) = _
  rw [checkResult_ok gs op hm r A.cells hoff hl]
  rfl

end Ply.Arr
