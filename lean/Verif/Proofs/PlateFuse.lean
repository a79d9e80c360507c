import Verif.Proofs.PlateTree

/-!
# The polygons made from plates with holes are fused from whole plates
-/

namespace Ply

open Relation (ReflTransGen)

/-- In a connected part without closed chains a relation that connects it has all its pairs. -/
theorem Treelike.direct {α : Type} [DecidableEq α] {M S : α → α → Prop} (hM : ∀ a b, M a b → M b a) (hS : ∀ a b, S a b → S b a)
    (hSM : ∀ a b, S a b → M a b) {Ls : List α} (hT : Treelike M Ls) (n : ℕ) : ∀ F : List α, F.length = n → F.Nodup →
      (∀ x ∈ F, x ∈ Ls) → Joined S F → ∀ a ∈ F, ∀ b ∈ F, a ≠ b → M a b → S a b := by
  induction n using Nat.strongRecOn with
  | _ n ih =>
    intro F hlen hnd hsub hJ a ha b hb hne hab
    obtain ⟨l, hl, hleaf⟩ := hT F (List.ne_nil_of_mem ha) hnd hsub
    by_cases e1 : l = a
    · subst e1
      obtain ⟨s, hs, hsl, hls⟩ := hJ.neighbour hl hb hne.symm
      rwa [hleaf b hb s hs hne.symm hsl hab (hSM _ _ hls)]
    by_cases e2 : l = b
    · subst e2
      obtain ⟨s, hs, hsl, hls⟩ := hJ.neighbour hl ha hne
      rw [hleaf a ha s hs hne hsl (hM _ _ hab) (hSM _ _ hls)]
      exact hS _ _ hls
    · refine ih _ ?_ (F.erase l) rfl (hnd.erase l) (fun x hx => hsub x (List.mem_of_mem_erase hx))
        (hJ.erase hS hnd hl fun P hP Q hQ n1 n2 m1 m2 => hleaf P hP Q hQ n1 n2 (hSM _ _ m1) (hSM _ _ m2)) a
        (hnd.mem_erase_iff.2 ⟨Ne.symm e1, ha⟩) b (hnd.mem_erase_iff.2 ⟨Ne.symm e2, hb⟩) hne hab
      rw [List.length_erase_of_mem hl]
      have := List.length_pos_of_mem hl
      omega

namespace Arr

open CellMerger Filter Topology

/-- Some loops that go round the other way wind around some point. -/
theorem ccw_point {Ms H : List (List Pt)} (hs : ∀ M ∈ Ms, SimpleRing M ∧ 0 < shoelace M) (hn : Ms ≠ []) (hH : ∀ L ∈ H, SimpleRing L) :
    ∃ q, OffLoops H q ∧ 1 ≤ windings Ms q := by
  have hsd : ∀ M ∈ Ms, Sides M 1 0 := by
    intro M hM
    rcases (hs M hM).1.sides with h | h
    · exact absurd (Sides.shoelace_neg h (hs M hM).1.ne_nil) (not_lt.2 (hs M hM).2.le)
    · exact h
  obtain ⟨M, hM⟩ := List.exists_mem_of_ne_nil Ms hn
  obtain ⟨⟨p, p1, p2⟩, -⟩ := (hsd M hM).point (hs M hM).1.ne_nil
  obtain ⟨q, q1, q2⟩ := loops_off (G := [M]) (H := H ++ Ms) (p := p) (by
      intro L hL
      rcases List.mem_append.1 hL with h | h
      · exact hH L h
      · exact (hs L h).1) (by
      intro L hL
      rw [List.mem_singleton.1 hL]
      exact p1)
  refine ⟨q, fun L hL => q1 L (List.mem_append_left _ hL), ?_⟩
  have hw : windingNumber M q = 1 := by
    rw [← winding_const M p q fun x hx => q2 x hx M (by simp)]
    exact p2
  unfold windings
  rw [← hw]
  refine List.single_le_sum ?_ _ (List.mem_map_of_mem (f := fun L => windingNumber L q) hM)
  intro k hk
  obtain ⟨L, hL, rfl⟩ := List.mem_map.1 hk
  rcases (hsd L hL).winding (hs L hL).1.ne_nil (q1 L (List.mem_append_right _ hL)) with h | h <;> rw [h]
  decide

section
variable {A : Arrangement} {Ls : List (List Pt)} (hR : LoopNet A Ls)
include hR

open Classical in
/-- How the winding number of a loop changes across a half-edge. -/
theorem loop_jump {L : List Pt} (hL : L ∈ Ls) {a b : Pt} (hh : (a, b) ∈ A.net.halfEdges) {p q : Pt}
    (hp : Sees A.net.halfEdges (a, b) p) (hq : Sees A.net.halfEdges (b, a) q) :
    windingNumber L p = windingNumber L q + ((if Al A L b a then 1 else 0) - (if Al A L a b then 1 else 0)) := by
  by_cases h1 : Al A L a b
  · rw [if_neg (al_not_both hR hL h1), if_pos h1]
    rcases (hR.simple L hL).sides with hs | hs
    · have := loop_sides' hR hL hs h1
      rw [this.1 p hp, this.2 q hq]; rfl
    · have := loop_sides' hR hL hs h1
      rw [this.1 p hp, this.2 q hq]; rfl
  · by_cases h2 : Al A L b a
    · rw [if_neg h1, if_pos h2]
      rcases (hR.simple L hL).sides with hs | hs
      · have := loop_sides' hR hL hs h2
        rw [this.1 q hq, this.2 p hp]; rfl
      · have := loop_sides' hR hL hs h2
        rw [this.1 q hq, this.2 p hp]; rfl
    · rw [if_neg h1, if_neg h2, sub_self, add_zero]
      refine same_across hR hL hh (fun hb => ?_) hp hq
      rcases al_of_inner hR hL hh (by norm_num) (by norm_num) hb with h | h
      · exact h1 h
      · exact h2 h

theorem off_net {p : Pt} : OffLoops Ls p ↔ ¬ OnAny A.net.halfEdges p := by
  rw [hR.on]
  unfold OffLoops
  push Not
  exact Iff.rfl

theorem loops_same {T : List (List Pt)} (hT : ∀ L ∈ T, L ∈ Ls) {p q : Pt} (h : SameFace A.net.halfEdges p q) :
    windings T p = windings T q := by
  unfold windings
  exact congrArg List.sum (List.map_congr_left fun L hL => h L (ring_within hR (hT L hL)))

end

section
variable {A : Arrangement} {Ls : List (List Pt)} (hR : RingNet A Ls)
include hR

open Classical in
/-- How the winding numbers of loops together change across a half-edge. -/
theorem loops_jump {T : List (List Pt)} (hT : ∀ L ∈ T, L ∈ Ls) (hn : T.Nodup) {a b : Pt} (hh : (a, b) ∈ A.net.halfEdges) {p q : Pt}
    (hp : Sees A.net.halfEdges (a, b) p) (hq : Sees A.net.halfEdges (b, a) q) :
    windings T p = windings T q + ((if ∃ L ∈ T, Al A L b a then 1 else 0) - (if ∃ L ∈ T, Al A L a b then 1 else 0)) := by
  have key : ∀ u v : Pt, (T.map fun L => if Al A L u v then (1 : ℤ) else 0).sum = if ∃ L ∈ T, Al A L u v then 1 else 0 := by
    intro u v
    obtain ⟨s1, s2⟩ := sum_once T hn (fun L => if Al A L u v then (1 : ℤ) else 0) 1 (by
      intro L _
      split_ifs <;> simp) (by
      intro L hL M hM h1 h2
      refine hR.way L (hT L hL) M (hT M hM) u v ?_ ?_
      · by_contra hc
        exact h1 (if_neg hc)
      · by_contra hc
        exact h2 (if_neg hc))
    split_ifs with h
    · obtain ⟨L, hL, h⟩ := h
      exact s1 L hL (by rw [if_pos h]; decide)
    · push Not at h
      exact s2 fun L hL => if_neg (h L hL)
  rw [← key, ← key]
  unfold windings
  clear key hn
  induction T with
  | nil => rfl
  | cons L T ih =>
    simp only [List.map_cons, List.sum_cons]
    rw [ih fun L hL => hT L (List.mem_cons_of_mem _ hL), loop_jump hR.toLoopNet (hT L List.mem_cons_self) hh hp hq]
    ring

end

/-! ### Groups of cells -/

abbrev Group := List Pt × List (List Pt)

/-- The group that borders an outline, and those that border its holes. -/
def grp (N : List Group) (f : Group → Group) (p : Group) : List Group := p :: N.filter fun x => decide (f x = p)

/-- Cells that are the inside of the plates, put together in groups; `ρ` gives the loop that a cell is along. -/
structure Fusion (A : Arrangement) (Gs : List (List (List Pt))) (sel : List (List Pt)) (ρ : List Pt → List Pt) (P N : List Group)
    (f : Group → Group) : Prop where
  net : LoopNet A Gs.flatten
  tree : PlateTree Gs
  discs : Discs sel
  cell : ∀ v ∈ sel, ∃ c ∈ A.cells, c.vertices = v
  mem : ∀ v ∈ sel, ρ v ∈ Gs.flatten
  iff : ∀ v ∈ sel, ∀ a b, (a, b) ∈ polyEdges v ↔ Al A (ρ v) a b
  all : ∀ L ∈ Gs.flatten, ∃ v ∈ sel, ρ v = L
  perm : ((P ++ N).flatMap Prod.snd).Perm sel
  group : ∀ x ∈ P ++ N, x.2 ≠ [] ∧ CellMerger.Linked x.2 ∧ (polyEdges x.1).Perm (border x.2)
  neg : ∀ x ∈ P, shoelace x.1 < 0
  pos : ∀ x ∈ N, 0 < shoelace x.1
  owner : ∀ x ∈ N, f x ∈ P
  value : ∀ c ∈ A.cells, ∀ p ∈ P, windings ((grp N f p).map Prod.fst) c.point = 0 ∨ windings ((grp N f p).map Prod.fst) c.point = -1
  crisp : ∀ x ∈ P ++ N, ∀ y ∈ P ++ N, ∀ h ∈ polyEdges x.1, (h.2, h.1) ∉ polyEdges y.1

section
variable {A : Arrangement} {Gs : List (List (List Pt))} {sel : List (List Pt)} {ρ : List Pt → List Pt} {P N : List Group}
  {f : Group → Group} (h : Fusion A Gs sel ρ P N f)
include h

theorem Fusion.ring : RingNet A Gs.flatten := plate_ring h.net h.tree.toPlates

theorem Fusion.sel_mem {x : Group} (hx : x ∈ P ++ N) {v : List Pt} (hv : v ∈ x.2) : v ∈ sel :=
  h.perm.mem_iff.1 (List.mem_flatMap.2 ⟨x, hx, hv⟩)

theorem Fusion.cell_same {u v : List Pt} (hu : u ∈ sel) (hv : v ∈ sel) {e : Seg} (h1 : e ∈ polyEdges u) (h2 : e ∈ polyEdges v) :
    u = v := by
  by_contra hne
  have hp := (List.nodup_flatMap.1 h.discs.nodup).2
  have : Std.Symm (fun a b : List Pt => List.Disjoint (polyEdges a) (polyEdges b)) := ⟨fun _ _ h => List.disjoint_symm h⟩
  have hp' : sel.Pairwise fun a b => List.Disjoint (polyEdges a) (polyEdges b) := hp
  exact (hp'.forall hu hv hne) h1 h2

theorem Fusion.edge {v : List Pt} (hv : v ∈ sel) : ∃ e, e ∈ polyEdges v := by
  obtain ⟨a, ha⟩ := List.exists_mem_of_ne_nil v (h.discs.ne v hv)
  obtain ⟨e, he, -⟩ := polyEdges_fst ha
  exact ⟨e, he⟩

theorem Fusion.inj {u v : List Pt} (hu : u ∈ sel) (hv : v ∈ sel) (e : ρ u = ρ v) : u = v := by
  obtain ⟨k, hk⟩ := h.edge hu
  refine h.cell_same hu hv hk ?_
  rw [show k = (k.1, k.2) from rfl, h.iff v hv, ← e]
  exact (h.iff u hu _ _).1 hk

theorem Fusion.gnodup : ((P ++ N).flatMap Prod.snd).Nodup := h.perm.nodup_iff.2 h.discs.list

theorem Fusion.same {x y : Group} (hx : x ∈ P ++ N) (hy : y ∈ P ++ N) {v : List Pt} (h1 : v ∈ x.2) (h2 : v ∈ y.2) : x = y := by
  have := h.gnodup
  rw [List.flatMap_def] at this
  exact same_part this hx hy h1 h2

theorem Fusion.distinct : (P ++ N).Nodup := by
  have := h.gnodup
  rw [List.flatMap_def] at this
  exact parts_nodup this fun x hx => (h.group x hx).1

theorem Fusion.lnodup {x : Group} (hx : x ∈ P ++ N) : x.2.Nodup := (List.nodup_flatMap.1 h.gnodup).1 x hx

theorem Fusion.blends {x : Group} (hx : x ∈ P ++ N) : Blends x.1 (x.2.map ρ) :=
  group_blends h.ring (fun c hc => ⟨h.mem c hc, h.iff c hc⟩) h.discs (h.lnodup hx) (h.group x hx).1 (fun c hc => h.sel_mem hx hc)
    (h.group x hx).2.1 (h.group x hx).2.2

/-- Adjacent cells are in one group. -/
theorem Fusion.adjacent {x y : Group} (hx : x ∈ P ++ N) (hy : y ∈ P ++ N) {u v : List Pt} (hu : u ∈ x.2) (hv : v ∈ y.2) {a b : Pt}
    (h1 : (a, b) ∈ polyEdges u) (h2 : (b, a) ∈ polyEdges v) : x = y := by
  by_contra hne
  have key : ∀ x ∈ P ++ N, ∀ y ∈ P ++ N, x ≠ y → ∀ u ∈ x.2, ∀ v ∈ y.2, ∀ a b : Pt, (a, b) ∈ polyEdges u → (b, a) ∈ polyEdges v →
      (a, b) ∈ polyEdges x.1 := by
    intro x hx y hy hne u hu v hv a b h1 h2
    refine (h.group x hx).2.2.mem_iff.2 (mem_border.2 ⟨List.mem_flatMap.2 ⟨u, hu, h1⟩, fun hc => ?_⟩)
    obtain ⟨w, hw, hc⟩ := List.mem_flatMap.1 hc
    have := h.cell_same (h.sel_mem hx hw) (h.sel_mem hy hv) hc h2
    exact hne (h.same hx hy hw (this ▸ hv))
  exact h.crisp x hx y hy (a, b) (key x hx y hy hne u hu v hv a b h1 h2) (key y hy x hx (Ne.symm hne) v hv u hu b a h2 h1)

omit h in
theorem grp_sub {p : Group} (hp : p ∈ P) {x : Group} (hx : x ∈ grp N f p) : x ∈ P ++ N := by
  rcases List.mem_cons.1 hx with rfl | hx
  · exact List.mem_append_left _ hp
  · exact List.mem_append_right _ (List.mem_filter.1 hx).1

theorem Fusion.grp_nodup {p : Group} (hp : p ∈ P) : (grp N f p).Nodup := by
  obtain ⟨-, n2, n3⟩ := List.nodup_append.1 h.distinct
  refine List.nodup_cons.2 ⟨fun hx => n3 p hp p (List.mem_filter.1 hx).1 rfl, n2.filter _⟩

theorem Fusion.grp_own {x : Group} (hx : x ∈ P ++ N) : ∃ p ∈ P, x ∈ grp N f p := by
  rcases List.mem_append.1 hx with hx | hx
  · exact ⟨x, hx, List.mem_cons_self⟩
  · exact ⟨f x, h.owner x hx, List.mem_cons_of_mem _ (List.mem_filter.2 ⟨hx, by simp⟩)⟩

theorem Fusion.grp_one {p q : Group} (hp : p ∈ P) (hq : q ∈ P) {x : Group} (h1 : x ∈ grp N f p) (h2 : x ∈ grp N f q) : p = q := by
  obtain ⟨-, -, n3⟩ := List.nodup_append.1 h.distinct
  rcases List.mem_cons.1 h1 with e1 | h1 <;> rcases List.mem_cons.1 h2 with e2 | h2
  · exact e1.symm.trans e2
  · exact absurd e1 (n3 p hp x (List.mem_filter.1 h2).1).symm
  · exact absurd e2 (n3 q hq x (List.mem_filter.1 h1).1).symm
  · exact (of_decide_eq_true (List.mem_filter.1 h1).2).symm.trans (of_decide_eq_true (List.mem_filter.1 h2).2)

end

/-- The loops of the cells of groups. -/
def loopsOf (ρ : List Pt → List Pt) (xs : List Group) : List (List Pt) := (xs.flatMap Prod.snd).map ρ

theorem mem_loopsOf {ρ : List Pt → List Pt} {xs : List Group} {L : List Pt} :
    L ∈ loopsOf ρ xs ↔ ∃ x ∈ xs, ∃ v ∈ x.2, ρ v = L := by
  unfold loopsOf
  rw [List.mem_map]
  constructor
  · rintro ⟨v, hv, rfl⟩
    obtain ⟨x, hx, hv⟩ := List.mem_flatMap.1 hv
    exact ⟨x, hx, v, hv, rfl⟩
  · rintro ⟨x, hx, v, hv, rfl⟩
    exact ⟨v, List.mem_flatMap.2 ⟨x, hx, hv⟩, rfl⟩

section
variable {A : Arrangement} {Gs : List (List (List Pt))} {sel : List (List Pt)} {ρ : List Pt → List Pt} {P N : List Group}
  {f : Group → Group} (h : Fusion A Gs sel ρ P N f)
include h

theorem Fusion.loops_nodup {xs : List Group} (hs : ∀ x ∈ xs, x ∈ P ++ N) (hn : xs.Nodup) : (loopsOf ρ xs).Nodup := by
  refine List.Nodup.map_on ?_ ?_
  · intro u hu v hv e
    obtain ⟨x, hx, hu⟩ := List.mem_flatMap.1 hu
    obtain ⟨y, hy, hv⟩ := List.mem_flatMap.1 hv
    exact h.inj (h.sel_mem (hs x hx) hu) (h.sel_mem (hs y hy) hv) e
  · refine List.nodup_flatMap.2 ⟨fun x hx => h.lnodup (hs x hx), hn.imp_of_mem ?_⟩
    intro x y hx hy hne v h1 h2
    exact hne (h.same (hs x hx) (hs y hy) h1 h2)

theorem Fusion.loops_sub {xs : List Group} (hs : ∀ x ∈ xs, x ∈ P ++ N) : ∀ L ∈ loopsOf ρ xs, L ∈ Gs.flatten := by
  intro L hL
  obtain ⟨x, hx, v, hv, rfl⟩ := mem_loopsOf.1 hL
  exact h.mem v (h.sel_mem (hs x hx) hv)

/-- The borders of the groups wind around a point as often as the loops of their cells. -/
theorem Fusion.winds (xs : List Group) (hs : ∀ x ∈ xs, x ∈ P ++ N) {p : Pt} (hp : ¬ OnAny A.net.halfEdges p) :
    windings (xs.map Prod.fst) p = windings (loopsOf ρ xs) p := by
  induction xs with
  | nil => rfl
  | cons x xs ih =>
    have e : loopsOf ρ (x :: xs) = x.2.map ρ ++ loopsOf ρ xs := by
      unfold loopsOf
      rw [List.flatMap_cons, List.map_append]
    rw [e, windings_append, ← ih fun y hy => hs y (List.mem_cons_of_mem _ hy)]
    have hx := hs x List.mem_cons_self
    have hE := edges_sub_nodup h.discs.nodup (h.lnodup hx) fun c hc => h.sel_mem hx hc
    have e1 : windingNumber x.1 p = windings (x.2.map ρ) p := by
      rw [group_winding hE (h.group x hx).2.2]
      unfold windings
      rw [List.map_map]
      refine congrArg List.sum (List.map_congr_left fun v hv => ?_)
      have hv' := h.sel_mem hx hv
      obtain ⟨c, hc, rfl⟩ := h.cell v hv'
      exact loop_winding h.net (h.mem _ hv') hc (h.iff _ hv') hp
    rw [← e1]
    unfold windings
    rw [List.map_cons, List.map_cons, List.sum_cons]

/-- The loops of the cells of a polygon. -/
theorem Fusion.val {p : Group} (hp : p ∈ P) {q : Pt} (hq : ¬ OnAny A.net.halfEdges q) :
    windings (loopsOf ρ (grp N f p)) q = 0 ∨ windings (loopsOf ρ (grp N f p)) q = -1 := by
  have hs : ∀ x ∈ grp N f p, x ∈ P ++ N := fun x hx => grp_sub hp hx
  obtain ⟨v, hv⟩ := List.exists_mem_of_ne_nil _ (h.group p (List.mem_append_left _ hp)).1
  obtain ⟨e, he⟩ := h.edge (h.sel_mem (List.mem_append_left _ hp) hv)
  have hne : A.net.halfEdges ≠ [] :=
    List.ne_nil_of_mem ((h.iff v (h.sel_mem (List.mem_append_left _ hp) hv) e.1 e.2).1 he).mem
  obtain ⟨c, hc, hsf⟩ := h.net.built.all q hne hq
  rw [loops_same h.net (h.loops_sub hs) hsf, ← h.winds _ hs (h.net.built.off c hc)]
  exact h.value c hc p hp

/-- Inside the cells of a polygon its loops wind once. -/
theorem Fusion.inside {p : Group} (hp : p ∈ P) {x : Group} (hx : x ∈ grp N f p) {c : Cell1} (hc : c ∈ A.cells)
    (hcx : c.vertices ∈ x.2) : windings (loopsOf ρ (grp N f p)) c.point = -1 := by
  classical
  have hs : ∀ x ∈ grp N f p, x ∈ P ++ N := fun x hx => grp_sub hp hx
  have hx' := hs x hx
  set T := loopsOf ρ (grp N f p) with hT
  have hTs := h.loops_sub hs
  have hTn := h.loops_nodup hs (h.grp_nodup hp)
  have hPl := h.net.built.planar
  -- across an edge of a cell of the group
  have cross : ∀ c ∈ A.cells, ∀ d ∈ A.cells, ∀ a b, (a, b) ∈ polyEdges c.vertices → (b, a) ∈ polyEdges d.vertices →
      windings T c.point = windings T d.point + ((if ∃ L ∈ T, Al A L b a then 1 else 0) - (if ∃ L ∈ T, Al A L a b then 1 else 0)) := by
    intro c hc d hd a b h1 h2
    obtain ⟨p1, s1, f1⟩ := h.net.built.sees c hc _ h1
    obtain ⟨p2, s2, f2⟩ := h.net.built.sees d hd _ h2
    rw [← loops_same h.net hTs f1, ← loops_same h.net hTs f2]
    exact loops_jump h.ring hTs hTn (h.net.built.sub _ (List.mem_flatMap.2 ⟨_, List.mem_map_of_mem hc, h1⟩)) s1 s2
  have step : ∀ u ∈ x.2, ∀ v ∈ x.2, Adjacent u v → ∀ c ∈ A.cells, ∀ d ∈ A.cells, c.vertices = u → d.vertices = v →
      windings T c.point = windings T d.point := by
    rintro u hu v hv ⟨a, b, h1, h2⟩ c hc d hd rfl rfl
    rw [cross c hc d hd a b h1 h2, if_pos, if_pos]
    · ring
    · exact ⟨ρ c.vertices, mem_loopsOf.2 ⟨x, hx, _, hu, rfl⟩, (h.iff _ (h.sel_mem hx' hu) _ _).1 h1⟩
    · exact ⟨ρ d.vertices, mem_loopsOf.2 ⟨x, hx, _, hv, rfl⟩, (h.iff _ (h.sel_mem hx' hv) _ _).1 h2⟩
  -- a cell of the group at its border
  obtain ⟨e, he⟩ := List.exists_mem_of_ne_nil _ (h.discs.ring x.2 (h.group x hx').1 (h.lnodup hx') (fun c hc => h.sel_mem hx' hc)
    (h.group x hx').2.1).2
  obtain ⟨b1, b2⟩ := mem_border.1 he
  obtain ⟨u, hu, hue⟩ := List.mem_flatMap.1 b1
  obtain ⟨c0, hc0, rfl⟩ := h.cell u (h.sel_mem hx' hu)
  have hal := (h.iff _ (h.sel_mem hx' hu) e.1 e.2).1 hue
  obtain ⟨d, hd, hde⟩ := h.net.built.every _ (hPl.rev e hal.mem)
  have start : windings T c0.point = -1 := by
    have := cross c0 hc0 d hd e.1 e.2 hue hde
    rw [if_neg, if_pos] at this
    · have v1 := h.val hp (h.net.built.off c0 hc0)
      have v2 := h.val hp (h.net.built.off d hd)
      rw [← hT] at v1 v2
      omega
    · exact ⟨ρ c0.vertices, mem_loopsOf.2 ⟨x, hx, _, hu, rfl⟩, hal⟩
    · rintro ⟨L, hL, hL'⟩
      obtain ⟨y, hy, w, hw, rfl⟩ := mem_loopsOf.1 hL
      have hwe := (h.iff w (h.sel_mem (hs y hy) hw) _ _).2 hL'
      have := h.adjacent hx' (hs y hy) hu hw (a := e.1) (b := e.2) hue hwe
      subst this
      exact b2 (List.mem_flatMap.2 ⟨w, hw, hwe⟩)
  have hl := (h.group x hx').2.1 c0.vertices hu c.vertices hcx
  have key : ∀ v, ReflTransGen (fun a b => a ∈ x.2 ∧ b ∈ x.2 ∧ Adjacent a b) c0.vertices v → ∀ d ∈ A.cells, d.vertices = v →
      windings T d.point = -1 := by
    intro v hv
    induction hv with
    | refl =>
      intro d hd e
      rw [cell_eq h.net.full hd hc0 e]
      exact start
    | @tail y z _ h2 ih =>
      obtain ⟨hy, hz, hyz⟩ := h2
      intro d hd e
      obtain ⟨c1, hc1, e1⟩ := h.cell y (h.sel_mem hx' hy)
      rw [← step y hy z hz hyz c1 hc1 d hd e1 e]
      exact ih c1 hc1 e1
  exact key _ hl c hc rfl

/-- The loops of all cells are those of the plates. -/
theorem Fusion.whole : (loopsOf ρ (P ++ N)).Perm Gs.flatten := by
  refine (List.perm_ext_iff_of_nodup (h.loops_nodup (fun _ h => h) h.distinct) h.tree.distinct).2 fun L => ⟨h.loops_sub (fun _ h => h) L, ?_⟩
  intro hL
  obtain ⟨v, hv, rfl⟩ := h.all L hL
  obtain ⟨x, hx, hv⟩ := List.mem_flatMap.1 (h.perm.mem_iff.2 hv)
  exact mem_loopsOf.2 ⟨x, hx, v, hv, rfl⟩

theorem Fusion.split : (P.flatMap fun p => loopsOf ρ (grp N f p)).Perm Gs.flatten := by
  have nd : (P.flatMap fun p => loopsOf ρ (grp N f p)).Nodup := by
    refine List.nodup_flatMap.2 ⟨fun p hp => h.loops_nodup (fun x hx => grp_sub hp hx) (h.grp_nodup hp),
      (List.nodup_append.1 h.distinct).1.imp_of_mem ?_⟩
    intro p q hp hq hne L h1 h2
    obtain ⟨x, hx, u, hu, rfl⟩ := mem_loopsOf.1 h1
    obtain ⟨y, hy, v, hv, e⟩ := mem_loopsOf.1 h2
    have hx' := grp_sub hp hx
    have hy' := grp_sub hq hy
    have := h.inj (h.sel_mem hy' hv) (h.sel_mem hx' hu) e
    subst this
    have := h.same hx' hy' hu hv
    subst this
    exact hne (h.grp_one hp hq hx hy)
  refine (List.perm_ext_iff_of_nodup nd h.tree.distinct).2 fun L => ⟨?_, ?_⟩
  · intro hL
    obtain ⟨p, hp, hL⟩ := List.mem_flatMap.1 hL
    exact h.loops_sub (fun x hx => grp_sub hp hx) L hL
  · intro hL
    obtain ⟨x, hx, v, hv, rfl⟩ := mem_loopsOf.1 (h.whole.mem_iff.2 hL)
    obtain ⟨p, hp, hxp⟩ := h.grp_own hx
    exact List.mem_flatMap.2 ⟨p, hp, mem_loopsOf.2 ⟨x, hxp, v, hv, rfl⟩⟩

/-- A cell of another polygon is outside. -/
theorem Fusion.outside {p q : Group} (hp : p ∈ P) (hq : q ∈ P) (hne : p ≠ q) {x : Group} (hx : x ∈ grp N f p) {c : Cell1}
    (hc : c ∈ A.cells) (hcx : c.vertices ∈ x.2) : windings (loopsOf ρ (grp N f q)) c.point = 0 := by
  have hoff := h.net.built.off c hc
  have hsum : (P.map fun p => windings (loopsOf ρ (grp N f p)) c.point).sum = (Gs.map fun G => windings G c.point).sum := by
    rw [← windings_flatten, ← windings_perm h.split]
    have : ∀ l : List Group, (l.map fun p => windings (loopsOf ρ (grp N f p)) c.point).sum =
        windings (l.flatMap fun p => loopsOf ρ (grp N f p)) c.point := by
      intro l
      rw [List.flatMap_def, windings_flatten, List.map_map]
      rfl
    exact this P
  have hge : -1 ≤ (Gs.map fun G => windings G c.point).sum := by
    obtain ⟨s1, s2⟩ := sum_once Gs h.tree.list (fun G => windings G c.point) (-1) (fun G hG => (h.tree.value G hG _
      (off_loops h.net hG hoff)).symm) fun G hG H hH w1 w2 =>
      h.tree.apart G hG H hH _ (off_loops h.net hG hoff) (off_loops h.net hH hoff) w1 w2
    by_cases hz : ∀ G ∈ Gs, windings G c.point = 0
    · rw [s2 hz]; decide
    · push Not at hz
      obtain ⟨G, hG, hz⟩ := hz
      rw [s1 G hG hz]
  by_contra hz
  have h1 := h.inside hp hx hc hcx
  have h2 := (h.val hq hoff).resolve_left hz
  have h3 := two_le_sum (fun p => -windings (loopsOf ρ (grp N f p)) c.point) hne (by rw [h1]; decide) (by rw [h2]; decide) P hp hq
    (fun z hz => by rcases h.val hz hoff with w | w <;> rw [w] <;> decide)
  have h4 : (P.map fun p => -windings (loopsOf ρ (grp N f p)) c.point).sum = -(P.map fun p => windings (loopsOf ρ (grp N f p)) c.point).sum := by
    clear h3 hsum h1 h2 hz hp hq hx
    generalize P = l
    induction l with
    | nil => rfl
    | cons a l ih => simp only [List.map_cons, List.sum_cons]; rw [ih]; ring
  rw [h4, hsum] at h3
  omega

/-- A cell inside a plate goes along one of its loops. -/
theorem Fusion.plate {G : List (List Pt)} (hG : G ∈ Gs) {v : List Pt} (hv : v ∈ sel) {c : Cell1} (hc : c ∈ A.cells)
    (e : c.vertices = v) : windings G c.point ≠ 0 ↔ ρ v ∈ G := by
  subst e
  obtain ⟨k, hk⟩ := h.edge hv
  have hal := (h.iff _ hv k.1 k.2).1 hk
  constructor
  · intro hw
    obtain ⟨L, hL, hi⟩ := plate_iff h.net h.tree.toPlates hG hc hw
    rwa [h.ring.way _ (h.mem _ hv) L (mem_flat hG hL) k.1 k.2 hal ((hi _ _).1 hk)]
  · intro hL
    obtain ⟨p, p1, p2⟩ := h.net.built.sees c hc _ hk
    rw [← same_windings h.net hG p2, (plate_sides h.net h.tree.toPlates hG hL hal).1 p p1]
    decide

theorem Fusion.sel_of {c : Cell1} (hc : c ∈ A.cells) {G : List (List Pt)} (hG : G ∈ Gs) (hw : windings G c.point ≠ 0) :
    c.vertices ∈ sel := by
  obtain ⟨L, hL, hi⟩ := plate_iff h.net h.tree.toPlates hG hc hw
  obtain ⟨v, hv, rfl⟩ := h.all L (mem_flat hG hL)
  obtain ⟨d, hd, rfl⟩ := h.cell v hv
  obtain ⟨k, hk⟩ := h.edge hv
  have h1 : k ∈ polyEdges c.vertices := (hi k.1 k.2).2 ((h.iff _ hv k.1 k.2).1 hk)
  by_cases hcd : c = d
  · rw [hcd]; exact hv
  · exfalso
    have hp : A.cells.Pairwise fun a b => List.Disjoint (polyEdges a.vertices) (polyEdges b.vertices) := by
      have := (List.nodup_flatMap.1 h.net.built.nodup).2
      rw [List.pairwise_map] at this
      exact this
    have : Std.Symm (fun a b : Cell1 => List.Disjoint (polyEdges a.vertices) (polyEdges b.vertices)) :=
      ⟨fun _ _ h => List.disjoint_symm h⟩
    exact (hp.forall hc hd hcd) h1 hk

/-- A polygon has all loops of a plate or none. -/
theorem Fusion.whole_plate {p : Group} (hp : p ∈ P) {G : List (List Pt)} (hG : G ∈ Gs) {L : List Pt} (hL : L ∈ G)
    (hLT : L ∈ loopsOf ρ (grp N f p)) : ∀ M ∈ G, M ∈ loopsOf ρ (grp N f p) := by
  classical
  by_contra hcon
  push Not at hcon
  obtain ⟨M, hM, hMT⟩ := hcon
  set T := loopsOf ρ (grp N f p) with hT
  have hTs := h.loops_sub (xs := grp N f p) fun x hx => grp_sub hp hx
  set U := G.filter fun L => decide (L ∈ T) with hU
  set V := G.filter fun L => decide (L ∉ T) with hV
  have mU : ∀ K, K ∈ U ↔ K ∈ G ∧ K ∈ T := by intro K; rw [hU, List.mem_filter, decide_eq_true_eq]
  have mV : ∀ K, K ∈ V ↔ K ∈ G ∧ K ∉ T := by intro K; rw [hV, List.mem_filter, decide_eq_true_eq]
  have hUV : (U ++ V).Perm G := by
    have := List.filter_append_perm (fun L => decide (L ∈ T)) G
    have e : V = G.filter fun L => !decide (L ∈ T) := by
      rw [hV]
      refine List.filter_congr fun x _ => ?_
      by_cases hx : x ∈ T <;> simp [hx]
    rw [e]; exact this
  -- the cells of the polygon in the plate
  have inT : ∀ c ∈ A.cells, c.vertices ∈ sel → (windings T c.point ≠ 0 ↔ ρ c.vertices ∈ T) := by
    intro c hc hv
    obtain ⟨x, hx, hvx⟩ := List.mem_flatMap.1 (h.perm.mem_iff.2 hv)
    obtain ⟨q, hq, hxq⟩ := h.grp_own hx
    by_cases hqp : q = p
    · subst hqp
      refine ⟨fun _ => mem_loopsOf.2 ⟨x, hxq, _, hvx, rfl⟩, fun _ => ?_⟩
      rw [h.inside hq hxq hc hvx]; decide
    · refine ⟨fun hw => absurd (h.outside hq hp hqp hxq hc hvx) hw, fun hm => ?_⟩
      obtain ⟨y, hy, w, hw, e⟩ := mem_loopsOf.1 hm
      have hy' := grp_sub hp hy
      have := h.inj (h.sel_mem hy' hw) hv e
      subst this
      have := h.same hx hy' hvx hw
      subst this
      exact absurd (h.grp_one hq hp hxq hy) hqp
  obtain ⟨B, -, hB⟩ := far_bound [] (G ++ T)
  have hfar : ∀ q : Pt, B < q.1 → ¬ (windings G q ≠ 0 ∧ windings T q ≠ 0) := by
    intro q hq hc
    apply hc.1
    unfold windings
    rw [List.map_congr_left (g := fun _ => (0 : ℤ)) fun L hL => winding_far L q fun v hv =>
      lt_trans (hB L (List.mem_append_left _ hL) v hv) hq]
    simp
  have hsumU : ∀ q, ¬ OnAny A.net.halfEdges q → windings U q = -(if windings G q ≠ 0 ∧ windings T q ≠ 0 then 1 else 0) := by
    intro q hq
    set cs := A.cells.filter fun c => decide (windings G c.point ≠ 0 ∧ windings T c.point ≠ 0) with hcs
    have : -(cs.map fun c => windingNumber c.vertices q).sum = if windings G q ≠ 0 ∧ windings T q ≠ 0 then 1 else 0 := by
      convert faces_once h.net.built (fun q => windings G q ≠ 0 ∧ windings T q ≠ 0) (by
        intro p q _ _ hs
        rw [same_windings h.net hG hs, loops_same h.net hTs hs]) B hfar hq
    rw [← this, neg_neg]
    have mcs : ∀ c, c ∈ cs ↔ c ∈ A.cells ∧ windings G c.point ≠ 0 ∧ windings T c.point ≠ 0 := by
      intro c; rw [hcs, List.mem_filter, decide_eq_true_eq]
    have hseq : ∀ c ∈ cs, c.vertices ∈ sel := fun c hc => h.sel_of ((mcs c).1 hc).1 hG ((mcs c).1 hc).2.1
    have hperm : (cs.map fun c => ρ c.vertices).Perm U := by
      refine (List.perm_ext_iff_of_nodup ?_ ((h.tree.nodup G hG).filter _)).2 fun K => ?_
      · refine List.Nodup.map_on ?_ ((List.Nodup.of_map _ h.net.full.nodup).filter _)
        intro c hc d hd e
        exact cell_eq h.net.full ((mcs c).1 hc).1 ((mcs d).1 hd).1 (h.inj (hseq c hc) (hseq d hd) e)
      · rw [mU, List.mem_map]
        constructor
        · rintro ⟨c, hc, rfl⟩
          obtain ⟨c1, c2, c3⟩ := (mcs c).1 hc
          exact ⟨(h.plate hG (hseq c hc) c1 rfl).1 c2, (inT c c1 (hseq c hc)).1 c3⟩
        · rintro ⟨k1, k2⟩
          obtain ⟨v, hv, rfl⟩ := h.all K (mem_flat hG k1)
          obtain ⟨c, hc, rfl⟩ := h.cell v hv
          exact ⟨c, (mcs c).2 ⟨hc, (h.plate hG hv hc rfl).2 k1, (inT c hc hv).2 k2⟩, rfl⟩
    rw [← windings_perm hperm]
    unfold windings
    rw [List.map_map]
    refine congrArg List.sum (List.map_congr_left fun c hc => ?_)
    exact (loop_winding h.net (h.mem _ (hseq c hc)) ((mcs c).1 hc).1 (h.iff _ (hseq c hc)) hq).symm
  have hsum : ∀ q, ¬ OnAny A.net.halfEdges q → windings U q ≤ 0 ∧ windings V q ≤ 0 := by
    intro q hq
    have h1 := hsumU q hq
    have h2 := windings_perm hUV q
    rw [windings_append] at h2
    have h3 := h.tree.value G hG q (off_loops h.net hG hq)
    split_ifs at h1 with hc
    · obtain ⟨c1, -⟩ := hc
      omega
    · omega
  have bad : ∀ W : List (List Pt), W ≠ [] → (∀ K ∈ W, K ∈ G) → (∀ K ∈ W, 0 < shoelace K) →
      (∀ q, ¬ OnAny A.net.halfEdges q → windings W q ≤ 0) → False := by
    intro W hne hWG hpos hw
    obtain ⟨q, q1, q2⟩ := ccw_point (Ms := W) (H := Gs.flatten) (fun K hK => ⟨h.tree.simple G hG K (hWG K hK), hpos K hK⟩) hne
      h.net.simple
    have := hw q ((off_net h.net).1 q1)
    omega
  by_cases hall : ∀ K ∈ U, 0 < shoelace K
  · exact bad U (List.ne_nil_of_mem ((mU L).2 ⟨hL, hLT⟩)) (fun K hK => ((mU K).1 hK).1) hall fun q hq => (hsum q hq).1
  · push Not at hall
    obtain ⟨K, hK, hneg⟩ := hall
    obtain ⟨k1, k2⟩ := (mU K).1 hK
    have hKn : shoelace K < 0 := lt_of_le_of_ne hneg (shoelace_ne (h.tree.simple G hG K k1).sides (h.tree.simple G hG K k1).ne_nil)
    refine bad V (List.ne_nil_of_mem ((mV M).2 ⟨hM, hMT⟩)) (fun K hK => ((mV K).1 hK).1) (fun J hJ => ?_) fun q hq => (hsum q hq).2
    obtain ⟨j1, j2⟩ := (mV J).1 hJ
    by_contra hJn
    have := lt_of_le_of_ne (not_lt.1 hJn) (shoelace_ne (h.tree.simple G hG J j1).sides (h.tree.simple G hG J j1).ne_nil)
    exact j2 (h.tree.outer G hG K k1 J j1 hKn this ▸ k2)

end

theorem sum_nonpos {α : Type} (C : List α) (k : α → ℤ) (h : ∀ x ∈ C, k x ≤ 0) : (C.map k).sum ≤ 0 := by
  induction C with
  | nil => simp
  | cons G C ih =>
    rw [List.map_cons, List.sum_cons]
    have h1 := h G List.mem_cons_self
    have h2 := ih fun K hK => h K (List.mem_cons_of_mem _ hK)
    omega

/-- Loops of the two plates go opposite ways along a half-edge. -/
def PSeam (A : Arrangement) (G H : List (List Pt)) : Prop := ∃ L ∈ G, ∃ M ∈ H, ∃ u v, Al A L u v ∧ Al A M v u

theorem PSeam.symm {A : Arrangement} {G H : List (List Pt)} (h : PSeam A G H) : PSeam A H G := by
  obtain ⟨L, hL, M, hM, u, v, h1, h2⟩ := h
  exact ⟨M, hM, L, hL, v, u, h2, h1⟩

theorem PSeam.related {A : Arrangement} {G H : List (List Pt)} (h : PSeam A G H) : Related Meet G H := by
  obtain ⟨L, hL, M, hM, u, v, h1, h2⟩ := h
  exact ⟨L, hL, M, hM, u, h1.left, h2.right⟩

open Classical in
/-- The plates of a polygon. -/
noncomputable def platesIn (Gs : List (List (List Pt))) (T : List (List Pt)) : List (List (List Pt)) :=
  Gs.filter fun G => decide (∃ L ∈ G, L ∈ T)

theorem mem_platesIn {Gs : List (List (List Pt))} {T : List (List Pt)} {G : List (List Pt)} :
    G ∈ platesIn Gs T ↔ G ∈ Gs ∧ ∃ L ∈ G, L ∈ T := by
  unfold platesIn
  rw [List.mem_filter, decide_eq_true_eq]

section
variable {A : Arrangement} {Gs : List (List (List Pt))} {sel : List (List Pt)} {ρ : List Pt → List Pt} {P N : List Group}
  {f : Group → Group} (h : Fusion A Gs sel ρ P N f)
include h

theorem Fusion.plates_perm {p : Group} (hp : p ∈ P) :
    (platesIn Gs (loopsOf ρ (grp N f p))).flatten.Perm (loopsOf ρ (grp N f p)) := by
  have hs : ∀ x ∈ grp N f p, x ∈ P ++ N := fun x hx => grp_sub hp hx
  refine (List.perm_ext_iff_of_nodup ?_ (h.loops_nodup hs (h.grp_nodup hp))).2 fun L => ⟨?_, ?_⟩
  · exact (List.filter_sublist.flatten).nodup h.tree.distinct
  · intro hL
    obtain ⟨G, hG, hL⟩ := List.mem_flatten.1 hL
    obtain ⟨hG, M, hM, hMT⟩ := mem_platesIn.1 hG
    exact h.whole_plate hp hG hM hMT L hL
  · intro hL
    obtain ⟨G, hG, hLG⟩ := List.mem_flatten.1 (h.loops_sub hs L hL)
    exact List.mem_flatten.2 ⟨G, mem_platesIn.2 ⟨hG, L, hLG, hL⟩, hLG⟩

/-- The plates of a polygon are connected by seams. -/
theorem Fusion.seams {p : Group} (hp : p ∈ P) : Joined (PSeam A) (platesIn Gs (loopsOf ρ (grp N f p))) := by
  classical
  have hs : ∀ x ∈ grp N f p, x ∈ P ++ N := fun x hx => grp_sub hp hx
  set T := loopsOf ρ (grp N f p) with hT
  set 𝒢 := platesIn Gs T with h𝒢
  have hpg : p ∈ grp N f p := List.mem_cons_self
  have hγ : ∀ v ∈ sel, ∃ G ∈ Gs, ρ v ∈ G := fun v hv => List.mem_flatten.1 (h.mem v hv)
  choose! γ g1 g2 using hγ
  have hin : ∀ x ∈ grp N f p, ∀ v ∈ x.2, γ v ∈ 𝒢 := fun x hx v hv =>
    mem_platesIn.2 ⟨g1 v (h.sel_mem (hs x hx) hv), ρ v, g2 v (h.sel_mem (hs x hx) hv), mem_loopsOf.2 ⟨x, hx, v, hv, rfl⟩⟩
  have hγeq : ∀ v ∈ sel, ∀ G ∈ Gs, ρ v ∈ G → γ v = G := fun v hv G hG hm => same_group h.tree.distinct (g1 v hv) hG (g2 v hv) hm
  have link : ∀ x ∈ grp N f p, ∀ u ∈ x.2, ∀ v ∈ x.2, ReflTransGen (fun a b => a ∈ 𝒢 ∧ b ∈ 𝒢 ∧ PSeam A a b) (γ u) (γ v) := by
    intro x hx u hu v hv
    refine ((h.group x (hs x hx)).2.1 u hu v hv).lift γ ?_
    rintro a b ⟨ha, hb, k, l, e1, e2⟩
    have ha' := h.sel_mem (hs x hx) ha
    have hb' := h.sel_mem (hs x hx) hb
    exact ⟨hin x hx a ha, hin x hx b hb, ρ a, g2 a ha', ρ b, g2 b hb', k, l, (h.iff a ha' _ _).1 e1, (h.iff b hb' _ _).1 e2⟩
  obtain ⟨v0, hv0⟩ := List.exists_mem_of_ne_nil _ (h.group p (hs p hpg)).1
  set R : List (List Pt) → Prop := fun G => ReflTransGen (fun a b => a ∈ 𝒢 ∧ b ∈ 𝒢 ∧ PSeam A a b) (γ v0) G with hRd
  have hall : ∀ G ∈ 𝒢, R G := by
    by_contra hcon
    push Not at hcon
    obtain ⟨G1, hG1, hnr⟩ := hcon
    set C := 𝒢.filter fun G => decide (¬ R G) with hC
    have mC : ∀ G, G ∈ C ↔ G ∈ 𝒢 ∧ ¬ R G := by intro G; rw [hC, List.mem_filter, decide_eq_true_eq]
    set NC := (N.filter fun x => decide (f x = p)).filter fun x => decide (∃ v ∈ x.2, γ v ∈ C) with hNC
    have mNC : ∀ x, x ∈ NC ↔ x ∈ (N.filter fun x => decide (f x = p)) ∧ ∃ v ∈ x.2, γ v ∈ C := by
      intro x; rw [hNC, List.mem_filter, decide_eq_true_eq]
    have hNCg : ∀ x ∈ NC, x ∈ grp N f p := fun x hx => List.mem_cons_of_mem _ ((mNC x).1 hx).1
    have hNCs : ∀ x ∈ NC, x ∈ P ++ N := fun x hx => hs x (hNCg x hx)
    have hNCn : NC.Nodup := ((List.nodup_cons.1 (h.grp_nodup hp)).2).filter _
    have back : ∀ L ∈ C.flatten, L ∈ loopsOf ρ NC := by
      intro L hL
      obtain ⟨G, hG, hLG⟩ := List.mem_flatten.1 hL
      obtain ⟨k1, k2⟩ := (mC G).1 hG
      have hLT : L ∈ T := (h.plates_perm hp).mem_iff.1 (List.mem_flatten.2 ⟨G, k1, hLG⟩)
      obtain ⟨x, hx, v, hv, rfl⟩ := mem_loopsOf.1 hLT
      have hv' := h.sel_mem (hs x hx) hv
      have e := hγeq v hv' G (mem_platesIn.1 k1).1 hLG
      refine mem_loopsOf.2 ⟨x, (mNC x).2 ⟨?_, v, hv, by rw [e]; exact hG⟩, v, hv, rfl⟩
      rcases List.mem_cons.1 hx with hxp | hx
      · exfalso
        apply k2
        rw [← e]
        exact link p hpg v0 hv0 v (hxp ▸ hv)
      · exact hx
    have hperm : (loopsOf ρ NC).Perm C.flatten := by
      refine (List.perm_ext_iff_of_nodup (h.loops_nodup hNCs hNCn) ?_).2 fun L => ⟨?_, back L⟩
      · exact ((List.filter_sublist.trans List.filter_sublist).flatten).nodup h.tree.distinct
      · intro hL
        obtain ⟨x, hx, v, hv, rfl⟩ := mem_loopsOf.1 hL
        obtain ⟨-, w, hw, hwC⟩ := (mNC x).1 hx
        have hv' := h.sel_mem (hNCs x hx) hv
        refine List.mem_flatten.2 ⟨γ v, (mC _).2 ⟨hin x (hNCg x hx) v hv, fun hr => ?_⟩, g2 v hv'⟩
        exact ((mC _).1 hwC).2 (hr.trans (link x (hNCg x hx) v hv w hw))
    have hNCne : NC ≠ [] := by
      obtain ⟨L, hL⟩ := List.exists_mem_of_ne_nil _ (h.tree.full G1 (mem_platesIn.1 hG1).1)
      obtain ⟨x, hx, -⟩ := mem_loopsOf.1 (back L (List.mem_flatten.2 ⟨G1, (mC G1).2 ⟨hG1, hnr⟩, hL⟩))
      exact List.ne_nil_of_mem hx
    obtain ⟨q, q1, q2⟩ := ccw_point (Ms := NC.map Prod.fst) (H := Gs.flatten) (by
      intro M hM
      obtain ⟨x, hx, rfl⟩ := List.mem_map.1 hM
      exact ⟨(h.blends (hNCs x hx)).simple, h.pos x (List.mem_filter.1 ((mNC x).1 hx).1).1⟩) (by simpa using hNCne) h.net.simple
    have hq := (off_net h.net).1 q1
    rw [h.winds NC hNCs hq, windings_perm hperm, windings_flatten] at q2
    have : (C.map fun G => windings G q).sum ≤ 0 := by
      have hC' : ∀ G ∈ C, windings G q ≤ 0 := by
        intro G hG
        have hG' := (mem_platesIn.1 ((mC G).1 hG).1).1
        rcases h.tree.value G hG' q (off_loops h.net hG' hq) with w | w <;> omega
      exact sum_nonpos C _ hC'
    omega
  have hsym : ∀ a b, ReflTransGen (fun a b => a ∈ 𝒢 ∧ b ∈ 𝒢 ∧ PSeam A a b) a b →
      ReflTransGen (fun a b => a ∈ 𝒢 ∧ b ∈ 𝒢 ∧ PSeam A a b) b a := by
    intro a b hab
    induction hab with
    | refl => exact .refl
    | tail _ h2 ih => exact (ReflTransGen.single ⟨h2.2.1, h2.1, h2.2.2.symm⟩).trans ih
  exact fun a ha b hb => (hsym _ _ (hall a ha)).trans (hall b hb)

/-- The border of each polygon is fused from the plates that it consists of. -/
theorem Fusion.fuses {p : Group} (hp : p ∈ P) : Fuses ((grp N f p).map Prod.fst) (platesIn Gs (loopsOf ρ (grp N f p))) := by
  classical
  have hs : ∀ x ∈ grp N f p, x ∈ P ++ N := fun x hx => grp_sub hp hx
  have hJ := h.seams hp
  set T := loopsOf ρ (grp N f p) with hT
  set 𝒢 := platesIn Gs T with h𝒢
  have h𝒢s : ∀ G ∈ 𝒢, G ∈ Gs := fun G hG => (mem_platesIn.1 hG).1
  have inj : ∀ x ∈ grp N f p, ∀ y ∈ grp N f p, x.1 = y.1 → x = y := by
    intro x hx y hy e
    have hx' := hs x hx
    have hy' := hs y hy
    obtain ⟨k, hk⟩ := List.exists_mem_of_ne_nil _ (h.discs.ring x.2 (h.group x hx').1 (h.lnodup hx') (fun c hc => h.sel_mem hx' hc)
      (h.group x hx').2.1).2
    have hk' : k ∈ border y.2 := (h.group y hy').2.2.mem_iff.1 (e ▸ (h.group x hx').2.2.mem_iff.2 hk)
    obtain ⟨u, hu, hue⟩ := List.mem_flatMap.1 (mem_border.1 hk).1
    obtain ⟨v, hv, hve⟩ := List.mem_flatMap.1 (mem_border.1 hk').1
    have := h.cell_same (h.sel_mem hx' hu) (h.sel_mem hy' hv) hue hve
    exact h.same hx' hy' hu (this ▸ hv)
  refine ⟨?_, List.Nodup.map_on inj (h.grp_nodup hp), ?_, ?_, ?_, ?_, ?_, ?_⟩
  · intro v hv
    obtain ⟨x, hx, rfl⟩ := List.mem_map.1 hv
    exact (h.blends (hs x hx)).simple
  · intro L hL M hM hne hmeet
    obtain ⟨x, hx, rfl⟩ := List.mem_map.1 hL
    obtain ⟨y, hy, rfl⟩ := List.mem_map.1 hM
    have hx' := hs x hx
    have hy' := hs y hy
    obtain ⟨z, z1, z2⟩ := hmeet
    obtain ⟨L, hL, a1⟩ := (h.blends hx').sub z z1
    obtain ⟨M, hM, a2⟩ := (h.blends hy').sub z z2
    obtain ⟨u, hu, rfl⟩ := List.mem_map.1 hL
    obtain ⟨v, hv, rfl⟩ := List.mem_map.1 hM
    have hu' := h.sel_mem hx' hu
    have hv' := h.sel_mem hy' hv
    obtain ⟨G, hG, huG⟩ := List.mem_flatten.1 (h.mem u hu')
    obtain ⟨H, hH, hvH⟩ := List.mem_flatten.1 (h.mem v hv')
    have hxy : x ≠ y := fun e => hne (by rw [e])
    by_cases hGH : G = H
    · subst hGH
      refine h.tree.free G hG _ huG _ hvH (fun e => hxy ?_) ⟨z, a1, a2⟩
      have := h.inj hu' hv' e
      exact h.same hx' hy' hu (this ▸ hv)
    · have hG' : G ∈ 𝒢 := mem_platesIn.2 ⟨hG, ρ u, huG, mem_loopsOf.2 ⟨x, hx, u, hu, rfl⟩⟩
      have hH' : H ∈ 𝒢 := mem_platesIn.2 ⟨hH, ρ v, hvH, mem_loopsOf.2 ⟨y, hy, v, hv, rfl⟩⟩
      obtain ⟨L', hL', M', hM', a, b, al1, al2⟩ := Treelike.direct (M := Related Meet) (S := PSeam A) (fun _ _ => related_symm)
        (fun _ _ => PSeam.symm) (fun _ _ => PSeam.related) h.tree.forest _ 𝒢 rfl (h.tree.list.filter _) h𝒢s hJ G hG' H hH' hGH
        ⟨_, huG, _, hvH, z, a1, a2⟩
      obtain ⟨rfl, rfl⟩ := h.tree.pair G hG H hH hGH _ huG _ hvH L' hL' M' hM' ⟨z, a1, a2⟩ ⟨a, al1.left, al2.right⟩
      exact hxy (h.adjacent hx' hy' hu hv ((h.iff u hu' _ _).2 al1) ((h.iff v hv' _ _).2 al2))
  · intro L hL M hM h1 h2
    have key : ∀ L ∈ (grp N f p).map Prod.fst, shoelace L < 0 → L = p.1 := by
      intro L hL h1
      obtain ⟨x, hx, rfl⟩ := List.mem_map.1 hL
      rcases List.mem_cons.1 hx with rfl | hx
      · rfl
      · exact absurd h1 (not_lt.2 (h.pos x (List.mem_filter.1 hx).1).le)
    rw [key L hL h1, key M hM h2]
  · refine ⟨(grp N f p).map fun x => (x.1, x.2.map ρ), ?_, ?_, ?_⟩
    · rw [List.map_map]
      exact List.Perm.refl _
    · rw [List.map_map]
      refine List.Perm.trans (List.Perm.of_eq ?_) (h.plates_perm hp).symm
      unfold loopsOf
      rw [List.map_flatMap, List.flatMap_def]
      rfl
    · intro x hx
      obtain ⟨y, hy, rfl⟩ := List.mem_map.1 hx
      exact h.blends (hs y hy)
  · intro e
    have := h.plates_perm hp
    rw [← hT, ← h𝒢, e] at this
    obtain ⟨v, hv⟩ := List.exists_mem_of_ne_nil _ (h.group p (List.mem_append_left _ hp)).1
    have hm : ρ v ∈ T := mem_loopsOf.2 ⟨p, List.mem_cons_self, v, hv, rfl⟩
    have := this.mem_iff.2 hm
    simp at this
  · intro a ha b hb
    exact Relation.ReflTransGen.mono (fun u v h => ⟨h.1, h.2.1, h.2.2.related⟩) a b (hJ a ha b hb)
  · intro q h1 h2
    obtain ⟨q', k1, k2⟩ := loops_off (G := (grp N f p).map Prod.fst ++ 𝒢.flatten) (H := Gs.flatten) h.net.simple (p := q) (by
      intro L hL
      rcases List.mem_append.1 hL with hL | hL
      · exact h1 L hL
      · exact h2 L hL)
    rw [windings_const (q := q') fun x hx L hL => k2 x hx L (List.mem_append_left _ hL),
      windings_const (G := 𝒢.flatten) (q := q') fun x hx L hL => k2 x hx L (List.mem_append_right _ hL),
      h.winds _ hs ((off_net h.net).1 k1), windings_perm (h.plates_perm hp)]

/-- All plates are in some polygon. -/
theorem Fusion.cover : (P.flatMap fun p => platesIn Gs (loopsOf ρ (grp N f p))).Perm Gs := by
  have nd : (P.flatMap fun p => platesIn Gs (loopsOf ρ (grp N f p))).Nodup := by
    refine List.nodup_flatMap.2 ⟨fun p hp => h.tree.list.filter _, (List.nodup_append.1 h.distinct).1.imp_of_mem ?_⟩
    intro p q hp hq hne G h1 h2
    obtain ⟨hG, L, hL, hLT⟩ := mem_platesIn.1 h1
    obtain ⟨-, M, hM, hMT⟩ := mem_platesIn.1 h2
    have hLT' := h.whole_plate hq hG hM hMT L hL
    obtain ⟨x, hx, u, hu, rfl⟩ := mem_loopsOf.1 hLT
    obtain ⟨y, hy, v, hv, e⟩ := mem_loopsOf.1 hLT'
    have hx' := grp_sub hp hx
    have hy' := grp_sub hq hy
    have := h.inj (h.sel_mem hy' hv) (h.sel_mem hx' hu) e
    subst this
    have := h.same hx' hy' hu hv
    subst this
    exact hne (h.grp_one hp hq hx hy)
  refine (List.perm_ext_iff_of_nodup nd h.tree.list).2 fun G => ⟨?_, ?_⟩
  · intro hG
    obtain ⟨p, hp, hG⟩ := List.mem_flatMap.1 hG
    exact (mem_platesIn.1 hG).1
  · intro hG
    obtain ⟨L, hL⟩ := List.exists_mem_of_ne_nil _ (h.tree.full G hG)
    obtain ⟨x, hx, v, hv, rfl⟩ := mem_loopsOf.1 (h.whole.mem_iff.2 (mem_flat hG hL))
    obtain ⟨p, hp, hxp⟩ := h.grp_own hx
    exact List.mem_flatMap.2 ⟨p, hp, mem_platesIn.2 ⟨hG, _, hL, mem_loopsOf.2 ⟨x, hxp, v, hv, rfl⟩⟩⟩

end

end Arr

end Ply
