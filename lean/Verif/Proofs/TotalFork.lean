import Verif.Proofs.TotalOp

/-!
# Operations on geoms whose edges do not branch never raise
-/

namespace Ply

namespace Arr

open CellMerger

/-- The two points are in the same direction from `v`. -/
def SameWay (v x y : Pt) : Prop := OnSeg (v, x) y ∨ OnSeg (v, y) x

/-- From each point the segments go in at most two directions. -/
def Forkless (T : List Seg) : Prop :=
  ∀ v x y z : Pt, v ≠ x → v ≠ y → v ≠ z → (∃ t ∈ T, OnSeg t v ∧ OnSeg t x) → (∃ t ∈ T, OnSeg t v ∧ OnSeg t y) →
    (∃ t ∈ T, OnSeg t v ∧ OnSeg t z) → SameWay v x y ∨ SameWay v y z ∨ SameWay v x z

/-- Each edge of the geom is part of one of the segments. -/
def Runs (T : List Seg) (g : Geom2D) : Prop := ∀ s ∈ g.allSegments, ∃ t ∈ T, OnSeg t s.1 ∧ OnSeg t s.2

theorem sameWay_eq {H : List Seg} (hP : Planar H) {v x y : Pt} (hx : (v, x) ∈ H) (hy : (v, y) ∈ H) (h : SameWay v x y) :
    x = y := by
  have key : ∀ x y : Pt, (v, x) ∈ H → (v, y) ∈ H → OnSeg (v, x) y → x = y := by
    rintro x y hx hy ⟨t, t0, t1, e⟩
    rcases eq_or_lt_of_le t0 with rfl | t0
    · exfalso
      apply hP.ne _ hy
      rw [e]; unfold along; ext <;> simp
    rcases eq_or_lt_of_le t1 with rfl | t1
    · rw [e, along_one]
    have := hP.inner hx t0 t1 hy (e ▸ onSeg_right (v, y))
    rcases this with h | h
    · exact (congrArg Prod.snd h).symm
    · have e1 : v = x := congrArg Prod.fst h
      exact absurd e1 (hP.ne _ hx)
  rcases h with h | h
  · exact key x y hx hy h
  · exact (key y x hy hx h).symm

/-- If at most two half-edges leave each vertex, adjacent cells are opposite. -/
theorem opposite_of_two {net : Net} (W : Wheel net)
    (h2 : ∀ e ∈ net.halfEdges, ∀ f ∈ net.halfEdges, ∀ g ∈ net.halfEdges, f.1 = e.1 → g.1 = e.1 → e = f ∨ f = g ∨ e = g)
    {a b : List Pt} (ha : CellOK net a) (hb : CellOK net b) (h : Adjacent a b) : Opposite a b := by
  have flip : ∀ e k, e ∈ net.halfEdges → Nxt net.vertices e k → k ∈ net.halfEdges ∧ Nxt net.vertices (k.2, k.1) (e.2, e.1) := by
    intro e k he hn
    obtain ⟨s1, s2, -⟩ := hn.spec W he
    have s3 := hn.ahead W he
    refine ⟨s1, ?_⟩
    have hkr := W.planar.rev k s1
    obtain ⟨k', n1, n2, n3, -⟩ := nxt_exists W hkr
    have n4 := n1.ahead W hkr
    dsimp only at n3 n4
    have her := W.planar.rev e he
    rcases h2 (e.2, e.1) her k s1 k' n2 s2 (n3.trans s2) with h | h | h
    · exact absurd (congrArg Prod.snd h).symm s3
    · exact absurd (congrArg Prod.snd h).symm n4
    · rw [h]; exact n1
  have main : ∀ a b, CellOK net a → CellOK net b → Adjacent a b → ∀ e ∈ polyEdges a, opp e ∈ polyEdges b := by
    rintro a b ha hb ⟨u, v, h1, h2'⟩
    have step : ∀ e k, e ∈ net.halfEdges → Nxt net.vertices e k → (opp e ∈ polyEdges b ↔ opp k ∈ polyEdges b) := by
      intro e k he hn
      obtain ⟨f1, f2⟩ := flip e k he hn
      exact ⟨fun hx => hb.back _ hx _ (W.planar.rev k f1) f2, fun hx => hb.closed _ hx _ f2⟩
    have all : ∀ l : List Seg, l.IsChain (Nxt net.vertices) → (∀ x ∈ l, x ∈ net.halfEdges) → ∀ x ∈ l, ∀ y ∈ l,
        (opp x ∈ polyEdges b ↔ opp y ∈ polyEdges b) := by
      have head : ∀ (l : List Seg) (z : Seg), (z :: l).IsChain (Nxt net.vertices) → (∀ x ∈ z :: l, x ∈ net.halfEdges) →
          ∀ x ∈ z :: l, (opp z ∈ polyEdges b ↔ opp x ∈ polyEdges b) := by
        intro l
        induction l with
        | nil => intro z _ _ x hx; rw [List.mem_singleton.1 hx]
        | cons w l ih =>
          intro z hc hm x hx
          rw [List.isChain_cons_cons] at hc
          rcases List.mem_cons.1 hx with rfl | hx
          · rfl
          · exact (step z w (hm z List.mem_cons_self) hc.1).trans
              (ih w hc.2 (fun y hy => hm y (List.mem_cons_of_mem _ hy)) x hx)
      intro l hc hm x hx y hy
      cases l with
      | nil => simp at hx
      | cons z l => exact (head l z hc hm x hx).symm.trans (head l z hc hm y hy)
    intro e he
    exact (all _ ha.chain ha.sub (u, v) h1 e he).1 h2'
  exact ⟨main a b ha hb h, main b a hb ha (adjacent_symm h)⟩

theorem forkless_paired {ch : Choices} (hch : ch.Valid) {gs : List Geom2D} (hg : ∀ g ∈ gs, Geom2D.WellMade g) {T : List Seg}
    (hT : Forkless T) (hr : ∀ g ∈ gs, Runs T g) {A : Arrangement}
    (hA : build ch (gs.flatMap Geom2D.allSegments) = .ok A) (hB : BuildOK A) (hF : Full A) (P : Cell1 → Bool) :
    Paired ((A.cells.filter P).map Cell1.vertices) := by
  set sel := (A.cells.filter P).map Cell1.vertices with hsel
  have hsub : sel.Sublist (A.cells.map Cell1.vertices) := List.filter_sublist.map _
  have hok : ∀ c ∈ sel, CellOK A.net c := fun c hc => hF.tiling.ok c (hsub.subset hc)
  have hal : ∀ k ∈ A.net.halfEdges, ∃ t ∈ T, OnSeg t k.1 ∧ OnSeg t k.2 := by
    intro k hk
    obtain ⟨s, hs, s1, s2⟩ := build_along ch hch _ (segments_ne gs hg) A hA k hk
    obtain ⟨g, hg', hs⟩ := List.mem_flatMap.1 hs
    obtain ⟨t, ht, t1, t2⟩ := hr g hg' s hs
    exact ⟨t, ht, onSeg_between t1 t2 s1, onSeg_between t1 t2 s2⟩
  have h2 : ∀ e ∈ A.net.halfEdges, ∀ f ∈ A.net.halfEdges, ∀ g ∈ A.net.halfEdges, f.1 = e.1 → g.1 = e.1 →
      e = f ∨ f = g ∨ e = g := by
    rintro ⟨v, x⟩ he ⟨v', y⟩ hf ⟨v'', z⟩ hg' e1 e2
    dsimp only at e1 e2
    subst e1 e2
    have hne := hB.planar.ne
    rcases hT v'' x y z (hne _ he) (hne _ hf) (hne _ hg') (hal _ he) (hal _ hf) (hal _ hg') with h | h | h
    · left; rw [sameWay_eq hB.planar he hf h]
    · right; left; rw [sameWay_eq hB.planar hf hg' h]
    · right; right; rw [sameWay_eq hB.planar he hg' h]
  refine ⟨fun c hc => (hok c hc).ne, (allEdges_sublist hsub).nodup hB.nodup, ?_, fun a ha b hb h =>
    opposite_of_two hF.wheel h2 (hok a ha) (hok b hb) h⟩
  rintro c hc ⟨u, v, h1, h2⟩
  exact (hok c hc).opp hF.wheel h1 h2

/-- An operation on geoms whose edges do not branch does not raise, and the edges of the result are parts of the edges of
the operands. -/
theorem forkless_total (ch : Choices) (hch : ch.Valid) (gs : List Geom2D) (op : List Bool → Bool)
    (hop : op (gs.map fun _ => false) = false) (hg : ∀ g ∈ gs, Geom2D.Usable g) {T : List Seg}
    (hT : Forkless T) (hr : ∀ g ∈ gs, Runs T g) : ∃ r, arrangementOp ch gs op = .ok r ∧ Runs T r := by
  have hm : ∀ g ∈ gs, Geom2D.WellMade g := fun g h => (hg g h).made
  obtain ⟨r, h⟩ := arrangementOp_total ch hch gs op hop hg fun A hA hB hF => forkless_paired hch hm hT hr hA hB hF _
  refine ⟨r, h, ?_⟩
  unfold arrangementOp at h
  obtain ⟨A, hA, h⟩ := (bind_ok _ _ _).1 h
  obtain ⟨cells, hcells, h⟩ := (bind_ok _ _ _).1 h
  obtain ⟨polys, hpolys, h⟩ := (bind_ok _ _ _).1 h
  obtain ⟨_, hcheck, h⟩ := (bind_ok _ _ _).1 h
  cases h
  obtain ⟨hB, -⟩ := build_spec ch hch _ (segments_ne gs hm) A hA
  have hsub := allEdges_sublist (selectCells_spec gs op A.cells cells hcells)
  obtain ⟨-, he⟩ := polyCells_spec ch hch A cells (hsub.nodup hB.nodup) r hpolys
  have hal : ∀ k ∈ A.net.halfEdges, ∃ t ∈ T, OnSeg t k.1 ∧ OnSeg t k.2 := by
    intro k hk
    obtain ⟨s, hs, s1, s2⟩ := build_along ch hch _ (segments_ne gs hm) A hA k hk
    obtain ⟨g, hg', hs⟩ := List.mem_flatMap.1 hs
    obtain ⟨t, ht, t1, t2⟩ := hr g hg' s hs
    exact ⟨t, ht, onSeg_between t1 t2 s1, onSeg_between t1 t2 s2⟩
  intro s hs
  obtain ⟨sp, hsp, hs'⟩ := List.mem_flatMap.1 hs
  unfold SPWH.segments at hs'
  rcases List.mem_append.1 hs' with h | h
  · rw [edgesIter_eq] at h
    exact hal s (hB.sub s (hsub.subset ((he sp hsp).1 s h)))
  · obtain ⟨k, hk, h⟩ := List.mem_flatMap.1 h
    rw [edgesIter_eq] at h
    obtain ⟨t, t1, t2, t3⟩ := hal _ (hB.sub _ (hsub.subset ((he sp hsp).2 k hk s h)))
    exact ⟨t, t1, t3, t2⟩

end Arr

end Ply
