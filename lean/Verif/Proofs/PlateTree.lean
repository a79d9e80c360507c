import Verif.Proofs.TotalGroups
import Verif.Proofs.RingMerge

/-!
# Plates with holes that make no closed chain, and plates fused from them
-/

namespace Ply.Arr

open Filter Topology
open Relation (ReflTransGen)

/-- The boundary of a simple ring is not within one segment. -/
theorem _root_.Ply.SimpleRing.not_seg {L : List Pt} (h : SimpleRing L) (a b : Pt) : ¬ ∀ p, OnBoundary L p → OnSeg (a, b) p := by
  intro hc
  have hne := shoelace_ne h.sides h.ne_nil
  apply hne
  have hon : ∀ e ∈ polyEdges L, ∃ s t : ℚ, e.1 = along (a, b) s ∧ e.2 = along (a, b) t := by
    intro e he
    obtain ⟨s, -, -, hs⟩ := hc e.1 ⟨e, he, onSeg_left e⟩
    obtain ⟨t, -, -, ht⟩ := hc e.2 ⟨e, he, onSeg_right e⟩
    exact ⟨s, t, hs, ht⟩
  have key : ((polyEdges L).map fun e => cross e.1 e.2).sum = ((polyEdges L).map fun e => cross a e.2 - cross a e.1).sum := by
    refine congrArg List.sum (List.map_congr_left fun e he => ?_)
    obtain ⟨s, t, h1, h2⟩ := hon e he
    rw [h1, h2]
    unfold along cross
    dsimp only
    ring
  unfold shoelace
  rw [key, polyEdges_telescope (fun v => cross a v) L]
  norm_num

theorem _root_.Ply.SimpleRing.not_point {L : List Pt} (h : SimpleRing L) : ¬ ∀ p q, OnBoundary L p → OnBoundary L q → p = q := by
  intro hc
  obtain ⟨v, hv⟩ := List.exists_mem_of_ne_nil L h.ne_nil
  obtain ⟨e, he, -⟩ := polyEdges_fst hv
  exact h.pos he (hc e.1 e.2 ⟨e, he, onSeg_left e⟩ ⟨e, he, onSeg_right e⟩)

theorem same_part {α β : Type} {xs : List (α × List β)} (hnd : (xs.map Prod.snd).flatten.Nodup) {x y : α × List β} (hx : x ∈ xs)
    (hy : y ∈ xs) {L : β} (h1 : L ∈ x.2) (h2 : L ∈ y.2) : x = y := by
  by_contra hne
  have hp := (List.nodup_flatten.1 hnd).2
  rw [List.pairwise_map] at hp
  have : Std.Symm (fun x y : α × List β => List.Disjoint x.2 y.2) := ⟨fun _ _ h => List.disjoint_symm h⟩
  exact (hp.forall hx hy hne) h1 h2

/-- Pairs whose second parts are not empty and have nothing in common are different. -/
theorem parts_nodup {α β : Type} {xs : List (α × List β)} (hnd : (xs.map Prod.snd).flatten.Nodup) (hne : ∀ x ∈ xs, x.2 ≠ []) :
    xs.Nodup := by
  induction xs with
  | nil => exact List.nodup_nil
  | cons x xs ih =>
    rw [List.map_cons, List.flatten_cons, List.nodup_append] at hnd
    refine List.nodup_cons.2 ⟨fun hx => ?_, ih hnd.2.1 fun y hy => hne y (List.mem_cons_of_mem _ hy)⟩
    obtain ⟨L, hL⟩ := List.exists_mem_of_ne_nil _ (hne x List.mem_cons_self)
    exact hnd.2.2 L hL L (List.mem_flatten.2 ⟨x.2, List.mem_map_of_mem hx, hL⟩) rfl

theorem groups_nodup {β : Type} {Gs : List (List β)} (hnd : Gs.flatten.Nodup) (hne : ∀ G ∈ Gs, G ≠ []) : Gs.Nodup := by
  have := parts_nodup (xs := Gs.map fun G => ((), G)) (by
    rw [List.map_map]
    have : (Prod.snd ∘ fun G : List β => ((), G)) = id := rfl
    rw [this, List.map_id]; exact hnd) (by
    intro x hx
    obtain ⟨G, hG, rfl⟩ := List.mem_map.1 hx
    exact hne G hG)
  exact List.Nodup.of_map _ this

/-! ### Winding numbers of several loops -/

theorem windings_perm {G H : List (List Pt)} (h : G.Perm H) (p : Pt) : windings G p = windings H p := (h.map _).sum_eq

theorem windings_append (G H : List (List Pt)) (p : Pt) : windings (G ++ H) p = windings G p + windings H p := by
  unfold windings; rw [List.map_append, List.sum_append]

theorem windings_flatten (Gs : List (List (List Pt))) (p : Pt) : windings Gs.flatten p = (Gs.map fun G => windings G p).sum := by
  induction Gs with
  | nil => rfl
  | cons G Gs ih => rw [List.flatten_cons, windings_append, ih, List.map_cons, List.sum_cons]

theorem windings_const {G : List (List Pt)} {p q : Pt} (h : ∀ x, OnSeg (p, q) x → OffLoops G x) : windings G p = windings G q := by
  unfold windings
  refine congrArg List.sum (List.map_congr_left fun L hL => winding_const L p q fun x hx => h x hx L hL)

/-- A point can be moved off the loops `H` without crossing the loops `G`. -/
theorem loops_off {G H : List (List Pt)} (hH : ∀ L ∈ H, SimpleRing L) {p : Pt} (hp : OffLoops G p) :
    ∃ q, OffLoops H q ∧ ∀ x, OnSeg (p, q) x → OffLoops G x := by
  obtain ⟨q, h1, h2⟩ := move_off (G.flatMap polyEdges) (H.flatMap polyEdges) (by
    intro e he
    obtain ⟨L, hL, he⟩ := List.mem_flatMap.1 he
    exact (hH L hL).pos he) p (by
    rintro ⟨e, he, hx⟩
    obtain ⟨L, hL, he⟩ := List.mem_flatMap.1 he
    exact hp L hL ⟨e, he, hx⟩)
  refine ⟨q, ?_, ?_⟩
  · rintro L hL ⟨e, he, hx⟩
    exact h2 ⟨e, List.mem_flatMap.2 ⟨L, hL, he⟩, hx⟩
  · rintro x hx L hL ⟨e, he, hx'⟩
    exact h1 x hx ⟨e, List.mem_flatMap.2 ⟨L, hL, he⟩, hx'⟩

/-! ### Plates without closed chains -/

/-- Plates of which two meet in at most one pair of loops, at a point or along a straight stretch, without a closed chain
of plates.  Each has at most one clockwise loop. -/
structure PlateTree (Gs : List (List (List Pt))) : Prop extends Plates Gs where
  full : ∀ G ∈ Gs, G ≠ []
  distinct : Gs.flatten.Nodup
  outer : ∀ G ∈ Gs, ∀ L ∈ G, ∀ M ∈ G, shoelace L < 0 → shoelace M < 0 → L = M
  seam : ∀ L ∈ Gs.flatten, ∀ M ∈ Gs.flatten, L ≠ M →
    (∀ p q, OnBoundary L p ∧ OnBoundary M p → OnBoundary L q ∧ OnBoundary M q → p = q) ∨
    ∃ x y, x ≠ y ∧ ∀ p, OnBoundary L p ∧ OnBoundary M p ↔ OnSeg (x, y) p
  pair : ∀ G ∈ Gs, ∀ H ∈ Gs, G ≠ H → ∀ L ∈ G, ∀ M ∈ H, ∀ L' ∈ G, ∀ M' ∈ H, Meet L M → Meet L' M' → L = L' ∧ M = M'
  forest : Treelike (Related Meet) Gs

theorem related_symm {G H : List (List Pt)} (h : Related Meet G H) : Related Meet H G := by
  obtain ⟨a, ha, b, hb, hm⟩ := h
  exact ⟨b, hb, a, ha, meet_symm hm⟩

theorem PlateTree.sub {Gs Hs : List (List (List Pt))} (h : PlateTree Gs) (hn : Hs.Nodup) (hs : ∀ H ∈ Hs, H ∈ Gs) : PlateTree Hs where
  simple := fun G hG => h.simple G (hs G hG)
  nodup := fun G hG => h.nodup G (hs G hG)
  free := fun G hG => h.free G (hs G hG)
  value := fun G hG => h.value G (hs G hG)
  apart := fun G hG H hH => h.apart G (hs G hG) H (hs H hH)
  full := fun G hG => h.full G (hs G hG)
  distinct := by
    refine List.nodup_flatten.2 ⟨fun G hG => h.nodup G (hs G hG), hn.imp_of_mem ?_⟩
    intro G H hG hH hne x h1 h2
    exact hne (same_group h.distinct (hs G hG) (hs H hH) h1 h2)
  outer := fun G hG => h.outer G (hs G hG)
  seam := by
    have key : ∀ L ∈ Hs.flatten, L ∈ Gs.flatten := by
      intro L hL
      obtain ⟨P, hP, hL⟩ := List.mem_flatten.1 hL
      exact List.mem_flatten.2 ⟨P, hs P hP, hL⟩
    exact fun L hL M hM => h.seam L (key L hL) M (key M hM)
  pair := fun G hG H hH => h.pair G (hs G hG) H (hs H hH)
  forest := fun F h1 h2 h3 => h.forest F h1 h2 fun L hL => hs L (h3 L hL)

theorem PlateTree.list {Gs : List (List (List Pt))} (h : PlateTree Gs) : Gs.Nodup := groups_nodup h.distinct h.full

theorem PlateTree.contacts {Gs : List (List (List Pt))} (h : PlateTree Gs) : Contacts Gs.flatten where
  seam := h.seam
  forest := by
    classical
    intro F hF hFn hFs
    obtain ⟨L0, hL0⟩ := List.exists_mem_of_ne_nil F hF
    have mem : ∀ G, G ∈ (Gs.filter fun G => decide (∃ L ∈ G, L ∈ F)) ↔ G ∈ Gs ∧ ∃ L ∈ G, L ∈ F := by
      intro G; rw [List.mem_filter, decide_eq_true_eq]
    obtain ⟨G0, hG0, hL0'⟩ := List.mem_flatten.1 (hFs L0 hL0)
    obtain ⟨G, hG, hleaf⟩ := h.forest (Gs.filter fun G => decide (∃ L ∈ G, L ∈ F))
      (List.ne_nil_of_mem ((mem G0).2 ⟨hG0, L0, hL0', hL0⟩)) (h.list.filter _) (fun G hG => ((mem G).1 hG).1)
    obtain ⟨hG', L, hL, hLF⟩ := (mem G).1 hG
    refine ⟨L, hLF, ?_⟩
    intro P hP Q hQ n1 n2 m1 m2
    obtain ⟨H, hH, hPH⟩ := List.mem_flatten.1 (hFs P hP)
    obtain ⟨K, hK, hQK⟩ := List.mem_flatten.1 (hFs Q hQ)
    have e1 : H ≠ G := by
      rintro rfl
      exact h.free H hH L hL P hPH n1.symm m1
    have e2 : K ≠ G := by
      rintro rfl
      exact h.free K hK L hL Q hQK n2.symm m2
    have := hleaf H ((mem H).2 ⟨hH, P, hPH, hP⟩) K ((mem K).2 ⟨hK, Q, hQK, hQ⟩) e1 e2 ⟨L, hL, P, hPH, m1⟩ ⟨L, hL, Q, hQK, m2⟩
    subst this
    exact (h.pair G hG' H hH e1.symm L hL P hPH L hL Q hQK m1 m2).2

/-- The loops `K` are what is left of the plates `𝒢` put together. -/
structure Fuses (K : List (List Pt)) (𝒢 : List (List (List Pt))) : Prop where
  simple : ∀ v ∈ K, SimpleRing v
  nodup : K.Nodup
  free : ∀ L ∈ K, ∀ M ∈ K, L ≠ M → ¬ Meet L M
  outer : ∀ L ∈ K, ∀ M ∈ K, shoelace L < 0 → shoelace M < 0 → L = M
  parts : ∃ xs : List (List Pt × List (List Pt)), (xs.map Prod.fst).Perm K ∧ (xs.map Prod.snd).flatten.Perm 𝒢.flatten ∧
    ∀ x ∈ xs, Blends x.1 x.2
  some : 𝒢 ≠ []
  joined : Joined (Related Meet) 𝒢
  winds : ∀ p, OffLoops K p → OffLoops 𝒢.flatten p → windings K p = windings 𝒢.flatten p

/-- Plates fused from plates without closed chains are plates without closed chains. -/
theorem fuse_tree {Gs : List (List (List Pt))} (hT : PlateTree Gs) {X : List (List (List Pt) × List (List (List Pt)))}
    (hX : ∀ x ∈ X, Fuses x.1 x.2) (hp : (X.map Prod.snd).flatten.Perm Gs) : PlateTree (X.map Prod.fst) := by
  classical
  have hXn : (X.map Prod.snd).flatten.Nodup := hp.nodup_iff.2 hT.list
  have hsub : ∀ x ∈ X, ∀ G ∈ x.2, G ∈ Gs := fun x hx G hG =>
    hp.mem_iff.1 (List.mem_flatten.2 ⟨x.2, List.mem_map_of_mem hx, hG⟩)
  have hX2 : ∀ x ∈ X, x.2.Nodup := fun x hx => (List.nodup_flatten.1 hXn).1 x.2 (List.mem_map_of_mem hx)
  choose! xs s1 s2 s3 using fun x hx => (hX x hx).parts
  set Z := X.flatMap xs with hZ
  have mZ : ∀ z, z ∈ Z ↔ ∃ x ∈ X, z ∈ xs x := fun z => List.mem_flatMap
  have hZ1 : (Z.map Prod.fst).Perm (X.map Prod.fst).flatten := by
    rw [hZ, List.map_flatMap, ← List.flatMap_def]
    exact List.Perm.flatMap_left X s1
  have hZ2 : (Z.map Prod.snd).flatten.Perm Gs.flatten := by
    have e : (Z.map Prod.snd).flatten = X.flatMap fun x => ((xs x).map Prod.snd).flatten := by
      rw [hZ, List.map_flatMap, List.flatMap_def, List.flatten_flatten, List.map_map, ← List.flatMap_def]
      rfl
    rw [e]
    refine (List.Perm.flatMap_left X s2).trans ?_
    have e' : (X.flatMap fun x => x.2.flatten) = (X.map Prod.snd).flatten.flatten := by
      rw [List.flatten_flatten, List.map_map, ← List.flatMap_def]
      rfl
    rw [e']
    exact hp.flatten
  have hZn : (Z.map Prod.snd).flatten.Nodup := hZ2.nodup_iff.2 hT.distinct
  have hZb : ∀ z ∈ Z, Blends z.1 z.2 := by
    intro z hz
    obtain ⟨x, hx, hz⟩ := (mZ z).1 hz
    exact s3 x hx z hz
  have hcom := fun {z w} hz hw hne => merged_common (xs := Z) hZn (fun L hL => hZ2.mem_iff.1 hL) hT.contacts hZb (x := z) (y := w) hz hw hne
  have hZinj : ∀ z ∈ Z, ∀ w ∈ Z, z.1 = w.1 → z = w := by
    intro z hz w hw e
    by_contra hne
    have hs := (hZb z hz).simple
    rcases hcom hz hw hne with h | ⟨L, hL, M, hM, h1, h2⟩
    · obtain ⟨v, hv⟩ := List.exists_mem_of_ne_nil _ hs.ne_nil
      obtain ⟨f, hf, -⟩ := polyEdges_fst hv
      exact h f.1 ⟨⟨f, hf, onSeg_left f⟩, e ▸ ⟨f, hf, onSeg_left f⟩⟩
    · rcases hT.seam L hL M hM h1 with h | ⟨a, b, -, h⟩
      · exact hs.not_point fun p q k1 k2 => h p q ((h2 p).1 ⟨k1, e ▸ k1⟩) ((h2 q).1 ⟨k2, e ▸ k2⟩)
      · exact hs.not_seg a b fun p k => (h p).1 ((h2 p).1 ⟨k, e ▸ k⟩)
  have pick : ∀ x ∈ X, ∀ L ∈ x.1, ∃ z ∈ xs x, z.1 = L := by
    intro x hx L hL
    obtain ⟨z, hz, rfl⟩ := List.mem_map.1 ((s1 x hx).mem_iff.2 hL)
    exact ⟨z, hz, rfl⟩
  have home : ∀ x ∈ X, ∀ z ∈ xs x, ∀ L ∈ z.2, ∃ G ∈ x.2, L ∈ G := by
    intro x hx z hz L hL
    exact List.mem_flatten.1 ((s2 x hx).mem_iff.1 (List.mem_flatten.2 ⟨z.2, List.mem_map_of_mem hz, hL⟩))
  have at' : ∀ x ∈ X, ∀ z ∈ xs x, ∀ p, OnBoundary z.1 p → ∃ G ∈ x.2, ∃ L ∈ G, L ∈ z.2 ∧ OnBoundary L p := by
    intro x hx z hz p hp'
    obtain ⟨L, hL, h⟩ := (s3 x hx z hz).sub p hp'
    obtain ⟨G, hG, hLG⟩ := home x hx z hz L hL
    exact ⟨G, hG, L, hLG, hL, h⟩
  have hwind : ∀ x ∈ X, ∀ p, OffLoops x.1 p → OffLoops Gs.flatten p →
      windings x.1 p = (x.2.map fun G => windings G p).sum := by
    intro x hx p h1 h2
    rw [(hX x hx).winds p h1 fun L hL => ?_, windings_flatten]
    obtain ⟨G, hG, hL⟩ := List.mem_flatten.1 hL
    exact h2 L (List.mem_flatten.2 ⟨G, hsub x hx G hG, hL⟩)
  have hloops : ∀ L ∈ Gs.flatten, SimpleRing L := by
    intro L hL
    obtain ⟨G, hG, hL⟩ := List.mem_flatten.1 hL
    exact hT.simple G hG L hL
  have offG : ∀ {q}, OffLoops Gs.flatten q → ∀ G ∈ Gs, OffLoops G q := fun h G hG L hL => h L (List.mem_flatten.2 ⟨G, hG, hL⟩)
  have honce : ∀ x ∈ X, ∀ q, OffLoops Gs.flatten q →
      (∀ G ∈ x.2, windings G q ≠ 0 → (x.2.map fun G => windings G q).sum = -1) ∧
      ((∀ G ∈ x.2, windings G q = 0) → (x.2.map fun G => windings G q).sum = 0) := by
    intro x hx q hq
    refine sum_once x.2 (hX2 x hx) (fun G => windings G q) (-1) (fun G hG => (hT.value G (hsub x hx G hG) q
      (offG hq G (hsub x hx G hG))).symm) fun G hG H hH w1 w2 => ?_
    exact hT.apart G (hsub x hx G hG) H (hsub x hx H hH) q (offG hq G (hsub x hx G hG)) (offG hq H (hsub x hx H hH)) w1 w2
  have samex : ∀ x ∈ X, ∀ y ∈ X, ∀ G ∈ x.2, G ∈ y.2 → x = y := fun x hx y hy G h1 h2 => same_part hXn hx hy h1 h2
  refine ⟨⟨?_, ?_, ?_, ?_, ?_⟩, ?_, ?_, ?_, ?_, ?_, ?_⟩
  · intro K hK
    obtain ⟨x, hx, rfl⟩ := List.mem_map.1 hK
    exact (hX x hx).simple
  · intro K hK
    obtain ⟨x, hx, rfl⟩ := List.mem_map.1 hK
    exact (hX x hx).nodup
  · intro K hK
    obtain ⟨x, hx, rfl⟩ := List.mem_map.1 hK
    exact (hX x hx).free
  · intro K hK p hoff
    obtain ⟨x, hx, rfl⟩ := List.mem_map.1 hK
    obtain ⟨q, q1, q2⟩ := loops_off hloops hoff
    rw [windings_const q2, hwind x hx q (q2 q (onSeg_right (p, q))) q1]
    by_cases hz : ∀ G ∈ x.2, windings G q = 0
    · exact Or.inl ((honce x hx q q1).2 hz)
    · push Not at hz
      obtain ⟨G, hG, hz⟩ := hz
      exact Or.inr ((honce x hx q q1).1 G hG hz)
  · intro K hK K' hK' p o1 o2 w1 w2
    obtain ⟨x, hx, rfl⟩ := List.mem_map.1 hK
    obtain ⟨y, hy, rfl⟩ := List.mem_map.1 hK'
    obtain ⟨q, q1, q2⟩ := loops_off (G := x.1 ++ y.1) hloops (p := p) (by
      intro L hL
      rcases List.mem_append.1 hL with h | h
      · exact o1 L h
      · exact o2 L h)
    have r1 : ∀ u, OnSeg (p, q) u → OffLoops x.1 u := fun u hu L hL => q2 u hu L (List.mem_append_left _ hL)
    have r2 : ∀ u, OnSeg (p, q) u → OffLoops y.1 u := fun u hu L hL => q2 u hu L (List.mem_append_right _ hL)
    rw [windings_const r1, hwind x hx q (r1 q (onSeg_right (p, q))) q1] at w1
    rw [windings_const r2, hwind y hy q (r2 q (onSeg_right (p, q))) q1] at w2
    obtain ⟨G, hG, g1⟩ : ∃ G ∈ x.2, windings G q ≠ 0 := by
      by_contra hc
      push Not at hc
      exact w1 ((honce x hx q q1).2 hc)
    obtain ⟨H, hH, g2⟩ : ∃ G ∈ y.2, windings G q ≠ 0 := by
      by_contra hc
      push Not at hc
      exact w2 ((honce y hy q q1).2 hc)
    have := hT.apart G (hsub x hx G hG) H (hsub y hy H hH) q (offG q1 G (hsub x hx G hG)) (offG q1 H (hsub y hy H hH)) g1 g2
    rw [samex x hx y hy G hG (this ▸ hH)]
  · intro K hK
    obtain ⟨x, hx, rfl⟩ := List.mem_map.1 hK
    rintro e
    have h1 := s1 x hx
    rw [e] at h1
    have h2 : xs x = [] := by simpa using h1.eq_nil
    obtain ⟨G, hG⟩ := List.exists_mem_of_ne_nil _ (hX x hx).some
    obtain ⟨L, hL⟩ := List.exists_mem_of_ne_nil _ (hT.full G (hsub x hx G hG))
    have := (s2 x hx).mem_iff.2 (List.mem_flatten.2 ⟨G, hG, hL⟩)
    rw [h2] at this
    simp at this
  · refine hZ1.nodup_iff.1 (List.Nodup.map_on hZinj (parts_nodup hZn fun z hz => (hZb z hz).some))
  · intro K hK
    obtain ⟨x, hx, rfl⟩ := List.mem_map.1 hK
    exact (hX x hx).outer
  · intro L hL M hM hne
    obtain ⟨z, hz, rfl⟩ := List.mem_map.1 (hZ1.mem_iff.2 hL)
    obtain ⟨w, hw, rfl⟩ := List.mem_map.1 (hZ1.mem_iff.2 hM)
    rcases hcom hz hw (fun e => hne (by rw [e])) with h | ⟨L, hL, M, hM, h1, h2⟩
    · exact Or.inl fun p _ hp _ => absurd hp (h p)
    · rcases hT.seam L hL M hM h1 with h | ⟨a, b, hab, h⟩
      · exact Or.inl fun p q hp hq => h p q ((h2 p).1 hp) ((h2 q).1 hq)
      · exact Or.inr ⟨a, b, hab, fun p => (h2 p).trans (h p)⟩
  · intro K hK K' hK' hne L hL M hM L' hL' M' hM' m1 m2
    obtain ⟨x, hx, rfl⟩ := List.mem_map.1 hK
    obtain ⟨y, hy, rfl⟩ := List.mem_map.1 hK'
    have hxy : x ≠ y := fun e => hne (by rw [e])
    obtain ⟨z, hz, rfl⟩ := pick x hx L hL
    obtain ⟨z', hz', rfl⟩ := pick x hx L' hL'
    obtain ⟨w, hw, rfl⟩ := pick y hy M hM
    obtain ⟨w', hw', rfl⟩ := pick y hy M' hM'
    obtain ⟨p, p1, p2⟩ := m1
    obtain ⟨q, q1, q2⟩ := m2
    obtain ⟨G, hG, l, hl, hlz, a1⟩ := at' x hx z hz p p1
    obtain ⟨H, hH, m, hm, hmw, a2⟩ := at' y hy w hw p p2
    obtain ⟨G', hG', l', hl', hlz', b1⟩ := at' x hx z' hz' q q1
    obtain ⟨H', hH', m', hm', hmw', b2⟩ := at' y hy w' hw' q q2
    have dis : ∀ a ∈ x.2, ∀ b ∈ y.2, a ≠ b := fun a ha b hb e => hxy (samex x hx y hy a ha (e ▸ hb))
    have once := Treelike.once (M := Related Meet) (fun _ _ => related_symm) hT.forest _ x.2 y.2 rfl
      (List.nodup_append.2 ⟨hX2 x hx, hX2 y hy, dis⟩) (fun K hK => by
        rcases List.mem_append.1 hK with h | h
        · exact hsub x hx K h
        · exact hsub y hy K h) (hX x hx).joined (hX y hy).joined
    obtain ⟨rfl, rfl⟩ := once G hG H hH G' hG' H' hH' ⟨l, hl, m, hm, p, a1, a2⟩ ⟨l', hl', m', hm', q, b1, b2⟩
    obtain ⟨rfl, rfl⟩ := hT.pair G (hsub x hx G hG) H (hsub y hy H hH) (dis G hG H hH) l hl m hm l' hl' m' hm' ⟨p, a1, a2⟩
      ⟨q, b1, b2⟩
    have e1 : z = z' := same_part hZn ((mZ z).2 ⟨x, hx, hz⟩) ((mZ z').2 ⟨x, hx, hz'⟩) hlz hlz'
    have e2 : w = w' := same_part hZn ((mZ w).2 ⟨y, hy, hw⟩) ((mZ w').2 ⟨y, hy, hw'⟩) hmw hmw'
    exact ⟨by rw [e1], by rw [e2]⟩
  · intro F hF hFn hFs
    set ys := X.filter fun x => decide (x.1 ∈ F) with hys
    have mys : ∀ x, x ∈ ys ↔ x ∈ X ∧ x.1 ∈ F := by
      intro x; rw [hys, List.mem_filter, decide_eq_true_eq]
    have hsl : (ys.map Prod.snd).flatten.Sublist (X.map Prod.snd).flatten := (List.filter_sublist.map _).flatten
    have hpick : ∀ L ∈ F, ∃ x ∈ ys, x.1 = L := by
      intro L hL
      obtain ⟨x, hx, rfl⟩ := List.mem_map.1 (hFs L hL)
      exact ⟨x, (mys x).2 ⟨hx, hL⟩, rfl⟩
    obtain ⟨G, hG, key⟩ := Treelike.contract (M := Related Meet) (fun _ _ => related_symm) hT.forest _ (ys.map Prod.snd) rfl (by
        obtain ⟨L, hL⟩ := List.exists_mem_of_ne_nil F hF
        obtain ⟨x, hx, -⟩ := hpick L hL
        exact List.ne_nil_of_mem (List.mem_map_of_mem hx)) (hsl.nodup hXn) (by
        intro G hG
        obtain ⟨x, hx, rfl⟩ := List.mem_map.1 hG
        exact (hX x ((mys x).1 hx).1).some) (by
        intro G hG
        obtain ⟨x, hx, rfl⟩ := List.mem_map.1 hG
        exact (hX x ((mys x).1 hx).1).joined) (fun L hL => hp.mem_iff.1 (hsl.subset hL))
    obtain ⟨x, hx, rfl⟩ := List.mem_map.1 hG
    obtain ⟨hx1, hx2⟩ := (mys x).1 hx
    have same : ∀ y ∈ ys, ∀ z ∈ ys, y.2 = z.2 → y = z := by
      intro y hy z hz h
      obtain ⟨L, hL⟩ := List.exists_mem_of_ne_nil y.2 (hX y ((mys y).1 hy).1).some
      exact same_part hXn ((mys y).1 hy).1 ((mys z).1 hz).1 hL (h ▸ hL)
    have touch : ∀ y ∈ ys, Related Meet x.1 y.1 → Related (Related Meet) x.2 y.2 := by
      rintro y hy ⟨a, ha, b, hb, p, h1, h2⟩
      obtain ⟨z, hz, rfl⟩ := pick x hx1 a ha
      obtain ⟨w, hw, rfl⟩ := pick y ((mys y).1 hy).1 b hb
      obtain ⟨G, hG, l, hl, -, a1⟩ := at' x hx1 z hz p h1
      obtain ⟨H, hH, m, hm, -, a2⟩ := at' y ((mys y).1 hy).1 w hw p h2
      exact ⟨G, hG, H, hH, l, hl, m, hm, p, a1, a2⟩
    refine ⟨x.1, hx2, ?_⟩
    intro M hM N hN n1 n2 m1 m2
    obtain ⟨y, hy, rfl⟩ := hpick M hM
    obtain ⟨z, hz, rfl⟩ := hpick N hN
    have := key y.2 (List.mem_map_of_mem hy) z.2 (List.mem_map_of_mem hz) (fun e => n1 (by rw [same y hy x hx e]))
      (fun e => n2 (by rw [same z hz x hx e])) (touch y hy m1) (touch z hz m2)
    rw [same y hy z hz this]

end Ply.Arr
