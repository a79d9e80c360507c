import Verif.Proofs.PlateCompose
import Verif.Props.TouchPlates
import Verif.Props.TouchChain

/-!
# Uniting plates with holes step by step (C102)
-/

namespace Ply

open Arr Geom2D CellMerger
open Filter Topology

/-! ### Plates without closed chains -/

theorem plateRings_inj {P Q : List Pt × List (List Pt)} (h : plateRings P = plateRings Q) : P = Q := by
  unfold plateRings at h
  obtain ⟨h1, h2⟩ := List.cons.inj h
  exact Prod.ext h1 (List.map_injective_iff.2 List.reverse_injective h2)

/-- Just right of an edge of one of its rings is the inside of a plate. -/
theorem plate_right {Gs : List (List (List Pt))} (hP : Plates Gs) {G : List (List Pt)} (hG : G ∈ Gs) {L : List Pt} (hL : L ∈ G) {e : Seg}
    (he : e ∈ polyEdges L) {u : Pt} (hu : cross (dir e) u < 0) :
    ∀ᶠ ε in 𝓝[>] (0 : ℚ), OffLoops G (along e (1 / 2) + ε • u) ∧ windings G (along e (1 / 2) + ε • u) = -1 := by
  have hS := hP.simple G hG L hL
  have hside : ∃ a b : ℤ, Sides L a b ∧ a = b + 1 := by
    rcases hS.sides with h | h
    · exact ⟨0, -1, h, rfl⟩
    · exact ⟨1, 0, h, rfl⟩
  obtain ⟨a, b, h, hab⟩ := hside
  have hpl := h.planar
  have hm : e ∈ bothWays L := mem_bothWays.2 (Or.inl he)
  have hu' : 0 < cross (dir e) (-u) := by
    have : cross (dir e) (-u) = -cross (dir e) u := by unfold cross; simp only [Prod.fst_neg, Prod.snd_neg]; ring
    linarith
  have s1 := sees_small hpl hm (s := 1 / 2) (by norm_num) (by norm_num) hu
  have s2 := sees_small hpl (hpl.rev e hm) (s := 1 / 2) (by norm_num) (by norm_num) (u := -u) (by
    have : cross (dir (e.2, e.1)) (-u) = cross (dir e) u := by
      unfold cross dir; simp only [Prod.fst_neg, Prod.snd_neg]; ring
    rw [this]; exact hu)
  have s3 := h.right e he (1 / 2) (by norm_num) (by norm_num) _ hu
  have s4 := h.left e he (1 / 2) (by norm_num) (by norm_num) _ hu'
  have hoff : ∀ M ∈ G.erase L, ¬ OnBoundary M (along e (1 / 2)) := by
    intro M hM hc
    have := (hP.nodup G hG).mem_erase_iff.1 hM
    refine hP.free G hG M this.2 L hL this.1 ⟨_, hc, e, he, 1 / 2, by norm_num, by norm_num, rfl⟩
  have s5 := small_list (G.erase L) (fun M ε => ¬ OnBoundary M (along e (1 / 2) + ε • u) ∧
    windingNumber M (along e (1 / 2) + ε • u) = windingNumber M (along e (1 / 2))) fun M hM => poly_small (hoff M hM) u
  have s6 := small_list (G.erase L) (fun M ε => ¬ OnBoundary M (along e (1 / 2) + ε • -u) ∧
    windingNumber M (along e (1 / 2) + ε • -u) = windingNumber M (along e (1 / 2))) fun M hM => poly_small (hoff M hM) (-u)
  have hsplit : ∀ q, windings G q = windingNumber L q + windings (G.erase L) q := by
    intro q
    rw [windings_perm (List.perm_cons_erase hL)]
    rfl
  filter_upwards [s1, s2, s3, s4, s5, s6] with ε t1 t2 t3 t4 t5 t6
  rw [along_rev, show (1 : ℚ) - 1 / 2 = 1 / 2 by norm_num] at t2
  have o1 : OffLoops G (along e (1 / 2) + ε • u) := by
    intro M hM
    by_cases hML : M = L
    · rw [hML]; exact fun hc => t1.off (onAny_bothWays.2 hc)
    · exact (t5 M ((hP.nodup G hG).mem_erase_iff.2 ⟨hML, hM⟩)).1
  have o2 : OffLoops G (along e (1 / 2) + ε • -u) := by
    intro M hM
    by_cases hML : M = L
    · rw [hML]; exact fun hc => t2.off (onAny_bothWays.2 hc)
    · exact (t6 M ((hP.nodup G hG).mem_erase_iff.2 ⟨hML, hM⟩)).1
  refine ⟨o1, ?_⟩
  have v1 := hP.value G hG _ o1
  have v2 := hP.value G hG _ o2
  have e1 := hsplit (along e (1 / 2) + ε • u)
  have e2 := hsplit (along e (1 / 2) + ε • -u)
  have e3 : windings (G.erase L) (along e (1 / 2) + ε • u) = windings (G.erase L) (along e (1 / 2) + ε • -u) := by
    unfold windings
    refine congrArg List.sum (List.map_congr_left fun M hM => ?_)
    rw [(t5 M hM).2, (t6 M hM).2]
  rw [t3] at e1
  rw [t4] at e2
  omega

/-- A ring belongs to one plate. -/
theorem ring_plate {Gs : List (List (List Pt))} (hP : Plates Gs) {G H : List (List Pt)} (hG : G ∈ Gs) (hH : H ∈ Gs) {L : List Pt} (h1 : L ∈ G)
    (h2 : L ∈ H) : G = H := by
  obtain ⟨v, hv⟩ := List.exists_mem_of_ne_nil L (hP.simple G hG L h1).ne_nil
  obtain ⟨e, he, -⟩ := polyEdges_fst hv
  obtain ⟨u, hu⟩ := right_exists ((hP.simple G hG L h1).pos he)
  obtain ⟨ε, -, ⟨a1, a2⟩, b1, b2⟩ := small_exists ((plate_right hP hG h1 he hu).and (plate_right hP hH h2 he hu))
  exact hP.apart G hG H hH _ a1 b1 (by rw [a2]; decide) (by rw [b2]; decide)

theorem PlateForest.tree {Ps : List (List Pt × List (List Pt))} (h : PlateForest Ps) {Rs : List (List Pt × List (List Pt))}
    (hn : Rs.Nodup) (hs : ∀ P ∈ Rs, P ∈ Ps) : PlateTree (Rs.map plateRings) where
  toPlates := (h.toClearPlates.sub hs).plates
  full := by
    intro G hG
    obtain ⟨P, -, rfl⟩ := List.mem_map.1 hG
    simp [plateRings]
  distinct := by
    have hP := (h.toClearPlates.sub hs).plates
    refine List.nodup_flatten.2 ⟨hP.nodup, ?_⟩
    have : (Rs.map plateRings).Nodup := hn.map fun P Q e => plateRings_inj e
    refine this.imp_of_mem ?_
    intro G H hG hH hne L h1 h2
    exact hne (ring_plate hP hG hH h1 h2)
  outer := by
    intro G hG L hL M hM h1 h2
    obtain ⟨P, hP, rfl⟩ := List.mem_map.1 hG
    have key : ∀ L ∈ plateRings P, shoelace L < 0 → L = P.1 := by
      intro L hL hneg
      rcases List.mem_cons.1 hL with rfl | hL
      · rfl
      · obtain ⟨K, hK, rfl⟩ := List.mem_map.1 hL
        have := (h.simple P (hs P hP) K (List.mem_cons_of_mem _ hK)).2
        rw [shoelace_reverse] at hneg
        linarith
    rw [key L hL h1, key M hM h2]
  seam := by
    intro L hL M hM hne
    obtain ⟨G, hG, hL⟩ := List.mem_flatten.1 hL
    obtain ⟨H, hH, hM⟩ := List.mem_flatten.1 hM
    obtain ⟨P, hP, rfl⟩ := List.mem_map.1 hG
    obtain ⟨Q, hQ, rfl⟩ := List.mem_map.1 hH
    by_cases hPQ : P = Q
    · subst hPQ
      have hm := (h.toClearPlates.sub hs).plates.free _ hG L hL M hM hne
      exact Or.inl fun p q hp _ => absurd ⟨p, hp⟩ hm
    · exact h.seam P (hs P hP) Q (hs Q hQ) hPQ L hL M hM
  pair := by
    intro G hG H hH hne
    obtain ⟨P, hP, rfl⟩ := List.mem_map.1 hG
    obtain ⟨Q, hQ, rfl⟩ := List.mem_map.1 hH
    exact h.pair P (hs P hP) Q (hs Q hQ) fun e => hne (by rw [e])
  forest := by
    intro F hF hFn hFs
    have hpre : ∀ G ∈ F, ∃ P, P ∈ Rs ∧ plateRings P = G := fun G hG => by
      obtain ⟨P, hP, e⟩ := List.mem_map.1 (hFs G hG)
      exact ⟨P, hP, e⟩
    choose! π p1 p2 using hpre
    obtain ⟨P, hP, hleaf⟩ := h.forest (F.map π) (by simpa using hF) (hFn.map_on fun G hG H hH e => by rw [← p2 G hG, ← p2 H hH, e])
      (fun P hP => by
        obtain ⟨G, hG, rfl⟩ := List.mem_map.1 hP
        exact hs _ (p1 G hG))
    obtain ⟨G, hG, rfl⟩ := List.mem_map.1 hP
    refine ⟨G, hG, fun H hH K hK n1 n2 m1 m2 => ?_⟩
    have := hleaf (π H) (List.mem_map_of_mem hH) (π K) (List.mem_map_of_mem hK)
      (fun e => n1 (by rw [← p2 H hH, ← p2 G hG, e])) (fun e => n2 (by rw [← p2 K hK, ← p2 G hG, e]))
      (by unfold PlatesMeet; rw [p2 G hG, p2 H hH]; exact m1) (by unfold PlatesMeet; rw [p2 G hG, p2 K hK]; exact m2)
    rw [← p2 H hH, ← p2 K hK, this]

/-! ### What is made of plates -/

/-- The rings of a polygon. -/
def spwhRings (s : SPWH) : List (List Pt) := plateRings (s.outer, s.holes)

theorem platesOf_map (gs : List Geom2D) : (platesOf gs).map plateRings = gs.flatMap fun g => g.map spwhRings := by
  unfold platesOf
  rw [List.map_flatMap]
  refine List.flatMap_congr fun g _ => ?_
  rw [List.map_map]
  rfl

/-- The geom is what one gets from the plates `R` by uniting some that meet: each polygon is fused from a connected part of the
plates, and together they have the points of the plates and no others. -/
structure Fused (R : List (List Pt × List (List Pt))) (g : Geom2D) : Prop where
  fine : g.Fine
  parts : ∃ X : List (List (List Pt) × List (List (List Pt))), X.map Prod.fst = g.map spwhRings ∧
    (X.map Prod.snd).flatten.Perm (R.map plateRings) ∧ ∀ x ∈ X, Fuses x.1 x.2
  has : ∀ p, g.Has p ↔ ∃ P ∈ R, (plateGeom P).Has p

theorem Fused.nil : Fused [] [] where
  fine := fine_empty
  parts := ⟨[], rfl, by simp, by simp⟩
  has := fun p => by simp [Geom2D.Has, Geom2D.locate]

theorem Fused.empty {R : List (List Pt × List (List Pt))} (h : Fused R []) : R = [] := by
  obtain ⟨xs, h1, h2, -⟩ := h.parts
  have : xs = [] := List.map_eq_nil_iff.1 h1
  subst this
  exact List.map_eq_nil_iff.1 h2.symm.eq_nil

theorem Fused.one {Ps : List (List Pt × List (List Pt))} (h : PlateForest Ps) {P : List Pt × List (List Pt)} (hP : P ∈ Ps) :
    Fused [P] (plateGeom P) where
  fine := h.fine hP
  parts := by
    refine ⟨[(plateRings P, [plateRings P])], rfl, by simp, ?_⟩
    intro x hx
    rw [List.mem_singleton.1 hx]
    exact (h.tree (Rs := [P]) (by simp) (by simpa using hP)).self (by simp)
  has := fun p => by simp

theorem fused_fine {Rs : List (List (List Pt × List (List Pt)))} {gs : List Geom2D} (h : List.Forall₂ Fused Rs gs) :
    ∀ g ∈ gs, g.Fine := by
  induction h with
  | nil => simp
  | @cons R g Rs gs hg _ ih =>
    intro x hx
    rcases List.mem_cons.1 hx with rfl | hx
    · exact hg.fine
    · exact ih x hx

theorem fused_has {Rs : List (List (List Pt × List (List Pt)))} {gs : List Geom2D} (h : List.Forall₂ Fused Rs gs) (p : Pt) :
    (∃ g ∈ gs, Geom2D.Has g p) ↔ ∃ P ∈ Rs.flatten, (plateGeom P).Has p := by
  induction h with
  | nil => simp
  | @cons R g Rs gs hg _ ih =>
    rw [List.flatten_cons]
    simp only [List.mem_cons, List.mem_append, or_and_right, exists_or, exists_eq_left] at ih ⊢
    rw [ih, hg.has]

theorem fused_parts {Rs : List (List (List Pt × List (List Pt)))} {gs : List Geom2D} (h : List.Forall₂ Fused Rs gs) :
    ∃ X : List (List (List Pt) × List (List (List Pt))), X.map Prod.fst = (platesOf gs).map plateRings ∧
      (X.map Prod.snd).flatten.Perm (Rs.flatten.map plateRings) ∧ ∀ x ∈ X, Fuses x.1 x.2 := by
  rw [platesOf_map]
  induction h with
  | nil => exact ⟨[], rfl, by simp, by simp⟩
  | @cons R g Rs gs hg _ ih =>
    obtain ⟨X, x1, x2, x3⟩ := ih
    obtain ⟨Y, y1, y2, y3⟩ := hg.parts
    refine ⟨Y ++ X, ?_, ?_, fun x hx => ?_⟩
    · rw [List.map_append, x1, y1, List.flatMap_cons]
    · rw [List.map_append, List.flatten_append, List.flatten_cons, List.map_append]
      exact y2.append x2
    · rcases List.mem_append.1 hx with hx | hx
      · exact y3 x hx
      · exact x3 x hx

theorem map_unique {α β : Type} {k : α → β} : ∀ {l l' : List α}, (∀ x ∈ l, ∀ y ∈ l', k x = k y → x = y) → l.map k = l'.map k → l = l'
  | [], [], _, _ => rfl
  | [], _ :: _, _, h => by simp at h
  | _ :: _, [], _, h => by simp at h
  | x :: l, y :: l', hi, h => by
    rw [List.map_cons, List.map_cons] at h
    obtain ⟨h1, h2⟩ := List.cons.inj h
    rw [hi x List.mem_cons_self y List.mem_cons_self h1,
      map_unique (fun a ha b hb => hi a (List.mem_cons_of_mem _ ha) b (List.mem_cons_of_mem _ hb)) h2]

/-- An edge does not have the inside on both sides. -/
theorem Parts.opp {g : Geom2D} {e : Seg} (hne : e.1 ≠ e.2) (h1 : Parts g e) (h2 : Parts g (e.2, e.1)) : False := by
  obtain ⟨u, hu⟩ := right_exists hne
  obtain ⟨δ, d0, hd⟩ := h1 (1 / 2) (by norm_num) (by norm_num) u hu
  obtain ⟨δ', d0', hd'⟩ := h2 (1 / 2) (by norm_num) (by norm_num) (-u) (by
    have : cross (dir (e.2, e.1)) (-u) = cross (dir e) u := by
      unfold cross dir; simp only [Prod.fst_neg, Prod.snd_neg]; ring
    rw [this]; exact hu)
  set ε := min δ δ' / 2 with hε
  have e0 : 0 < ε := by have := lt_min d0 d0'; linarith
  have e1 : ε < δ := by have := min_le_left δ δ'; have := lt_min d0 d0'; linarith
  have e2 : ε < δ' := by have := min_le_right δ δ'; have := lt_min d0 d0'; linarith
  have k1 := (hd ε e0 e1).1
  have k2 := (hd' ε e0 e2).2
  have : along (e.2, e.1) (1 / 2) - (ε * (-u).1, ε * (-u).2) = along e (1 / 2) + (ε * u.1, ε * u.2) := by
    unfold along
    ext <;> simp <;> ring
  rw [this, k1] at k2
  exact absurd (Except.ok.inj k2) (by decide)

theorem inRegion_windings {s : SPWH} {p : Pt} (h : InRegion s.outer s.holes p) : windings (spwhRings s) p ≠ 0 := by
  unfold spwhRings
  rw [plate_windings]
  have : (s.holes.map fun H => windingNumber H p) = s.holes.map fun _ => 0 := List.map_congr_left fun H hH => (h.2 H hH).2
  rw [this]
  simpa using h.1.2

theorem windings_inRegion {s : SPWH} {p : Pt} (ho : OffLoops (spwhRings s) p) (hs : ∀ L ∈ s.outer :: s.holes, SimpleRing L ∧ shoelace L < 0)
    (hw : windings (spwhRings s) p = -1) : InRegion s.outer s.holes p := by
  obtain ⟨o1, o2⟩ := off_plate ho
  unfold spwhRings at hw
  rw [plate_windings] at hw
  have w1 := (hs s.outer List.mem_cons_self).1.value (hs s.outer List.mem_cons_self).2 o1
  have w2 : ∀ H ∈ s.holes, windingNumber H p = 0 ∨ windingNumber H p = -1 := fun H hH =>
    (hs H (List.mem_cons_of_mem _ hH)).1.value (hs H (List.mem_cons_of_mem _ hH)).2 (o2 H hH)
  have key : ∀ l : List (List Pt), (∀ H ∈ l, windingNumber H p = 0 ∨ windingNumber H p = -1) →
      (l.map fun H => windingNumber H p).sum ≤ 0 ∧ ((l.map fun H => windingNumber H p).sum = 0 → ∀ H ∈ l, windingNumber H p = 0) := by
    intro l
    induction l with
    | nil => simp
    | cons a l ih =>
      intro hl
      obtain ⟨i1, i2⟩ := ih fun H hH => hl H (List.mem_cons_of_mem _ hH)
      have ha := hl a List.mem_cons_self
      rw [List.map_cons, List.sum_cons]
      refine ⟨by omega, fun h0 => ?_⟩
      have : windingNumber a p = 0 := by omega
      exact List.forall_mem_cons.2 ⟨this, i2 (by omega)⟩
  obtain ⟨k1, k2⟩ := key s.holes w2
  dsimp only at hw
  refine ⟨⟨o1, by omega⟩, fun H hH => ⟨o2 H hH, k2 (by omega) H hH⟩⟩

/-- Uniting geoms made of plates gives a geom made of the same plates. -/
theorem fused_any (ch : Choices) (hch : ch.Valid) {Ps : List (List Pt × List (List Pt))} (hT : PlateForest Ps)
    {Rs : List (List (List Pt × List (List Pt)))} {gs : List Geom2D} (h : List.Forall₂ Fused Rs gs) (hnd : Rs.flatten.Nodup)
    (hsub : ∀ P ∈ Rs.flatten, P ∈ Ps) {op : List Bool → Bool} (ho : ∀ f : Geom2D → Bool, op (gs.map f) = (gs.map f).any id) :
    ∃ r, arrangementOp ch gs op = .ok r ∧ Fused Rs.flatten r := by
  classical
  obtain ⟨X, x1, x2, x3⟩ := fused_parts h
  have hbase := hT.tree hnd hsub
  have hT' : PlateTree ((platesOf gs).map plateRings) := x1 ▸ fuse_tree hbase x3 x2
  have hf := fused_fine h
  have hg : ∀ g ∈ gs, Usable g := fun g hg => (hf g hg).usable
  have hop : op (gs.map fun _ => false) = false := by rw [ho]; simp
  have hin : ∀ c : Cell1, chosen gs op c.point = true ↔ ∃ g ∈ gs, locate g c.point = .ok 1 := by
    intro c
    unfold chosen
    simp only [ho, List.any_map, List.any_eq_true, Function.comp_apply, id_eq, decide_eq_true_eq]
  set Gs := (platesOf gs).map plateRings with hGs
  have memG : ∀ g ∈ gs, ∀ s ∈ g, spwhRings s ∈ Gs := fun g hg' s hs =>
    List.mem_map_of_mem (mem_platesOf.2 ⟨g, hg', s, hs, rfl⟩)
  have hsel : ∀ A : Arrangement, LoopNet A Gs.flatten → ∀ c ∈ A.cells, chosen gs op c.point = true →
      ∃ L, L ∈ Gs.flatten ∧ ∀ u v, (u, v) ∈ polyEdges c.vertices ↔ Al A L u v := by
    intro A hR c hc hs
    obtain ⟨g, hg', hl⟩ := (hin c).1 hs
    obtain ⟨s, hs, hr⟩ := (locate_one (hg g hg').made _).1 hl
    obtain ⟨L, hL, hi⟩ := plate_iff hR hT'.toPlates (memG g hg' s hs) hc (inRegion_windings hr)
    exact ⟨L, mem_flat (memG g hg' s hs) hL, hi⟩
  have hdisc : ∀ A, build ch (gs.flatMap Geom2D.allSegments) = .ok A → BuildOK A → Arr.Full A →
      Discs ((A.cells.filter fun c => chosen gs op c.point).map Cell1.vertices) := by
    intro A hA hB hF
    have hR := plates_net ch hch gs hT'.toPlates hg hA hB hF
    exact loops_discs (plate_ring hR hT'.toPlates) hT'.contacts (fun c => chosen gs op c.point) (hsel A hR)
  obtain ⟨A, r, hA, hB, hF, hr, P, N, f, q1, q2, q3, q4, q5, q6, q7, q8⟩ := arrangementOp_groups ch hch gs op hop hg fun A h1 h2 h3 => (hdisc A h1 h2 h3).fusing
  have hR := plates_net ch hch gs hT'.toPlates hg hA hB hF
  have hD := hdisc A hA hB hF
  set sel := (A.cells.filter fun c => chosen gs op c.point).map Cell1.vertices with hseldef
  have hcell : ∀ v ∈ sel, ∃ c ∈ A.cells, chosen gs op c.point = true ∧ c.vertices = v := by
    intro v hv
    obtain ⟨c, hc, rfl⟩ := List.mem_map.1 hv
    exact ⟨c, (List.mem_filter.1 hc).1, (List.mem_filter.1 hc).2, rfl⟩
  have hex : ∀ v ∈ sel, ∃ L, L ∈ Gs.flatten ∧ ∀ a b, (a, b) ∈ polyEdges v ↔ Al A L a b := by
    intro v hv
    obtain ⟨c, hc, hs, rfl⟩ := hcell v hv
    exact hsel A hR c hc hs
  choose! ρ ρ1 ρ2 using hex
  have hcrisp := (arrangementOp_outlined ch hch gs op r (fun g h => (hg g h).made) (fun g h => (hg g h).cutting) hr).2 hop
  have hfine := arr_fine ch hch gs _ r hop hg hr
  have hpof : ∀ s ∈ r, ∃ p, p ∈ P ∧ p.1 = s.outer := by
    intro s hs
    obtain ⟨p, hp, e⟩ := List.mem_map.1 (q6 ▸ List.mem_map_of_mem hs)
    exact ⟨p, hp, e⟩
  have hsof : ∀ p ∈ P, ∃ s ∈ r, s.outer = p.1 := by
    intro p hp
    obtain ⟨s, hs, e⟩ := List.mem_map.1 (q6.symm ▸ List.mem_map_of_mem hp)
    exact ⟨s, hs, e⟩
  have hparts : ∀ x ∈ P ++ N, ∀ k ∈ polyEdges x.1, Parts r k := by
    intro x hx k hk
    rcases List.mem_append.1 hx with hx | hx
    · obtain ⟨s, hs, e⟩ := hsof x hx
      exact (hcrisp s hs).1 k (by rw [e]; exact hk)
    · obtain ⟨s, hs, e⟩ := hsof (f x) (q5 x hx)
      have hm : x.1.reverse ∈ s.holes := (q7 s hs (f x) (q5 x hx) e.symm).mem_iff.2
        (List.mem_map.2 ⟨x, List.mem_filter.2 ⟨hx, by simp⟩, rfl⟩)
      have := (hcrisp s hs).2 _ hm (k.2, k.1) (by
        rw [(polyEdges_reverse x.1).mem_iff]
        exact List.mem_map.2 ⟨k, hk, rfl⟩)
      simpa using this
  have hU : Fusion A Gs sel ρ P N f := by
    refine ⟨hR, hT', hD, fun v hv => ?_, ρ1, ρ2, fun L hL => ?_, q1, q2, q3, q4, q5, ?_, fun x hx y hy k hk hc => ?_⟩
    · obtain ⟨c, hc, -, e⟩ := hcell v hv
      exact ⟨c, hc, e⟩
    · obtain ⟨G, hG, hLG⟩ := List.mem_flatten.1 hL
      obtain ⟨p, hp⟩ := (hT'.simple G hG L hLG).point
      obtain ⟨a, b, hal, -⟩ := al_at (plate_ring hR hT'.toPlates) hL hp
      obtain ⟨c, hc, hw, hce⟩ := plate_cell hR hT'.toPlates hG hLG hal
      have hcs : c.vertices ∈ sel := by
        refine List.mem_map_of_mem (List.mem_filter.2 ⟨hc, (hin c).2 ?_⟩)
        obtain ⟨Q, hQ, rfl⟩ := List.mem_map.1 hG
        obtain ⟨g, hg', s, hs, rfl⟩ := mem_platesOf.1 hQ
        refine ⟨g, hg', (locate_one (hg g hg').made _).2 ⟨s, hs, ?_⟩⟩
        have hoff := off_loops hR hG (hB.off c hc)
        have hmade := (SPWH.mk'_iff _ _ _).1 ((hg g hg').made s hs)
        refine windings_inRegion hoff (fun M hM => ?_) ((hT'.value _ hG _ hoff).resolve_left hw)
        rcases List.mem_cons.1 hM with rfl | hM
        · exact ⟨hT'.simple _ hG _ List.mem_cons_self, hmade.2.2.1⟩
        · refine ⟨?_, (hmade.2.2.2 M hM).1⟩
          have := (hT'.simple _ hG M.reverse (List.mem_cons_of_mem _ (List.mem_map_of_mem hM))).reverse
          rwa [List.reverse_reverse] at this
      refine ⟨_, hcs, ?_⟩
      exact (plate_ring hR hT'.toPlates).way _ (ρ1 _ hcs) L hL a b ((ρ2 _ hcs a b).1 hce) hal
    · intro c hc p hp
      have := q8 c hc p hp
      unfold grp
      rw [List.map_cons]
      exact this
    · have hne : k.1 ≠ k.2 := by
        have hmem := (q2 x hx).2.2.mem_iff.1 hk
        obtain ⟨u, hu, hue⟩ := List.mem_flatMap.1 (mem_border.1 hmem).1
        obtain ⟨d, hd, -, rfl⟩ := hcell u (q1.mem_iff.1 (List.mem_flatMap.2 ⟨x, hx, hu⟩))
        exact hB.planar.ne k (hB.sub _ (List.mem_flatMap.2 ⟨_, List.mem_map_of_mem hd, hue⟩))
      exact Parts.opp hne (hparts x hx k hk) (hparts y hy _ hc)
  choose! pOf o1 o2 using hpof
  have hinj : ∀ x ∈ P, ∀ y ∈ P, x.1 = y.1 → x = y := by
    intro x hx y hy e
    have hx' : x ∈ P ++ N := List.mem_append_left _ hx
    have hy' : y ∈ P ++ N := List.mem_append_left _ hy
    obtain ⟨v, hv⟩ := List.exists_mem_of_ne_nil _ (hU.blends hx').simple.ne_nil
    obtain ⟨k, hk, -⟩ := polyEdges_fst hv
    obtain ⟨u, hu, hue⟩ := List.mem_flatMap.1 (mem_border.1 ((q2 x hx').2.2.mem_iff.1 hk)).1
    obtain ⟨w, hw, hwe⟩ := List.mem_flatMap.1 (mem_border.1 ((q2 y hy').2.2.mem_iff.1 (e ▸ hk))).1
    have := hU.cell_same (hU.sel_mem hx' hu) (hU.sel_mem hy' hw) hue hwe
    exact hU.same hx' hy' hu (this ▸ hw)
  have hrP : r.map pOf = P := by
    refine map_unique (k := Prod.fst) (fun x hx y hy e => ?_) ?_
    · obtain ⟨s, hs, rfl⟩ := List.mem_map.1 hx
      exact hinj _ (o1 s hs) y hy e
    · rw [List.map_map, ← q6]
      exact List.map_congr_left fun s hs => o2 s hs
  -- the plates of the operands that each polygon consists of
  set in' : SPWH → List (List (List Pt)) := fun s => platesIn Gs (loopsOf ρ (grp N f (pOf s))) with hin'
  have hfu : ∀ s ∈ r, Fuses (spwhRings s) (in' s) := by
    intro s hs
    refine (hU.fuses (o1 s hs)).perm ?_
    unfold grp spwhRings plateRings
    rw [List.map_cons, o2 s hs]
    refine List.Perm.cons _ ?_
    have := ((q7 s hs (pOf s) (o1 s hs) (o2 s hs)).map List.reverse).symm
    rw [List.map_map] at this
    refine List.Perm.trans (List.Perm.of_eq (List.map_congr_left fun x _ => ?_)) this
    simp
  have hcov : (r.flatMap in').Perm Gs := by
    have := hU.cover
    rw [← hrP, List.flatMap_map] at this
    exact this
  have hlk : ∀ G ∈ Gs, ∃ R, (G, R) ∈ X := by
    intro G hG
    rw [← x1] at hG
    obtain ⟨x, hx, rfl⟩ := List.mem_map.1 hG
    exact ⟨x.2, hx⟩
  choose! look hlook using hlk
  have hXn : (X.map Prod.fst).Nodup := by rw [x1]; exact hT'.list
  have hlook' : ∀ x ∈ X, look x.1 = x.2 := by
    intro x hx
    have h1 := hlook x.1 (x1 ▸ List.mem_map_of_mem hx)
    exact congrArg Prod.snd (List.inj_on_of_nodup_map hXn h1 hx rfl)
  have hall : (Gs.flatMap look).Perm (Rs.flatten.map plateRings) := by
    rw [← x1, List.flatMap_map, List.flatMap_def]
    refine List.Perm.trans (List.Perm.of_eq (congrArg List.flatten (List.map_congr_left fun x hx => hlook' x hx))) x2
  have hrl : ((r.flatMap in').flatMap look).Perm (Rs.flatten.map plateRings) := (hcov.flatMap_right look).trans hall
  refine ⟨r, hr, hfine, ⟨r.map fun s => (spwhRings s, (in' s).flatMap look), ?_, ?_, ?_⟩, fun p => ?_⟩
  · rw [List.map_map]; rfl
  · rw [List.map_map, ← List.flatMap_def]
    rw [List.flatMap_assoc] at hrl
    exact hrl
  · intro y hy
    obtain ⟨s, hs, rfl⟩ := List.mem_map.1 hy
    have hsubG : ∀ G ∈ in' s, G ∈ Gs := fun G hG => (mem_platesIn.1 hG).1
    refine (hfu s hs).compose ((List.filter_sublist.flatten).nodup hT'.distinct) (fun G hG => x3 _ (hlook G (hsubG G hG))) ?_
    have hb : ((r.flatMap in').flatMap look).flatten.Nodup := hrl.flatten.nodup_iff.2 hbase.distinct
    refine List.Sublist.nodup (List.Sublist.flatten ?_) hb
    have hs' : (in' s).Sublist (r.flatMap in') := by
      rw [List.flatMap_def]
      exact List.sublist_flatten_of_mem (List.mem_map_of_mem hs)
    exact hs'.flatMap look
  · rw [arr_has ch hch gs hf hfine ho hr, fused_has h]

/-! ### `|` and `union` -/

/-- C102: `a | b` of geoms made of plates with holes returns a geom made of the plates of both. -/
theorem c102_or (ch : Choices) (hch : ch.Valid) {Ps : List (List Pt × List (List Pt))} (hT : PlateForest Ps)
    {R S : List (List Pt × List (List Pt))} {a b : Geom2D} (ha : Fused R a) (hb : Fused S b) (hnd : (R ++ S).Nodup)
    (hsub : ∀ P ∈ R ++ S, P ∈ Ps) : ∃ r, Geom2D.or (arrangementOp ch) a b = .ok r ∧ Fused (R ++ S) r := by
  unfold Geom2D.or
  split_ifs with h1 h2
  · obtain rfl : a = [] := by simpa [Geom2D.isEmpty] using h1
    exact ⟨b, rfl, by rw [ha.empty]; exact hb⟩
  · obtain rfl : b = [] := by simpa [Geom2D.isEmpty] using h2
    exact ⟨a, rfl, by rw [hb.empty, List.append_nil]; exact ha⟩
  · have hfl : [R, S].flatten = R ++ S := by simp
    obtain ⟨r, h3, h4⟩ := fused_any ch hch hT (Rs := [R, S]) (gs := [a, b]) (.cons ha (.cons hb .nil)) (hfl ▸ hnd) (hfl ▸ hsub)
      (op := fun v => match v with | [x, y] => x || y | _ => false) (fun f => by simp)
    exact ⟨r, h3, hfl ▸ h4⟩

/-- C102: the same for the union of any number of geoms. -/
theorem c102_union (ch : Choices) (hch : ch.Valid) {Ps : List (List Pt × List (List Pt))} (hT : PlateForest Ps)
    {Rs : List (List (List Pt × List (List Pt)))} {gs : List Geom2D} (h : List.Forall₂ Fused Rs gs) (hnd : Rs.flatten.Nodup)
    (hsub : ∀ P ∈ Rs.flatten, P ∈ Ps) (fuel : ℕ) (hf : gs.length + 4 ≤ fuel) :
    ∃ r, Geom2D.union (arrangementOp ch) fuel gs = .ok r ∧ Fused Rs.flatten r :=
  union_parts (Ok := fun l => l.Nodup ∧ ∀ P ∈ l, P ∈ Ps) Fused.nil
    (fun _ _ hs ho => ⟨hs.nodup ho.1, fun L hL => ho.2 L (hs.subset hL)⟩)
    (fun _ _ h ho => fused_any ch hch hT h ho.1 ho.2 fun _ => rfl) fuel Rs gs hf h ⟨hnd, hsub⟩

/-- C102: the same for `g |= x` repeated for any number of geoms. -/
theorem c102_fold (ch : Choices) (hch : ch.Valid) {Ps : List (List Pt × List (List Pt))} (hT : PlateForest Ps)
    {R : List (List Pt × List (List Pt))} {g : Geom2D} (hg : Fused R g) {Rs : List (List (List Pt × List (List Pt)))}
    {gs : List Geom2D} (h : List.Forall₂ Fused Rs gs) (hnd : (R ++ Rs.flatten).Nodup) (hsub : ∀ P ∈ R ++ Rs.flatten, P ∈ Ps) :
    ∃ r, gs.foldlM (Geom2D.or (arrangementOp ch)) g = .ok r ∧ Fused (R ++ Rs.flatten) r := by
  induction h generalizing R g with
  | nil => exact ⟨g, rfl, by simpa using hg⟩
  | @cons S x Rs gs hx _ ih =>
    rw [List.flatten_cons, ← List.append_assoc] at hnd hsub ⊢
    have hs : (R ++ S).Sublist (R ++ S ++ Rs.flatten) := List.sublist_append_left _ _
    obtain ⟨r, h1, h2⟩ := c102_or ch hch hT hg hx (hs.nodup hnd) fun L hL => hsub L (hs.subset hL)
    obtain ⟨r', h3, h4⟩ := ih h2 hnd hsub
    refine ⟨r', ?_, h4⟩
    rw [List.foldlM_cons, h1]
    exact h3

theorem fused_plates {Ps : List (List Pt × List (List Pt))} (hT : PlateForest Ps) {Qs : List (List Pt × List (List Pt))}
    (hs : ∀ P ∈ Qs, P ∈ Ps) : List.Forall₂ Fused (Qs.map fun P => [P]) (Qs.map plateGeom) := by
  rw [List.forall₂_map_left_iff, List.forall₂_map_right_iff, List.forall₂_same]
  exact fun P hP => Fused.one hT (hs P hP)

theorem flatten_single {α : Type} (l : List α) : (l.map fun x => [x]).flatten = l := by
  rw [← List.flatMap_def]; exact List.flatMap_singleton' l

/-- C102: uniting any number of plates with holes, by `union` or one after the other, never raises and returns exactly the points
of all of them. -/
theorem c102_plates (ch : Choices) (hch : ch.Valid) {Ps : List (List Pt × List (List Pt))} (hT : PlateForest Ps) (hn : Ps.Nodup)
    (fuel : ℕ) (hf : Ps.length + 4 ≤ fuel) :
    (∃ r, Geom2D.union (arrangementOp ch) fuel (Ps.map plateGeom) = .ok r ∧ r.Fine ∧ ∀ p, r.Has p ↔ ∃ P ∈ Ps, (plateGeom P).Has p) ∧
    ∃ r, (Ps.map plateGeom).foldlM (Geom2D.or (arrangementOp ch)) Geom2D.empty = .ok r ∧ r.Fine ∧
      ∀ p, r.Has p ↔ ∃ P ∈ Ps, (plateGeom P).Has p := by
  have hall := fused_plates hT (Qs := Ps) fun _ h => h
  obtain ⟨r, h1, h2⟩ := c102_union ch hch hT hall (by rw [flatten_single]; exact hn) (fun P hP => by rwa [flatten_single] at hP) fuel
    (by rw [List.length_map]; exact hf)
  obtain ⟨r', h3, h4⟩ := c102_fold ch hch hT Fused.nil hall (by rw [flatten_single]; exact hn) (fun P hP => by
    rwa [flatten_single] at hP)
  rw [flatten_single] at h2 h4
  exact ⟨⟨r, h1, h2.fine, h2.has⟩, r', h3, h4.fine, h4.has⟩

/-! ### Fingers -/

/-- C102: what `make_fingers` returns is made of its fingers. -/
theorem c102_fingers (ch : Choices) (hch : ch.Valid) {Ps : List (List Pt × List (List Pt))} (hT : PlateForest Ps) (s : InterSide)
    (h : s.Proper) (f0 f1 : ℚ) (hf : f0 < f1) (w : Geom1D) (hw : w.Made) (hb : Bornology.IsBounded (pointsOf w.intervals))
    (hsub : ∀ L ∈ fingerRings s f0 f1 w, (L, []) ∈ Ps) :
    ∃ r, s.makeFingers (arrangementOp ch) w f0 f1 = .ok r ∧ Fused ((fingerRings s f0 f1 w).map fun L => (L, [])) r := by
  obtain ⟨ivs, res, hi, h1, -, -⟩ := c37_rectangles s h f0 f1 hf w hw hb
  obtain ⟨-, -, -, hnd, -⟩ := c97_fingers ch hch s h f0 f1 hf w hw hb
  obtain ⟨hres, -⟩ := fingerLoop_eq s f0 f1 ivs res (by rw [← hi]; exact h1)
  rw [fingerRings_eq s f0 f1 hi] at hsub hnd ⊢
  set Ls := ivs.map (fingerRing s f0 f1) with hLs
  have hmem : ∀ P ∈ Ls.map (fun L => (L, ([] : List (List Pt)))), P ∈ Ps := by
    intro P hP
    obtain ⟨L, hL, rfl⟩ := List.mem_map.1 hP
    exact hsub L hL
  have hall := fused_plates hT hmem
  have hn : (Ls.map fun L => (L, ([] : List (List Pt)))).Nodup := hnd.map fun L M e => congrArg Prod.fst e
  have er : (Ls.map fun L => (L, ([] : List (List Pt)))).map plateGeom = res := by
    rw [hres, List.map_map]; rfl
  rw [er] at hall
  obtain ⟨r, r1, r2⟩ := c102_union ch hch hT hall (by rw [flatten_single]; exact hn) (fun P hP => by
    rw [flatten_single] at hP; exact hmem P hP) (res.length + 4) le_rfl
  rw [flatten_single] at r2
  refine ⟨r, ?_, r2⟩
  unfold InterSide.makeFingers
  show (_ >>= _) = _
  rw [h1]; exact r1

/-- The fingers of the joints. -/
def fingerPlates (js : List (InterSide × Geom1D)) : List (List Pt × List (List Pt)) :=
  js.flatMap fun j => (fingerRings j.1 0 1 j.2).map fun L => (L, [])

theorem fingerPlates_cons (j : InterSide × Geom1D) (js : List (InterSide × Geom1D)) :
    fingerPlates (j :: js) = ((fingerRings j.1 0 1 j.2).map fun L => (L, [])) ++ fingerPlates js := rfl

/-- C102: adding the fingers of any number of joints to a geom with holes, as the loops of heuristics.py:113-119 and 281-284 do,
never raises and returns exactly the points of all of them. -/
theorem c102_joints (ch : Choices) (hch : ch.Valid) {Ps : List (List Pt × List (List Pt))} (hT : PlateForest Ps)
    {R : List (List Pt × List (List Pt))} {g : Geom2D} (hg : Fused R g) (js : List (InterSide × Geom1D))
    (hj : ∀ j ∈ js, j.1.Proper ∧ j.2.Made ∧ Bornology.IsBounded (pointsOf j.2.intervals))
    (hnd : (R ++ fingerPlates js).Nodup)
    (hsub : ∀ P ∈ R ++ fingerPlates js, P ∈ Ps) :
    ∃ r, js.foldlM (fun acc j => j.1.makeFingers (arrangementOp ch) j.2 0 1 >>= Geom2D.or (arrangementOp ch) acc) g = .ok r ∧ r.Fine ∧
      ∀ p, r.Has p ↔ g.Has p ∨ ∃ j ∈ js, ∃ L ∈ fingerRings j.1 0 1 j.2, (plateGeom (L, [])).Has p := by
  have key : ∀ (js : List (InterSide × Geom1D)) (R : List (List Pt × List (List Pt))) (g : Geom2D), Fused R g →
      (∀ j ∈ js, j.1.Proper ∧ j.2.Made ∧ Bornology.IsBounded (pointsOf j.2.intervals)) →
      (R ++ fingerPlates js).Nodup →
      (∀ P ∈ R ++ fingerPlates js, P ∈ Ps) →
      ∃ r, js.foldlM (fun acc j => j.1.makeFingers (arrangementOp ch) j.2 0 1 >>= Geom2D.or (arrangementOp ch) acc) g = .ok r ∧
        Fused (R ++ fingerPlates js) r := by
    intro js
    induction js with
    | nil => exact fun R g hg _ _ _ => ⟨g, rfl, by simpa [fingerPlates] using hg⟩
    | cons j js ih =>
      intro R g hg hj hnd hsub
      rw [fingerPlates_cons, ← List.append_assoc] at hnd hsub ⊢
      obtain ⟨j1, j2, j3⟩ := hj j List.mem_cons_self
      obtain ⟨f, f1, f2⟩ := c102_fingers ch hch hT j.1 j1 0 1 one_pos j.2 j2 j3 fun L hL =>
        hsub _ (List.mem_append_left _ (List.mem_append_right _ (List.mem_map_of_mem hL)))
      have hs := List.sublist_append_left (R ++ (fingerRings j.1 0 1 j.2).map fun L => (L, []))
        (fingerPlates js)
      obtain ⟨r, r1, r2⟩ := c102_or ch hch hT hg f2 (hs.nodup hnd) fun L hL => hsub L (hs.subset hL)
      obtain ⟨r', r3, r4⟩ := ih _ r r2 (fun j h => hj j (List.mem_cons_of_mem _ h)) hnd hsub
      refine ⟨r', ?_, r4⟩
      rw [List.foldlM_cons, f1]
      show (Geom2D.or (arrangementOp ch) g f >>= _) = _
      rw [r1]
      exact r3
  obtain ⟨r, r1, r2⟩ := key js R g hg hj hnd hsub
  refine ⟨r, r1, r2.fine, fun p => ?_⟩
  rw [r2.has, hg.has]
  simp only [fingerPlates, List.mem_append, List.mem_flatMap, List.mem_map]
  constructor
  · rintro ⟨P, hP | ⟨j, hj, L, hL, rfl⟩, hp⟩
    · exact Or.inl ⟨P, hP, hp⟩
    · exact Or.inr ⟨j, hj, L, hL, hp⟩
  · rintro (⟨L, hL, hp⟩ | ⟨j, hj, L, hL, hp⟩)
    · exact ⟨L, Or.inl hL, hp⟩
    · exact ⟨_, Or.inr ⟨j, hj, L, hL, rfl⟩, hp⟩

/-! ### A plate and its fingers -/

theorem PlateStar.tree {P : List Pt × List (List Pt)} {Fs : List (List Pt)} (h : PlateStar P Fs) :
    PlateForest (P :: Fs.map fun F => (F, [])) := by
  have two : ∀ Q ∈ P :: Fs.map (fun F => (F, [])), Q = P ∨ ∃ F ∈ Fs, Q = (F, []) := by
    intro Q hQ
    rcases List.mem_cons.1 hQ with rfl | hQ
    · exact Or.inl rfl
    · obtain ⟨F, hF, rfl⟩ := List.mem_map.1 hQ
      exact Or.inr ⟨F, hF, rfl⟩
  have one : ∀ {F : List Pt} {L : List Pt}, L ∈ plateRings (F, []) → L = F := fun hL => List.mem_singleton.1 hL
  refine ⟨h.touching.toClearPlates, fun Q hQ R hR hne L hL M hM => ?_, fun Q hQ R hR hne L hL M hM L' hL' M' hM' m1 m2 => ?_,
    fun F hF hnd hsub => ?_⟩
  · refine h.touching.seam L (List.mem_flatMap.2 ⟨Q, hQ, hL⟩) M (List.mem_flatMap.2 ⟨R, hR, hM⟩) fun e => hne ?_
    subst e
    exact plateRings_inj (ring_plate h.touching.plates (List.mem_map_of_mem hQ) (List.mem_map_of_mem hR) hL hM)
  · rcases two Q hQ with rfl | ⟨F, hF, rfl⟩ <;> rcases two R hR with rfl | ⟨G, hG, rfl⟩
    · exact absurd rfl hne
    · rw [one hM] at m1 ⊢
      rw [one hM'] at m2 ⊢
      obtain ⟨K, -, k, -⟩ := h.seam G hG
      exact ⟨(k L hL m1).trans (k L' hL' m2).symm, rfl⟩
    · rw [one hL] at m1 ⊢
      rw [one hL'] at m2 ⊢
      obtain ⟨K, -, k, -⟩ := h.seam F hF
      exact ⟨rfl, (k M hM (meet_symm m1)).trans (k M' hM' (meet_symm m2)).symm⟩
    · rw [one hL, one hM] at m1
      exact absurd (by rw [h.fingers F hF G hG (Or.inr m1)]) hne
  · have key : ∀ G ∈ Fs, ∀ Q ∈ F, Q ≠ (G, []) → PlatesMeet (G, []) Q → Q = P := by
      rintro G hG Q hQ hne ⟨L, hL, M, hM, hm⟩
      rcases two Q (hsub Q hQ) with rfl | ⟨K, hK, rfl⟩
      · rfl
      · rw [one hL, one hM] at hm
        exact absurd (by rw [h.fingers G hG K hK (Or.inr hm)]) hne
    by_cases hex : ∃ Q ∈ F, Q ≠ P
    · obtain ⟨Q, hQ, hne⟩ := hex
      rcases two Q (hsub Q hQ) with rfl | ⟨G, hG, rfl⟩
      · exact absurd rfl hne
      · exact ⟨_, hQ, fun A hA B hB n1 n2 m1 m2 => (key G hG A hA n1 m1).trans (key G hG B hB n2 m2).symm⟩
    · push Not at hex
      obtain ⟨Q, hQ⟩ := List.exists_mem_of_ne_nil F hF
      exact ⟨Q, hQ, fun A hA B hB n1 _ _ _ => absurd ((hex A hA).trans (hex Q hQ).symm) n1⟩

/-! ### Example -/

/-- The side of a joint between the heights `a` and `b`, drawn from right to left. -/
def sideAt (a b : ℚ) : InterSide :=
  createInterSide ⟨fun _ => (-1, 0), fun _ => ((0, a), (0, b), (0, b), (0, a))⟩ "s0,s1".toList ⟨"s0".toList⟩ 0

theorem sideAt_proper : (sideAt 20 23).Proper ∧ (sideAt 5 7).Proper := by
  refine ⟨⟨fun h => ?_, ?_, ?_⟩, fun h => ?_, ?_, ?_⟩
  · have : (-1 : ℚ) = 0 := congrArg Prod.fst h
    norm_num at this
  · show ((0 * 1, -1 * -1) : Pt) = (0, - -1)
    norm_num
  · decide +kernel
  · have : (-1 : ℚ) = 0 := congrArg Prod.fst h
    norm_num at this
  · show ((0 * 1, -1 * -1) : Pt) = (0, - -1)
    norm_num
  · decide +kernel

/-- C102: the fingers of two joints are added to a frame one after the other, one on its edge and one in its hole, in any order of
the sets. -/
theorem c102_run (ch : Choices) (hch : ch.Valid) :
    ∃ r, [(sideAt 20 23, (⟨[(Ext.fin (-12), Ext.fin (-8))]⟩ : Geom1D)), (sideAt 5 7, ⟨[(Ext.fin (-12), Ext.fin (-8))]⟩)].foldlM
      (fun acc j => j.1.makeFingers (arrangementOp ch) j.2 0 1 >>= Geom2D.or (arrangementOp ch) acc) (plateGeom frameRings) = .ok r ∧
      r.Has (10, 20) ∧ r.Has (10, 22) ∧ r.Has (10, 5) ∧ r.Has (10, 6) ∧ r.Has (1, 1) ∧ ¬ r.Has (10, 10) := by
  have hP := frame_star.tree
  have e1 : fingerRings (sideAt 20 23) 0 1 ⟨[(Ext.fin (-12), Ext.fin (-8))]⟩ = [boxLoop 8 20 12 23] := by decide +kernel
  have e2 : fingerRings (sideAt 5 7) 0 1 ⟨[(Ext.fin (-12), Ext.fin (-8))]⟩ = [boxLoop 8 5 12 7] := by decide +kernel
  have hall : [frameRings] ++ fingerPlates [(sideAt 20 23, (⟨[(Ext.fin (-12), Ext.fin (-8))]⟩ : Geom1D)),
      (sideAt 5 7, ⟨[(Ext.fin (-12), Ext.fin (-8))]⟩)] = frameRings :: [boxLoop 8 20 12 23, boxLoop 8 5 12 7].map fun F => (F, []) := by
    simp only [fingerPlates, List.flatMap_cons, List.flatMap_nil, e1, e2]
    rfl
  obtain ⟨r, h1, -, h2⟩ := c102_joints ch hch hP (R := [frameRings]) (g := plateGeom frameRings) (Fused.one hP List.mem_cons_self)
    [(sideAt 20 23, ⟨[(Ext.fin (-12), Ext.fin (-8))]⟩), (sideAt 5 7, ⟨[(Ext.fin (-12), Ext.fin (-8))]⟩)]
    (by intro j hj
        simp only [List.mem_cons, List.not_mem_nil, or_false] at hj
        rcases hj with rfl | rfl
        · exact ⟨sideAt_proper.1, oneInterval_made (by norm_num), oneInterval_bounded _ _⟩
        · exact ⟨sideAt_proper.2, oneInterval_made (by norm_num), oneInterval_bounded _ _⟩)
    (by rw [hall]; decide +kernel) (by rw [hall]; exact fun L hL => hL)
  simp only [List.mem_cons, List.not_mem_nil, or_false, exists_eq_or_imp, exists_eq_left, e1, e2] at h2
  have no : ∀ g : Geom2D, Geom2D.locate g (10, 10) = .ok (-1) → ¬ g.Has (10, 10) := by
    intro g hg hc
    unfold Geom2D.Has at hc
    rw [hg] at hc
    rcases hc with hc | hc <;> cases hc
  refine ⟨r, h1, (h2 _).2 (Or.inl (Or.inr (by decide +kernel))), (h2 _).2 (Or.inr (Or.inl (Or.inl (by decide +kernel)))),
    (h2 _).2 (Or.inl (Or.inr (by decide +kernel))), (h2 _).2 (Or.inr (Or.inr (Or.inl (by decide +kernel)))),
    (h2 _).2 (Or.inl (Or.inl (by decide +kernel))), fun hc => ?_⟩
  rcases (h2 _).1 hc with hc | hc | hc
  · exact no _ (by decide +kernel) hc
  · exact no _ (by decide +kernel) hc
  · exact no _ (by decide +kernel) hc

end Ply
