import Verif.Proofs.RingSeam

/-!
# The cells of rings that touch along straight stretches and make no closed chain
-/

namespace Ply.Arr

open CellMerger Filter Topology
open Relation (ReflTransGen)

/-- How loops touch: two of them have at most one common point or one straight stretch in common, and there is no closed
chain. -/
structure Contacts (Ls : List (List Pt)) : Prop where
  seam : ∀ L ∈ Ls, ∀ M ∈ Ls, L ≠ M →
    (∀ p q, OnBoundary L p ∧ OnBoundary M p → OnBoundary L q ∧ OnBoundary M q → p = q) ∨
    ∃ x y, x ≠ y ∧ ∀ p, OnBoundary L p ∧ OnBoundary M p ↔ OnSeg (x, y) p
  forest : ∀ F : List (List Pt), F ≠ [] → F.Nodup → (∀ L ∈ F, L ∈ Ls) →
    ∃ L ∈ F, ∀ M ∈ F, ∀ N ∈ F, M ≠ L → N ≠ L → Meet L M → Meet L N → M = N

theorem _root_.Ply.Touching.contacts {Ls : List (List Pt)} (h : Touching Ls) : Contacts Ls := ⟨h.seam, h.forest⟩

section
variable {A : Arrangement} {Ls : List (List Pt)} (hR : RingNet A Ls) (hT : Contacts Ls)
include hR hT

theorem group_ring {cs : List (List Pt)} (hcs : ∀ c ∈ cs, c ∈ A.cells.map Cell1.vertices) (ρ : List Pt → List Pt)
    (hρ : ∀ c ∈ cs, ρ c ∈ Ls ∧ ∀ u v, (u, v) ∈ polyEdges c ↔ Al A (ρ c) u v) (n : ℕ) :
    ∀ F : List (List Pt), F.length = n → F ≠ [] → F.Nodup → (∀ c ∈ F, c ∈ cs) → CellMerger.Linked F →
      Ring (fun u v => (u, v) ∈ border F) ∧ border F ≠ [] := by
  have hinj : ∀ c ∈ cs, ∀ d ∈ cs, ρ c = ρ d → c = d := by
    intro c hc d hd h
    obtain ⟨e, he⟩ := (hR.full.tiling.ok c (hcs c hc)).edge
    have := ((hρ d hd).2 e.1 e.2).2 (h ▸ ((hρ c hc).2 e.1 e.2).1 he)
    exact hR.full.tiling.uniq c (hcs c hc) d (hcs d hd) e he this
  have hanti : ∀ c ∈ cs, ∀ e ∈ polyEdges c, opp e ∉ polyEdges c := fun c hc e he h =>
    al_not_both hR.toLoopNet (hρ c hc).1 (((hρ c hc).2 e.1 e.2).1 he) (((hρ c hc).2 e.2 e.1).1 h)
  have hmeet : ∀ c ∈ cs, ∀ d ∈ cs, Adjacent c d → ∃ p q, p ≠ q ∧ (OnBoundary (ρ c) p ∧ OnBoundary (ρ d) p) ∧
      OnBoundary (ρ c) q ∧ OnBoundary (ρ d) q := by
    rintro c hc d hd ⟨u, v, h1, h2⟩
    have a1 := ((hρ c hc).2 u v).1 h1
    have a2 := ((hρ d hd).2 v u).1 h2
    exact ⟨u, v, hR.built.planar.ne _ a1.mem, ⟨a1.left, a2.right⟩, a1.right, a2.left⟩
  induction n using Nat.strong_induction_on with
  | _ n ih =>
    intro F hn hF hnd hsub hlink
    have hmapnd : (F.map ρ).Nodup := hnd.map_on fun c hc d hd h => hinj c (hsub c hc) d (hsub d hd) h
    obtain ⟨R, hRF, hleaf⟩ := hT.forest (F.map ρ) (by simpa using hF) hmapnd (by
      intro L hL
      obtain ⟨c, hc, rfl⟩ := List.mem_map.1 hL
      exact (hρ c (hsub c hc)).1)
    obtain ⟨r, hr, rfl⟩ := List.mem_map.1 hRF
    have hrc := hsub r hr
    obtain ⟨hRL, hRe⟩ := hρ r hrc
    by_cases hone : ∀ t ∈ F, t = r
    · -- one cell
      have hF1 : ∀ e, e ∈ allEdges F ↔ e ∈ polyEdges r := by
        intro e
        unfold allEdges
        rw [List.mem_flatMap]
        exact ⟨fun ⟨t, ht, he⟩ => hone t ht ▸ he, fun he => ⟨r, hr, he⟩⟩
      have hb : (fun u v => (u, v) ∈ border F) = Al A (ρ r) := by
        funext u v
        rw [mem_border, hF1, hF1, ← hRe, eq_iff_iff]
        exact ⟨fun h => h.1, fun h => ⟨h, hanti r hrc _ h⟩⟩
      rw [hb]
      refine ⟨al_ring hR.toLoopNet hRL, ?_⟩
      obtain ⟨e, he⟩ := (hR.full.tiling.ok r (hcs r hrc)).edge
      have : (e.1, e.2) ∈ border F := (congrFun (congrFun hb e.1) e.2).mpr ((hRe e.1 e.2).1 he)
      exact List.ne_nil_of_mem this
    · -- take the leaf off
      push Not at hone
      obtain ⟨t, ht, htr⟩ := hone
      set G := F.erase r with hG
      have mG : ∀ c, c ∈ G ↔ c ≠ r ∧ c ∈ F := fun c => hnd.mem_erase_iff
      have hadjne : ∀ c ∈ F, ∀ d ∈ F, Adjacent c d → c ≠ d := by
        rintro c hc d hd ⟨u, v, h1, h2⟩ rfl
        exact hanti c (hsub c hc) _ h1 h2
      obtain ⟨s, hs, hsr, hadj⟩ : ∃ s ∈ F, s ≠ r ∧ Adjacent r s := by
        rcases (hlink r hr t ht).cases_head with h | ⟨s, ⟨_, h1, h2⟩, -⟩
        · exact absurd h.symm htr
        · exact ⟨s, h1, (hadjne r hr s h1 h2).symm, h2⟩
      have hsc := hsub s hs
      obtain ⟨hSL, hSe⟩ := hρ s hsc
      have hneRS : ρ r ≠ ρ s := fun h => hsr (hinj r hrc s hsc h).symm
      have honly : ∀ c ∈ F, c ≠ r → ∀ p, OnBoundary (ρ r) p → OnBoundary (ρ c) p → c = s := by
        intro c hc hcr p h1 h2
        obtain ⟨p', q', -, hp', -⟩ := hmeet r hrc s hsc hadj
        refine hinj c (hsub c hc) s hsc (hleaf (ρ c) (List.mem_map_of_mem hc) (ρ s) (List.mem_map_of_mem hs) ?_ hneRS.symm ⟨p, h1, h2⟩ ⟨p', hp'⟩)
        exact fun h => hcr (hinj c (hsub c hc) r hrc h)
      have honly' : ∀ c ∈ F, Adjacent r c → c = s := by
        intro c hc h
        obtain ⟨p', q', -, hp', -⟩ := hmeet r hrc c (hsub c hc) h
        exact honly c hc (hadjne r hr c hc h).symm p' hp'.1 hp'.2
      have hsG : s ∈ G := (mG s).2 ⟨hsr, hs⟩
      have hGsub : ∀ c ∈ G, c ∈ cs := fun c hc => hsub c ((mG c).1 hc).2
      have hGlink : CellMerger.Linked G := by
        intro a ha b hb
        have hstep : ∀ x y, ReflTransGen (fun a b => a ∈ F ∧ b ∈ F ∧ Adjacent a b) x y →
            ReflTransGen (fun a b => a ∈ G ∧ b ∈ G ∧ Adjacent a b) (if x = r then s else x) (if y = r then s else y) := by
          intro x y h
          induction h with
          | refl => exact .refl
          | @tail c d _ h2 ih =>
            obtain ⟨hc, hd, hcd⟩ := h2
            refine ih.trans ?_
            by_cases e1 : c = r
            · have : d = s := honly' d hd (e1 ▸ hcd)
              rw [if_pos e1, this, if_neg hsr]
            · by_cases e2 : d = r
              · have : c = s := honly' c hc (adjacent_symm (e2 ▸ hcd))
                rw [if_pos e2, this, if_neg hsr]
              · rw [if_neg e1, if_neg e2]
                exact .single ⟨(mG c).2 ⟨e1, hc⟩, (mG d).2 ⟨e2, hd⟩, hcd⟩
        have := hstep a b (hlink a ((mG a).1 ha).2 b ((mG b).1 hb).2)
        rwa [if_neg ((mG a).1 ha).1, if_neg ((mG b).1 hb).1] at this
      have hlen : G.length < n := by
        rw [hG, List.length_erase_of_mem hr, ← hn]
        have := List.length_pos_of_mem hr
        omega
      obtain ⟨hC, -⟩ := ih _ hlen G rfl (List.ne_nil_of_mem hsG) (hnd.erase r) hGsub hGlink
      -- the edges
      have hrG : ∀ e ∈ polyEdges r, e ∉ allEdges G := by
        intro e he h
        obtain ⟨c, hc, he'⟩ := List.mem_flatMap.1 h
        have := hR.full.tiling.uniq c (hcs c (hGsub c hc)) r (hcs r hrc) e he' he
        exact ((mG c).1 hc).1 this
      have hall : ∀ e, e ∈ allEdges F ↔ e ∈ polyEdges r ∨ e ∈ allEdges G := by
        intro e
        unfold allEdges
        rw [List.mem_flatMap, List.mem_flatMap]
        constructor
        · rintro ⟨c, hc, he⟩
          by_cases h : c = r
          · exact Or.inl (h ▸ he)
          · exact Or.inr ⟨c, (mG c).2 ⟨h, hc⟩, he⟩
        · rintro (he | ⟨c, hc, he⟩)
          · exact ⟨r, hr, he⟩
          · exact ⟨c, ((mG c).1 hc).2, he⟩
      have hb : (fun u v => (u, v) ∈ border F) = Glued (fun u v => (u, v) ∈ border G) (Al A (ρ r)) := by
        funext u v
        unfold Glued
        beta_reduce
        rw [mem_border, mem_border, mem_border, hall, hall, ← hRe, ← hRe, eq_iff_iff]
        have h1 := hrG (u, v)
        have h2 := hanti r hrc (u, v)
        have h3 := hrG (v, u)
        change _ → (v, u) ∉ _ at h2
        change _ ∧ ¬ ((v, u) ∈ _ ∨ (v, u) ∈ _) ↔ (_ ∧ (v, u) ∉ _) ∧ _ ∨ _ ∧ ¬ (_ ∧ (u, v) ∉ _)
        tauto
      have key1 : ∀ a b, Al A (ρ s) a b → Al A (ρ r) b a → (a, b) ∈ border G := by
        intro a b h1 h2
        rw [mem_border]
        exact ⟨List.mem_flatMap.2 ⟨s, hsG, (hSe a b).2 h1⟩, hrG _ ((hRe b a).2 h2)⟩
      have key2 : ∀ a b, (a, b) ∈ border G → (OnBoundary (ρ r) a ∨ OnBoundary (ρ r) b) → Al A (ρ s) a b := by
        intro a b h1 h2
        obtain ⟨c, hc, he⟩ := List.mem_flatMap.1 (mem_border.1 h1).1
        have hal := ((hρ c (hGsub c hc)).2 a b).1 he
        have : c = s := by
          rcases h2 with h2 | h2
          · exact honly c ((mG c).1 hc).2 ((mG c).1 hc).1 a h2 hal.left
          · exact honly c ((mG c).1 hc).2 ((mG c).1 hc).1 b h2 hal.right
        exact this ▸ hal
      have hcon : ∀ x y, Stretch A (ρ r) (ρ s) x y → (∀ p, OnBoundary (ρ r) p ∧ OnBoundary (ρ s) p ↔ OnSeg (x, y) p) →
          CellMerger.Contact (fun u v => (u, v) ∈ border G) (Al A (ρ r)) x y := by
        intro x y hS hK
        refine ⟨hS.ne, ?_, ?_, ?_, ?_, ?_, ?_⟩
        · obtain ⟨w, h1, h2⟩ := hS.up x hS.vx (onSeg_left _) hS.ne
          exact ⟨w, h1, key1 _ _ h2 h1⟩
        · obtain ⟨w, h1, h2⟩ := hS.down y hS.vy (onSeg_right _) hS.ne.symm
          exact ⟨w, h1, key1 _ _ h2 h1⟩
        · exact fun u h1 h2 => hS.first u ⟨h1, key2 _ _ h2 (Or.inl h1.right)⟩
        · exact fun v h1 h2 => hS.last v ⟨h1, key2 _ _ h2 (Or.inr h1.left)⟩
        · rintro u v ⟨a, ha⟩ h1 hux
          have : OnBoundary (ρ s) u := by
            rcases ha with ha | ha
            · exact (key2 _ _ ha (Or.inr h1.left)).right
            · exact (key2 _ _ ha (Or.inl h1.left)).left
          obtain ⟨w, h2, h3⟩ := hS.down u ⟨v, h1.mem⟩ ((hK u).1 ⟨h1.left, this⟩) hux
          exact ⟨w, h2, key1 _ _ h3 h2⟩
        · rintro u v ⟨a, ha⟩ h1 hvy
          have : OnBoundary (ρ s) v := by
            rcases ha with ha | ha
            · exact (key2 _ _ ha (Or.inr h1.right)).right
            · exact (key2 _ _ ha (Or.inl h1.right)).left
          obtain ⟨w, h2, h3⟩ := hS.up v ⟨u, hR.built.planar.rev _ h1.mem⟩ ((hK v).1 ⟨h1.right, this⟩) hvy
          exact ⟨w, h2, key1 _ _ h3 h2⟩
      obtain ⟨x, y, hcont⟩ : ∃ x y, CellMerger.Contact (fun u v => (u, v) ∈ border G) (Al A (ρ r)) x y := by
        rcases hT.seam (ρ r) hRL (ρ s) hSL hneRS with h | ⟨x, y, hxy, hK⟩
        · obtain ⟨p', q', hpq, hp', hq'⟩ := hmeet r hrc s hsc hadj
          exact absurd (h p' q' hp' hq') hpq
        · rcases stretch hR hRL hSL hneRS (k := (x, y)) hxy hK with h | h
          · exact ⟨x, y, hcon x y h hK⟩
          · exact ⟨y, x, hcon y x h fun p => (hK p).trans (onSeg_rev _ _).symm⟩
      refine ⟨by rw [hb]; exact hC.glue (al_ring hR.toLoopNet hRL) hcont, ?_⟩
      obtain ⟨v, hv, -⟩ := hcont.start
      obtain ⟨u, hu⟩ := al_prev hR.toLoopNet hRL hv
      have : (u, x) ∈ border F := (congrFun (congrFun hb u) x).mpr (Or.inr ⟨hu, hcont.first u hu⟩)
      exact List.ne_nil_of_mem this

/-- Selected cells along loops make discs. -/
theorem loops_discs (sel : Cell1 → Bool)
    (hsel : ∀ c ∈ A.cells, sel c = true → ∃ L, L ∈ Ls ∧ ∀ u v, (u, v) ∈ polyEdges c.vertices ↔ Al A L u v) :
    Discs ((A.cells.filter sel).map Cell1.vertices) := by
  have hsub : ∀ c ∈ (A.cells.filter sel).map Cell1.vertices, c ∈ A.cells.map Cell1.vertices := by
    intro c hc
    obtain ⟨d, hd, rfl⟩ := List.mem_map.1 hc
    exact List.mem_map_of_mem (List.mem_filter.1 hd).1
  have hex : ∀ c ∈ (A.cells.filter sel).map Cell1.vertices, ∃ L, L ∈ Ls ∧ ∀ u v, (u, v) ∈ polyEdges c ↔ Al A L u v := by
    intro c hc
    obtain ⟨d, hd, rfl⟩ := List.mem_map.1 hc
    obtain ⟨h1, h2⟩ := List.mem_filter.1 hd
    exact hsel d h1 h2
  classical
  have hρ : ∀ c ∈ (A.cells.filter sel).map Cell1.vertices,
      (if h : ∃ L, L ∈ Ls ∧ ∀ u v, (u, v) ∈ polyEdges c ↔ Al A L u v then h.choose else []) ∈ Ls ∧
      ∀ u v, (u, v) ∈ polyEdges c ↔ Al A (if h : ∃ L, L ∈ Ls ∧ ∀ u v, (u, v) ∈ polyEdges c ↔ Al A L u v then h.choose else []) u v := by
    intro c hc
    rw [dif_pos (hex c hc)]
    exact (hex c hc).choose_spec
  have hlist : ((A.cells.filter sel).map Cell1.vertices).Sublist (A.cells.map Cell1.vertices) := List.filter_sublist.map _
  refine ⟨fun c hc => (hR.full.tiling.ok c (hsub c hc)).ne, hlist.nodup hR.full.nodup, (allEdges_sublist hlist).nodup hR.built.nodup, ?_, ?_⟩
  · rintro c hc ⟨u, v, h1, h2⟩
    have := hρ c hc
    exact al_not_both hR.toLoopNet this.1 ((this.2 u v).1 h1) ((this.2 v u).1 h2)
  · intro F h1 h2 h3 h4
    exact group_ring hR hT hsub _ hρ F.length F rfl h1 h2 h3 h4

end

/-- The selected cells make discs. -/
theorem rings_discs {A : Arrangement} {Ls : List (List Pt)} (hR : ClearNet A Ls) (hT : Contacts Ls) (sel : Cell1 → Bool)
    (hsel : ∀ c ∈ A.cells, sel c = true → ∃ L ∈ Ls, windingNumber L c.point ≠ 0) :
    Discs ((A.cells.filter sel).map Cell1.vertices) ∧ ∀ c ∈ A.cells, sel c = true → shoelace c.vertices < 0 := by
  refine ⟨loops_discs (clear_ring hR) hT sel fun c hc h => ?_, fun c hc h => ?_⟩
  · obtain ⟨L, hL, hw⟩ := hsel c hc h
    exact ⟨L, hL, cell_iff hR hL hc hw⟩
  · obtain ⟨L, hL, hw⟩ := hsel c hc h
    exact cell_cw hR hL hc hw

end Ply.Arr
