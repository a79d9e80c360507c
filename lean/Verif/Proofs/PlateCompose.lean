import Verif.Proofs.PlateFuse

/-!
# Plates fused from fused plates
-/

namespace Ply

namespace Arr

open CellMerger
open Relation (ReflTransGen)

theorem joined_compose {α β : Type} {M : α → α → Prop} {N : β → β → Prop} {S : List α} (h : Joined M S) {look : α → List β}
    (hl : ∀ x ∈ S, Joined N (look x)) (hn : ∀ x ∈ S, ∀ y ∈ S, M x y → ∃ a ∈ look x, ∃ b ∈ look y, N a b) :
    Joined N (S.flatMap look) := by
  have lift : ∀ z ∈ S, ∀ a ∈ look z, ∀ b ∈ look z,
      ReflTransGen (fun x y => x ∈ S.flatMap look ∧ y ∈ S.flatMap look ∧ N x y) a b := fun z hz a ha b hb =>
    Relation.ReflTransGen.mono (fun u w h => by
      obtain ⟨h1, h2, h3⟩ := h
      exact ⟨List.mem_flatMap.2 ⟨z, hz, h1⟩, List.mem_flatMap.2 ⟨z, hz, h2⟩, h3⟩) a b (hl z hz a ha b hb)
  intro a ha b hb0
  obtain ⟨x, hx, ha⟩ := List.mem_flatMap.1 ha
  obtain ⟨y, hy, hb⟩ := List.mem_flatMap.1 hb0
  have hp := h x hx y hy
  clear hy hb0
  induction hp generalizing b with
  | refl => exact lift x hx a ha b hb
  | @tail c d _ h2 ih =>
    obtain ⟨hc, hd, hm⟩ := h2
    obtain ⟨L, hL, M', hM, hN⟩ := hn c hc d hd hm
    refine (ih L hL).trans (.trans (.single ⟨List.mem_flatMap.2 ⟨c, hc, hL⟩, List.mem_flatMap.2 ⟨d, hd, hM⟩, hN⟩) ?_)
    exact lift d hd M' hM b hb

theorem _root_.Ply.Blends.compose {v : List Pt} {S : List (List Pt)} {look : List Pt → List (List Pt)} (h : Blends v S)
    (hl : ∀ x ∈ S, Blends x (look x)) (dis : ∀ x ∈ S, ∀ y ∈ S, ∀ L ∈ look x, L ∈ look y → x = y) : Blends v (S.flatMap look) where
  simple := h.simple
  some := by
    obtain ⟨x, hx⟩ := List.exists_mem_of_ne_nil S h.some
    obtain ⟨L, hL⟩ := List.exists_mem_of_ne_nil _ (hl x hx).some
    exact List.ne_nil_of_mem (List.mem_flatMap.2 ⟨x, hx, hL⟩)
  joined := joined_compose h.joined (fun x hx => (hl x hx).joined) (by
    rintro x hx y hy ⟨p, p1, p2⟩
    obtain ⟨L, hL, q1⟩ := (hl x hx).sub p p1
    obtain ⟨M, hM, q2⟩ := (hl y hy).sub p p2
    exact ⟨L, hL, M, hM, p, q1, q2⟩)
  sub := fun p hp => by
    obtain ⟨x, hx, h1⟩ := h.sub p hp
    obtain ⟨L, hL, h2⟩ := (hl x hx).sub p h1
    exact ⟨L, List.mem_flatMap.2 ⟨x, hx, hL⟩, h2⟩
  sup := fun L hL p hp honly => by
    obtain ⟨x, hx, hL⟩ := List.mem_flatMap.1 hL
    refine h.sup x hx p ((hl x hx).sup L hL p hp fun M hM hne => honly M (List.mem_flatMap.2 ⟨x, hx, hM⟩) hne) ?_
    intro y hy hne hyp
    obtain ⟨M, hM, hMp⟩ := (hl y hy).sub p hyp
    refine honly M (List.mem_flatMap.2 ⟨y, hy, hM⟩) (fun e => hne ?_) hMp
    exact dis y hy x hx M hM (e ▸ hL)

theorem Fuses.perm {K K' : List (List Pt)} {𝒢 : List (List (List Pt))} (h : Fuses K 𝒢) (hp : K.Perm K') : Fuses K' 𝒢 where
  simple := fun v hv => h.simple v (hp.mem_iff.2 hv)
  nodup := hp.nodup_iff.1 h.nodup
  free := fun L hL M hM => h.free L (hp.mem_iff.2 hL) M (hp.mem_iff.2 hM)
  outer := fun L hL M hM => h.outer L (hp.mem_iff.2 hL) M (hp.mem_iff.2 hM)
  parts := by
    obtain ⟨xs, h1, h2⟩ := h.parts
    exact ⟨xs, h1.trans hp, h2⟩
  some := h.some
  joined := h.joined
  winds := fun p h1 h2 => by
    rw [← windings_perm hp, h.winds p (fun L hL => h1 L (hp.mem_iff.1 hL)) h2]

theorem Fuses.right {K : List (List Pt)} {𝒢 ℋ : List (List (List Pt))} (h : Fuses K 𝒢) (hp : 𝒢.Perm ℋ) : Fuses K ℋ where
  simple := h.simple
  nodup := h.nodup
  free := h.free
  outer := h.outer
  parts := by
    obtain ⟨xs, h1, h2, h3⟩ := h.parts
    exact ⟨xs, h1, h2.trans hp.flatten, h3⟩
  some := fun e => h.some (by rw [e] at hp; exact hp.eq_nil)
  joined := fun a ha b hb => Relation.ReflTransGen.mono (fun u v k => ⟨hp.mem_iff.1 k.1, hp.mem_iff.1 k.2.1, k.2.2⟩) a b
    (h.joined a (hp.mem_iff.2 ha) b (hp.mem_iff.2 hb))
  winds := fun p h1 h2 => by
    rw [h.winds p h1 fun L hL => h2 L (hp.flatten.mem_iff.1 hL), windings_perm hp.flatten]

/-- A plate is fused from itself. -/
theorem PlateTree.self {Gs : List (List (List Pt))} (h : PlateTree Gs) {G : List (List Pt)} (hG : G ∈ Gs) : Fuses G [G] where
  simple := h.simple G hG
  nodup := h.nodup G hG
  free := h.free G hG
  outer := h.outer G hG
  parts := by
    refine ⟨G.map fun L => (L, [L]), ?_, ?_, ?_⟩
    · rw [List.map_map]
      exact List.Perm.of_eq (List.map_id G)
    · rw [List.map_map, List.flatten_singleton]
      refine List.Perm.of_eq ?_
      rw [← List.flatMap_def]
      exact List.flatMap_singleton' G
    · intro x hx
      obtain ⟨L, hL, rfl⟩ := List.mem_map.1 hx
      refine ⟨h.simple G hG L hL, by simp, ?_, fun p hp => ⟨L, by simp, hp⟩, fun M hM p hp _ => List.mem_singleton.1 hM ▸ hp⟩
      intro a ha b hb
      rw [List.mem_singleton.1 ha, List.mem_singleton.1 hb]
  some := by simp
  joined := by
    intro a ha b hb
    rw [List.mem_singleton.1 ha, List.mem_singleton.1 hb]
  winds := fun p _ _ => by rw [List.flatten_singleton]

theorem Fuses.compose {K : List (List Pt)} {S : List (List (List Pt))} (h : Fuses K S) (hS : S.flatten.Nodup)
    {look : List (List Pt) → List (List (List Pt))} (hl : ∀ x ∈ S, Fuses x (look x)) (hd : (S.flatMap look).flatten.Nodup) :
    Fuses K (S.flatMap look) := by
  classical
  choose! zs z1 z2 z3 using fun x hx => (hl x hx).parts
  set Z := S.flatMap zs with hZ
  have hZ1 : (Z.map Prod.fst).Perm S.flatten := by
    rw [hZ, List.map_flatMap]
    clear_value Z
    clear hS hd hZ h
    induction S with
    | nil => simp
    | cons G S ih =>
      rw [List.flatMap_cons, List.flatten_cons]
      exact (z1 G List.mem_cons_self).append (ih (fun x hx => hl x (List.mem_cons_of_mem _ hx))
        (fun x hx => z1 x (List.mem_cons_of_mem _ hx)) (fun x hx => z2 x (List.mem_cons_of_mem _ hx))
        (fun x hx => z3 x (List.mem_cons_of_mem _ hx)))
  have hZ2 : (Z.map Prod.snd).flatten.Perm (S.flatMap look).flatten := by
    rw [hZ, List.map_flatMap]
    clear_value Z
    clear hS hd hZ h hZ1
    induction S with
    | nil => simp
    | cons G S ih =>
      rw [List.flatMap_cons, List.flatMap_cons, List.flatten_append, List.flatten_append]
      exact (z2 G List.mem_cons_self).append (ih (fun x hx => hl x (List.mem_cons_of_mem _ hx))
        (fun x hx => z1 x (List.mem_cons_of_mem _ hx)) (fun x hx => z2 x (List.mem_cons_of_mem _ hx))
        (fun x hx => z3 x (List.mem_cons_of_mem _ hx)))
  have hZ3 : ∀ z ∈ Z, Blends z.1 z.2 := by
    intro z hz
    obtain ⟨x, hx, hz⟩ := List.mem_flatMap.1 hz
    exact z3 x hx z hz
  have hn1 : (Z.map Prod.fst).Nodup := hZ1.nodup_iff.2 hS
  have hn2 : (Z.map Prod.snd).flatten.Nodup := hZ2.nodup_iff.2 hd
  have hlk : ∀ L ∈ S.flatten, ∃ R, (L, R) ∈ Z := by
    intro L hL
    obtain ⟨z, hz, rfl⟩ := List.mem_map.1 (hZ1.mem_iff.2 hL)
    exact ⟨z.2, hz⟩
  choose! lk hlk using hlk
  have hlk' : ∀ z ∈ Z, lk z.1 = z.2 := by
    intro z hz
    have h1 := hlk z.1 (hZ1.mem_iff.1 (List.mem_map_of_mem hz))
    have := List.inj_on_of_nodup_map hn1 h1 hz rfl
    exact congrArg Prod.snd this
  obtain ⟨xs, x1, x2, x3⟩ := h.parts
  have hxs : ∀ x ∈ xs, ∀ L ∈ x.2, L ∈ S.flatten := fun x hx L hL =>
    x2.mem_iff.1 (List.mem_flatten.2 ⟨x.2, List.mem_map_of_mem hx, hL⟩)
  refine ⟨h.simple, h.nodup, h.free, h.outer, ⟨xs.map fun x => (x.1, x.2.flatMap lk), ?_, ?_, ?_⟩, ?_, ?_, ?_⟩
  · rw [List.map_map]; exact x1
  · have e1 : ((xs.map fun x => (x.1, x.2.flatMap lk)).map Prod.snd).flatten = ((xs.map Prod.snd).flatten).flatMap lk := by
      rw [List.map_map, ← List.flatMap_def, ← List.flatMap_def, List.flatMap_assoc]
      rfl
    have e2 : (Z.map Prod.fst).flatMap lk = (Z.map Prod.snd).flatten := by
      rw [List.flatMap_map, List.flatMap_def]
      exact congrArg List.flatten (List.map_congr_left fun x hx => hlk' x hx)
    rw [e1]
    refine (x2.flatMap_right lk).trans ((hZ1.symm.flatMap_right lk).trans ?_)
    rw [e2]
    exact hZ2
  · intro y hy
    obtain ⟨x, hx, rfl⟩ := List.mem_map.1 hy
    refine (x3 x hx).compose (fun L hL => hZ3 _ (hlk L (hxs x hx L hL))) fun L hL M hM R h1 h2 => ?_
    exact congrArg Prod.fst (same_part hn2 (hlk L (hxs x hx L hL)) (hlk M (hxs x hx M hM)) h1 h2)
  · obtain ⟨x, hx⟩ := List.exists_mem_of_ne_nil S h.some
    obtain ⟨G, hG⟩ := List.exists_mem_of_ne_nil _ (hl x hx).some
    exact List.ne_nil_of_mem (List.mem_flatMap.2 ⟨x, hx, hG⟩)
  · refine joined_compose h.joined (fun x hx => (hl x hx).joined) ?_
    have key : ∀ x ∈ S, ∀ L ∈ x, ∀ p, OnBoundary L p → ∃ G ∈ look x, ∃ M ∈ G, OnBoundary M p := by
      intro x hx L hL p hp
      obtain ⟨z, hz, rfl⟩ := List.mem_map.1 ((z1 x hx).mem_iff.2 hL)
      obtain ⟨M, hM, q⟩ := (z3 x hx z hz).sub p hp
      obtain ⟨G, hG, hMG⟩ := List.mem_flatten.1 ((z2 x hx).mem_iff.1 (List.mem_flatten.2 ⟨z.2, List.mem_map_of_mem hz, hM⟩))
      exact ⟨G, hG, M, hMG, q⟩
    rintro x hx y hy ⟨L, hL, M, hM, p, p1, p2⟩
    obtain ⟨G, hG, L', hL', q1⟩ := key x hx L hL p p1
    obtain ⟨H, hH, M', hM', q2⟩ := key y hy M hM p p2
    exact ⟨G, hG, H, hH, L', hL', M', hM', p, q1, q2⟩
  · intro p h1 h2
    obtain ⟨q, k1, k2⟩ := loops_off (G := K ++ (S.flatMap look).flatten) (H := S.flatten) (by
      intro L hL
      obtain ⟨x, hx, hL⟩ := List.mem_flatten.1 hL
      exact (hl x hx).simple L hL) (p := p) (by
      intro L hL
      rcases List.mem_append.1 hL with hL | hL
      · exact h1 L hL
      · exact h2 L hL)
    have kq := k2 q (onSeg_right _)
    rw [windings_const (q := q) fun x hx L hL => k2 x hx L (List.mem_append_left _ hL),
      windings_const (G := (S.flatMap look).flatten) (q := q) fun x hx L hL => k2 x hx L (List.mem_append_right _ hL),
      h.winds q (fun L hL => kq L (List.mem_append_left _ hL)) k1]
    have kq2 : ∀ x ∈ S, windings x q = windings (look x).flatten q := fun x hx =>
      (hl x hx).winds q (fun L hL => k1 L (mem_flat hx hL)) fun L hL => kq L (List.mem_append_right _ (by
        obtain ⟨G, hG, hL⟩ := List.mem_flatten.1 hL
        exact List.mem_flatten.2 ⟨G, List.mem_flatMap.2 ⟨x, hx, hG⟩, hL⟩))
    clear * - kq2
    induction S with
    | nil => rfl
    | cons x S ih =>
      rw [List.flatten_cons, List.flatMap_cons, List.flatten_append, windings_append, windings_append, kq2 x List.mem_cons_self,
        ih fun y hy => kq2 y (List.mem_cons_of_mem _ hy)]

end Arr

end Ply
