import Verif.Proofs.Contract
import Verif.Proofs.RingForest

/-!
# The outlines of merged rings
-/

namespace Ply

open Arr Filter Topology
open Relation (ReflTransGen)

theorem meet_symm {L M : List Pt} (h : Meet L M) : Meet M L := by
  obtain ⟨p, h1, h2⟩ := h
  exact ⟨p, h2, h1⟩

theorem two_le_sum {α : Type} (f : α → ℤ) {x y : α} (hne : x ≠ y) (h1 : 1 ≤ f x) (h2 : 1 ≤ f y) (l : List α) (hx : x ∈ l)
    (hy : y ∈ l) (h0 : ∀ z ∈ l, 0 ≤ f z) : 2 ≤ (l.map f).sum := by
  induction l with
  | nil => cases hx
  | cons a l ih =>
    rw [List.map_cons, List.sum_cons]
    have tail : ∀ z ∈ l, f z ≤ (l.map f).sum := fun z hz => List.single_le_sum (fun k hk => by
      obtain ⟨b, hb, rfl⟩ := List.mem_map.1 hk
      exact h0 b (List.mem_cons_of_mem _ hb)) _ (List.mem_map_of_mem hz)
    have ha := h0 a List.mem_cons_self
    rcases List.mem_cons.1 hx with e1 | k1 <;> rcases List.mem_cons.1 hy with e2 | k2
    · exact absurd (e1.trans e2.symm) hne
    · rw [e1] at h1; linarith [tail y k2]
    · rw [e2] at h2; linarith [tail x k1]
    · linarith [ih k1 k2 fun z hz => h0 z (List.mem_cons_of_mem _ hz)]

/-- `v` is the outline of the rings `R` together. -/
structure Merges (v : List Pt) (R : List (List Pt)) : Prop where
  simple : SimpleRing v
  cw : shoelace v < 0
  some : R ≠ []
  joined : Joined Meet R
  sub : ∀ p, OnBoundary v p → ∃ L ∈ R, OnBoundary L p
  sup : ∀ L ∈ R, ∀ p, OnBoundary L p → (∀ M ∈ R, M ≠ L → ¬ OnBoundary M p) → OnBoundary v p

/-- The boundary of `v` is what is on one of the rings `R`, without stretches where two of them meet. -/
structure Blends (v : List Pt) (R : List (List Pt)) : Prop where
  simple : SimpleRing v
  some : R ≠ []
  joined : Joined Meet R
  sub : ∀ p, OnBoundary v p → ∃ L ∈ R, OnBoundary L p
  sup : ∀ L ∈ R, ∀ p, OnBoundary L p → (∀ M ∈ R, M ≠ L → ¬ OnBoundary M p) → OnBoundary v p

theorem Merges.blends {v : List Pt} {R : List (List Pt)} (h : Merges v R) : Blends v R := ⟨h.simple, h.some, h.joined, h.sub, h.sup⟩

theorem Merges.one {L : List Pt} (h1 : SimpleRing L) (h2 : shoelace L < 0) : Merges L [L] where
  simple := h1
  cw := h2
  some := by simp
  joined := by
    intro a ha b hb
    rw [List.mem_singleton.1 ha, List.mem_singleton.1 hb]
  sub := fun p hp => ⟨L, by simp, hp⟩
  sup := fun M hM p hp _ => List.mem_singleton.1 hM ▸ hp

section
variable {Ls : List (List Pt)} {xs : List (List Pt × List (List Pt))} (hnd : (xs.map Prod.snd).flatten.Nodup) (hsub : ∀ L ∈ (xs.map Prod.snd).flatten, L ∈ Ls)

include hnd in
theorem same_pair {x y : List Pt × List (List Pt)} (hx : x ∈ xs) (hy : y ∈ xs) {L : List Pt} (h1 : L ∈ x.2) (h2 : L ∈ y.2) : x = y := by
  by_contra hne
  have hp := (List.nodup_flatten.1 hnd).2
  rw [List.pairwise_map] at hp
  have : Std.Symm (fun x y : List Pt × List (List Pt) => List.Disjoint x.2 y.2) := ⟨fun _ _ h => List.disjoint_symm h⟩
  exact (hp.forall hx hy hne) h1 h2

include hnd hsub

theorem merged_common (hT : Contacts Ls) (hm : ∀ x ∈ xs, Blends x.1 x.2) {x y : List Pt × List (List Pt)} (hx : x ∈ xs) (hy : y ∈ xs) (hne : x ≠ y) :
    (∀ p, ¬ (OnBoundary x.1 p ∧ OnBoundary y.1 p)) ∨
    ∃ L ∈ Ls, ∃ M ∈ Ls, L ≠ M ∧ ∀ p, OnBoundary x.1 p ∧ OnBoundary y.1 p ↔ OnBoundary L p ∧ OnBoundary M p := by
  by_cases hc : ∀ p, ¬ (OnBoundary x.1 p ∧ OnBoundary y.1 p)
  · exact Or.inl hc
  right
  push Not at hc
  obtain ⟨p, hp1, hp2⟩ := hc
  obtain ⟨L, hL, hpL⟩ := (hm x hx).sub p hp1
  obtain ⟨M, hM, hpM⟩ := (hm y hy).sub p hp2
  have mem : ∀ z ∈ xs, ∀ K ∈ z.2, K ∈ (xs.map Prod.snd).flatten := fun z hz K hK =>
    List.mem_flatten.2 ⟨z.2, List.mem_map_of_mem hz, hK⟩
  have nd : ∀ z ∈ xs, z.2.Nodup := fun z hz => (List.nodup_flatten.1 hnd).1 z.2 (List.mem_map_of_mem hz)
  have dis : ∀ a ∈ x.2, ∀ b ∈ y.2, a ≠ b := fun a ha b hb e => hne (same_pair hnd hx hy ha (e ▸ hb))
  have once := Treelike.once (M := Meet) (fun _ _ => meet_symm) hT.forest _ x.2 y.2 rfl
    (List.nodup_append.2 ⟨nd x hx, nd y hy, dis⟩) (fun K hK => hsub K (by
      rcases List.mem_append.1 hK with h | h
      · exact mem x hx K h
      · exact mem y hy K h)) (hm x hx).joined (hm y hy).joined
  refine ⟨L, hsub L (mem x hx L hL), M, hsub M (mem y hy M hM), dis L hL M hM, fun q => ⟨?_, ?_⟩⟩
  · rintro ⟨h1, h2⟩
    obtain ⟨L', hL', hq1⟩ := (hm x hx).sub q h1
    obtain ⟨M', hM', hq2⟩ := (hm y hy).sub q h2
    obtain ⟨rfl, rfl⟩ := once L hL M hM L' hL' M' hM' ⟨p, hpL, hpM⟩ ⟨q, hq1, hq2⟩
    exact ⟨hq1, hq2⟩
  · rintro ⟨h1, h2⟩
    constructor
    · refine (hm x hx).sup L hL q h1 fun K hK hKL hq => hKL ?_
      exact (once L hL M hM K hK M hM ⟨p, hpL, hpM⟩ ⟨q, hq, h2⟩).1.symm
    · refine (hm y hy).sup M hM q h2 fun K hK hKM hq => hKM ?_
      exact (once L hL M hM L hL K hK ⟨p, hpL, hpM⟩ ⟨q, h1, hq⟩).2.symm

/-- The outlines of merged rings touch along straight stretches and make no closed chain. -/
theorem merged_touching (hT : Touching Ls) (hm : ∀ x ∈ xs, Merges x.1 x.2) (hap : ∀ x ∈ xs, ∀ y ∈ xs, ∀ p, InPoly x.1 p → InPoly y.1 p → x = y) : Touching (xs.map Prod.fst) where
  clear := by
    refine ⟨?_, ?_, ?_⟩
    · intro L hL
      obtain ⟨x, hx, rfl⟩ := List.mem_map.1 hL
      exact (hm x hx).simple
    · intro L hL
      obtain ⟨x, hx, rfl⟩ := List.mem_map.1 hL
      exact (hm x hx).cw
    · intro L hL M hM p h1 h2
      obtain ⟨x, hx, rfl⟩ := List.mem_map.1 hL
      obtain ⟨y, hy, rfl⟩ := List.mem_map.1 hM
      rw [hap x hx y hy p h1 h2]
  seam := by
    intro L hL M hM hne
    obtain ⟨x, hx, rfl⟩ := List.mem_map.1 hL
    obtain ⟨y, hy, rfl⟩ := List.mem_map.1 hM
    rcases merged_common hnd hsub hT.contacts (fun x hx => (hm x hx).blends) hx hy (fun e => hne (by rw [e])) with h | ⟨L, hL, M, hM, h1, h2⟩
    · exact Or.inl fun p _ hp _ => absurd hp (h p)
    · rcases hT.seam L hL M hM h1 with h | ⟨a, b, hab, h⟩
      · exact Or.inl fun p q hp hq => h p q ((h2 p).1 hp) ((h2 q).1 hq)
      · exact Or.inr ⟨a, b, hab, fun p => (h2 p).trans (h p)⟩
  forest := by
    intro F hF hFn hFs
    classical
    set ys := xs.filter fun x => decide (x.1 ∈ F) with hys
    have mys : ∀ x, x ∈ ys ↔ x ∈ xs ∧ x.1 ∈ F := by
      intro x; rw [hys, List.mem_filter, decide_eq_true_eq]
    have hsl : (ys.map Prod.snd).flatten.Sublist (xs.map Prod.snd).flatten := (List.filter_sublist.map _).flatten
    have hpick : ∀ L ∈ F, ∃ x ∈ ys, x.1 = L := by
      intro L hL
      obtain ⟨x, hx, rfl⟩ := List.mem_map.1 (hFs L hL)
      exact ⟨x, (mys x).2 ⟨hx, hL⟩, rfl⟩
    obtain ⟨G, hG, key⟩ := Treelike.contract (M := Meet) (fun _ _ => meet_symm) hT.forest _ (ys.map Prod.snd) rfl (by
        obtain ⟨L, hL⟩ := List.exists_mem_of_ne_nil F hF
        obtain ⟨x, hx, -⟩ := hpick L hL
        exact List.ne_nil_of_mem (List.mem_map_of_mem hx)) (hsl.nodup hnd) (by
        intro G hG
        obtain ⟨x, hx, rfl⟩ := List.mem_map.1 hG
        exact (hm x ((mys x).1 hx).1).some) (by
        intro G hG
        obtain ⟨x, hx, rfl⟩ := List.mem_map.1 hG
        exact (hm x ((mys x).1 hx).1).joined) (fun L hL => hsub L (hsl.subset hL))
    obtain ⟨x, hx, rfl⟩ := List.mem_map.1 hG
    obtain ⟨hx1, hx2⟩ := (mys x).1 hx
    have same : ∀ y ∈ ys, ∀ z ∈ ys, y.2 = z.2 → y = z := by
      intro y hy z hz h
      obtain ⟨L, hL⟩ := List.exists_mem_of_ne_nil y.2 (hm y ((mys y).1 hy).1).some
      exact same_pair hnd ((mys y).1 hy).1 ((mys z).1 hz).1 hL (h ▸ hL)
    have touch : ∀ y ∈ ys, Meet x.1 y.1 → Related Meet x.2 y.2 := by
      rintro y hy ⟨p, h1, h2⟩
      obtain ⟨L, hL, hpL⟩ := (hm x hx1).sub p h1
      obtain ⟨M, hM, hpM⟩ := (hm y ((mys y).1 hy).1).sub p h2
      exact ⟨L, hL, M, hM, p, hpL, hpM⟩
    refine ⟨x.1, hx2, ?_⟩
    intro M hM N hN n1 n2 m1 m2
    obtain ⟨y, hy, rfl⟩ := hpick M hM
    obtain ⟨z, hz, rfl⟩ := hpick N hN
    have := key y.2 (List.mem_map_of_mem hy) z.2 (List.mem_map_of_mem hz) (fun e => n1 (by rw [same y hy x hx e]))
      (fun e => n2 (by rw [same z hz x hx e])) (touch y hy m1) (touch z hz m2)
    rw [same y hy z hz this]

end

namespace Arr

open CellMerger

section
variable {A : Arrangement} {Ls : List (List Pt)} (hR : RingNet A Ls)
include hR

omit hR in
theorem al_onBoundary {L : List Pt} {u v p : Pt} (h : Al A L u v) (hp : OnSeg (u, v) p) : OnBoundary L p := by
  obtain ⟨_, e, he, a, b, a0, ab, b1, rfl, rfl⟩ := h
  obtain ⟨t, t0, t1, rfl⟩ := hp
  refine ⟨e, he, a + t * (b - a), by nlinarith, by nlinarith, ?_⟩
  rw [along_along]

/-- Each point of the ring is on a half-edge along it. -/
theorem al_at {L : List Pt} (hL : L ∈ Ls) {p : Pt} (hp : OnBoundary L p) : ∃ u v, Al A L u v ∧ OnSeg (u, v) p := by
  have hS := hR.simple L hL
  obtain ⟨e, he, s, s0, s1, rfl⟩ := hp
  have hd : dir e ≠ 0 := by
    intro hc
    apply hS.pos he
    have h1 := congrArg Prod.fst hc
    have h2 := congrArg Prod.snd hc
    simp only [dir, Prod.fst_zero, Prod.snd_zero] at h1 h2
    exact Prod.ext (by linarith) (by linarith)
  have key : ∀ σ : ℚ, σ ≠ 0 → (∀ᶠ ε in 𝓝[>] (0 : ℚ), 0 ≤ s + ε * σ ∧ s + ε * σ ≤ 1) → ∃ u v, Al A L u v ∧ OnSeg (u, v) (along e s) := by
    intro σ hσ hs
    obtain ⟨ε, e0, h1, h2, h3⟩ := small_exists ((near_point A.net.halfEdges (along e s) (σ • dir e) (smul_ne_zero hσ hd)).and hs)
    have hq : along e s + ε • (σ • dir e) = along e (s + ε * σ) := by
      rw [along_eq, along_eq, add_smul, mul_smul, add_assoc]
    rw [hq] at h1
    obtain ⟨k, hk, hx⟩ := (hR.on (along e (s + ε * σ))).2 ⟨L, hL, e, he, _, h2, h3, rfl⟩
    obtain ⟨hpk, t, t0, t1, ht⟩ := h1 k hk hx
    rcases al_of_inner hR.toLoopNet hL hk t0 t1 (ht ▸ ⟨e, he, _, h2, h3, rfl⟩) with h | h
    · exact ⟨k.1, k.2, h, hpk⟩
    · exact ⟨k.2, k.1, h, (onSeg_rev _ _).2 hpk⟩
  rcases lt_or_eq_of_le s1 with h | h
  · refine key 1 one_ne_zero ?_
    filter_upwards [small_pos, small_lt (1 - s) (by linarith)] with ε h1 h2
    constructor <;> linarith
  · refine key (-1) (by norm_num) ?_
    filter_upwards [small_pos, small_lt 1 one_pos] with ε h1 h2
    constructor <;> linarith

/-- The border of a group of cells. -/
theorem group_blends {cs : List (List Pt)} {ρ : List Pt → List Pt}
    (hρ : ∀ c ∈ cs, ρ c ∈ Ls ∧ ∀ u v, (u, v) ∈ polyEdges c ↔ Al A (ρ c) u v) (hD : Discs cs)
    {v : List Pt} {F : List (List Pt)} (hFn : F.Nodup) (hF : F ≠ []) (hFs : ∀ c ∈ F, c ∈ cs) (hl : CellMerger.Linked F)
    (hv : (polyEdges v).Perm (border F)) : Blends v (F.map ρ) := by
  obtain ⟨hring, hne⟩ := hD.ring F hF hFn hFs hl
  have hP := hR.built.planar
  have hFE := edges_sub_nodup hD.nodup hFn hFs
  have mv : ∀ e, e ∈ polyEdges v ↔ e ∈ border F := fun e => hv.mem_iff
  have hal : ∀ e ∈ border F, ∃ c ∈ F, e ∈ polyEdges c ∧ Al A (ρ c) e.1 e.2 := by
    intro e he
    obtain ⟨c, hc, h⟩ := List.mem_flatMap.1 (mem_border.1 he).1
    exact ⟨c, hc, h, ((hρ c (hFs c hc)).2 e.1 e.2).1 h⟩
  have hH : ∀ e ∈ polyEdges v, e ∈ A.net.halfEdges := fun e he => by
    obtain ⟨c, -, -, h⟩ := hal e ((mv e).1 he)
    exact h.mem
  have hopp : ∀ e ∈ polyEdges v, (e.2, e.1) ∉ polyEdges v := by
    intro e he h
    exact (mem_border.1 ((mv _).1 he)).2 (mem_border.1 ((mv _).1 h)).1
  have hout : ∀ e ∈ polyEdges v, ∀ k ∈ polyEdges v, e.1 = k.1 → k = e := by
    intro e he k hk h
    refine Prod.ext h.symm (hring.out e.1 k.2 e.2 ?_ ((mv e).1 he))
    rw [h]; exact (mv k).1 hk
  have hinn : ∀ e ∈ polyEdges v, ∀ k ∈ polyEdges v, e.2 = k.2 → k = e := by
    intro e he k hk h
    refine Prod.ext (hring.inn k.1 e.1 e.2 ?_ ((mv e).1 he)) h.symm
    rw [h]; exact (mv k).1 hk
  have hvn : v ≠ [] := by
    rintro rfl
    exact hne hv.symm.eq_nil
  refine ⟨⟨?_, ?_, ?_⟩, by simpa using hF, ?_, ?_, ?_⟩
  · by_contra hlen
    match v, hvn with
    | [a], _ => exact hP.ne _ (hH (a, a) (by simp [polyEdges])) rfl
    | [a, b], _ => exact hopp (a, b) (by simp [polyEdges]) (by simp [polyEdges])
    | a :: b :: c :: l, _ => simp at hlen
  · rw [← polyEdges_map_fst v]
    refine List.Nodup.map_on (fun e he k hk h => (hout e he k hk h).symm) (hv.nodup_iff.2 ?_)
    unfold border
    exact hFE.filter _
  · intro e he k hk x h1 h2
    rcases hP.meet e (hH e he) k (hH k hk) x h1 h2 with (h | h) | ⟨h | h, h' | h'⟩
    · exact Or.inl h
    · rw [h] at hk
      exact absurd hk (hopp e he)
    · exact Or.inl (hout e he k hk (h.symm.trans h'))
    · exact Or.inr (Or.inl ⟨h, h'⟩)
    · exact Or.inr (Or.inr ⟨h, h'⟩)
    · exact Or.inl (hinn e he k hk (h.symm.trans h'))
  · intro a ha b hb
    obtain ⟨c, hc, rfl⟩ := List.mem_map.1 ha
    obtain ⟨d, hd, rfl⟩ := List.mem_map.1 hb
    have := hl c hc d hd
    refine this.lift ρ ?_
    rintro x y ⟨hx, hy, u, w, h1, h2⟩
    refine ⟨List.mem_map_of_mem hx, List.mem_map_of_mem hy, u, ?_, ?_⟩
    · exact (((hρ x (hFs x hx)).2 u w).1 h1).left
    · exact (((hρ y (hFs y hy)).2 w u).1 h2).right
  · rintro p ⟨e, he, hp⟩
    obtain ⟨c, hc, -, h⟩ := hal e ((mv e).1 he)
    exact ⟨ρ c, List.mem_map_of_mem hc, al_onBoundary h hp⟩
  · intro L hL p hp honly
    obtain ⟨c, hc, rfl⟩ := List.mem_map.1 hL
    obtain ⟨hcL, hce⟩ := hρ c (hFs c hc)
    obtain ⟨u, w, h, hpu⟩ := al_at hR hcL hp
    refine ⟨(u, w), (mv _).2 (mem_border.2 ⟨List.mem_flatMap.2 ⟨c, hc, (hce u w).2 h⟩, fun hopp' => ?_⟩), hpu⟩
    obtain ⟨d, hd, he⟩ := List.mem_flatMap.1 hopp'
    have hd' := ((hρ d (hFs d hd)).2 w u).1 he
    by_cases hdc : ρ d = ρ c
    · rw [hdc] at hd'
      exact al_not_both hR.toLoopNet hcL h hd'
    · exact honly (ρ d) (List.mem_map_of_mem hd) hdc (al_onBoundary hd' ((onSeg_rev (u, w) p).2 hpu))

/-- The outline of a group of cells. -/
theorem group_merges {cs : List (List Pt)} {ρ : List Pt → List Pt}
    (hρ : ∀ c ∈ cs, ρ c ∈ Ls ∧ ∀ u v, (u, v) ∈ polyEdges c ↔ Al A (ρ c) u v) (hcw : ∀ c ∈ cs, shoelace c < 0) (hD : Discs cs)
    {v : List Pt} {F : List (List Pt)} (hFn : F.Nodup) (hF : F ≠ []) (hFs : ∀ c ∈ F, c ∈ cs) (hl : CellMerger.Linked F)
    (hv : (polyEdges v).Perm (border F)) : Merges v (F.map ρ) := by
  have hb := group_blends hR hρ hD hFn hF hFs hl hv
  have hFE := edges_sub_nodup hD.nodup hFn hFs
  refine ⟨hb.simple, ?_, hb.some, hb.joined, hb.sub, hb.sup⟩
  rw [group_shoelace hFE hv]
  have key : ∀ l : List (List Pt), (∀ c ∈ l, shoelace c < 0) → (l.map shoelace).sum ≤ 0 := by
    intro l
    induction l with
    | nil => intro _; simp
    | cons a l ih =>
      intro h
      rw [List.map_cons, List.sum_cons]
      linarith [h a List.mem_cons_self, ih fun c hc => h c (List.mem_cons_of_mem _ hc)]
  cases F with
  | nil => exact absurd rfl hF
  | cons a l =>
    rw [List.map_cons, List.sum_cons]
    linarith [hcw a (hFs a List.mem_cons_self), key l fun c hc => hcw c (hFs c (List.mem_cons_of_mem _ hc))]

end

end Arr

end Ply
