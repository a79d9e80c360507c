import Verif.Proofs.RingArea
import Verif.Props.Fine
import Verif.Spec.Shape

/-! # Geoms made of simple rings -/

namespace Ply

open Arr

/-! ### Sides seen from an edge -/

theorem sees_right {H : List Seg} {L : List Pt} (ho : Outline L) (hL : ∀ e ∈ polyEdges L, e ∈ H) {e : Seg}
    (he : e ∈ polyEdges L) {p : Pt} (hp : Sees H e p) : windingNumber L p = -1 := by
  obtain ⟨t, v, t0, t1, hv, rfl, hτ⟩ := hp
  obtain ⟨ε, e0, hw, e1⟩ := small_exists ((ho.sides.right e he t t0 t1 v hv).and (small_lt 1 one_pos))
  rw [(same_near hτ e0 e1.le).winding hL, hw]

theorem sees_left {H : List Seg} {L : List Pt} (ho : Outline L) (hL : ∀ e ∈ polyEdges L, e ∈ H) {e : Seg}
    (he : e ∈ polyEdges L) {p : Pt} (hp : Sees H (e.2, e.1) p) : windingNumber L p = 0 := by
  obtain ⟨t, v, t0, t1, hv, rfl, hτ⟩ := hp
  have hv' : 0 < cross (dir e) v := by
    have : dir e = -dir (e.2, e.1) := by unfold dir; simp
    rw [this, cross_neg_left]; linarith
  obtain ⟨ε, e0, hw, e1⟩ := small_exists ((ho.sides.left e he (1 - t) (by linarith) (by linarith) v hv').and
    (small_lt 1 one_pos))
  rw [(same_near hτ e0 e1.le).winding hL, along_rev, hw]

/-- A loop that does not run along an edge winds the same around the points on both sides of it. -/
theorem sees_pass {H : List Seg} (hP : Planar H) {L : List Pt} (hL : ∀ e ∈ polyEdges L, e ∈ H) {e : Seg} (he : e ∈ H)
    (h1 : e ∉ polyEdges L) (h2 : (e.2, e.1) ∉ polyEdges L) {p q : Pt} (hp : Sees H e p) (hq : Sees H (e.2, e.1) q) :
    windingNumber L p = windingNumber L q := by
  obtain ⟨l, r, hlr⟩ := across_exists hP he
  rw [(sees_same hP he hp hlr.sees).winding hL, (sees_same hP (hP.rev e he) hq hlr.rev.sees).winding hL]
  obtain ⟨⟨t, s, t0, t1, s0, s1, hx⟩, a, c, o⟩ := hlr
  have := winding_jump L l r e t0 t1 hx a c fun j hj => o j (hL j hj)
  rw [List.count_eq_zero_of_not_mem h1, List.count_eq_zero_of_not_mem h2] at this
  simp at this
  linarith

/-! ### Sums of indicators -/

open Classical in
theorem sum_excl {α : Type*} (l : List α) (P : α → Prop) (h : l.Pairwise fun a b => ¬ (P a ∧ P b)) :
    (l.map fun a => if P a then (1 : ℤ) else 0).sum = if ∃ a ∈ l, P a then 1 else 0 := by
  induction l with
  | nil => simp
  | cons a l ih =>
    rw [List.pairwise_cons] at h
    rw [List.map_cons, List.sum_cons, ih h.2]
    by_cases ha : P a
    · rw [if_pos ha, if_neg, if_pos ⟨a, List.mem_cons_self, ha⟩, add_zero]
      rintro ⟨b, hb, hb'⟩
      exact h.1 b hb ⟨ha, hb'⟩
    · rw [if_neg ha, zero_add]
      congr 1
      simp [ha]

theorem sum_neg' {α : Type*} (l : List α) (f : α → ℤ) : -(l.map f).sum = (l.map fun a => -f a).sum := by
  induction l with
  | nil => rfl
  | cons a l ih => rw [List.map_cons, List.sum_cons, List.map_cons, List.sum_cons, ← ih]; ring

/-! ### Geoms of clockwise simple rings -/

/-- A valid shape all of whose rings are clockwise. -/
structure Geom2D.Ringed (g : Geom2D) : Prop where
  outer : ∀ s ∈ g, SimpleRing s.outer ∧ shoelace s.outer < 0
  holes : ∀ s ∈ g, ∀ h ∈ s.holes, SimpleRing h ∧ shoelace h < 0
  within : ∀ s ∈ g, ∀ h ∈ s.holes, ∀ p, InPoly h p → InPoly s.outer p
  apart : ∀ s ∈ g, s.holes.Pairwise fun h k => ∀ p, ¬ (InPoly h p ∧ InPoly k p)
  disj : g.Pairwise fun s t => ∀ p, ¬ (InRegion s.outer s.holes p ∧ InRegion t.outer t.holes p)

namespace Geom2D.Ringed

variable {g : Geom2D} (hg : g.Ringed)
include hg

theorem outlined : g.Outlined := fun s hs =>
  ⟨(hg.outer s hs).1.outline (hg.outer s hs).2, fun h hh => (hg.holes s hs h hh).1.outline (hg.holes s hs h hh).2⟩

theorem made : g.WellMade := fun s hs => (SPWH.mk'_iff _ _ _).2 ⟨rfl, fun _ he => (hg.outer s hs).1.pos he,
  (hg.outer s hs).2, fun h hh => ⟨(hg.holes s hs h hh).2, fun _ he => (hg.holes s hs h hh).1.pos he⟩⟩

open Classical in
omit hg in
theorem outline_ind {L : List Pt} (hL : L ≠ []) (ho : Outline L) {p : Pt} (hp : ¬ OnBoundary L p) :
    windingNumber L p = -(if InPoly L p then 1 else 0) := by
  rcases ho.sides.winding hL hp with h | h
  · rw [if_neg fun hc => hc.2 h, h]; rfl
  · rw [if_pos ⟨hp, by rw [h]; decide⟩, h]

open Classical in
theorem cover {s : SPWH} (hs : s ∈ g) {p : Pt} (h0 : ¬ OnBoundary s.outer p) (h1 : ∀ h ∈ s.holes, ¬ OnBoundary h p) :
    (s.holes.map fun h => windingNumber h p).sum - windingNumber s.outer p =
      if InRegion s.outer s.holes p then 1 else 0 := by
  have e1 : (s.holes.map fun h => windingNumber h p).sum = -(s.holes.map fun h => if InPoly h p then (1 : ℤ) else 0).sum := by
    rw [sum_neg']
    congr 1
    refine List.map_congr_left fun h hh => ?_
    exact outline_ind (hg.holes s hs h hh).1.ne_nil ((hg.outlined s hs).2 h hh) (h1 h hh)
  rw [e1, sum_excl _ _ ((hg.apart s hs).imp fun h => h p), outline_ind (hg.outer s hs).1.ne_nil (hg.outlined s hs).1 h0]
  have out : ∀ h ∈ s.holes, (OutPoly h p ↔ ¬ InPoly h p) := fun h hh => by
    unfold OutPoly InPoly
    have := h1 h hh
    tauto
  by_cases a : ∃ h ∈ s.holes, InPoly h p
  · obtain ⟨h, hh, hp⟩ := a
    rw [if_pos ⟨h, hh, hp⟩, if_pos (hg.within s hs h hh p hp), if_neg fun hc => (out h hh).1 (hc.2 h hh) hp]
    rfl
  · rw [if_neg a]
    push Not at a
    by_cases b : InPoly s.outer p
    · rw [if_pos b, if_pos ⟨b, fun h hh => (out h hh).2 (a h hh)⟩]; rfl
    · rw [if_neg b, if_neg fun hc => b hc.1]; rfl

theorem proper : g.Proper := by
  classical
  refine ⟨hg.made, fun p hp => ?_⟩
  have key : g.windSum p = (g.map fun s => if InRegion s.outer s.holes p then (1 : ℤ) else 0).sum := by
    unfold Geom2D.windSum Geom2D.signed
    congr 1
    refine List.map_congr_left fun s hs => ?_
    exact hg.cover hs (fun hc => hp ⟨s, hs, Or.inl hc⟩) fun h hh hc => hp ⟨s, hs, Or.inr ⟨h, hh, hc⟩⟩
  rw [key, sum_excl _ _ (hg.disj.imp fun h => h p)]
  simp only [locate_one hg.made]

omit hg in
/-- Different rings of the geom meet only where both have a corner. -/
def _root_.Ply.Geom2D.Noded (g : Geom2D) : Prop :=
  (g.flatMap fun s => s.outer :: s.holes).Pairwise fun L M => ∀ e ∈ polyEdges L, ∀ k ∈ polyEdges M, ∀ x,
    OnSeg e x → OnSeg k x → (x = e.1 ∨ x = e.2) ∧ (x = k.1 ∨ x = k.2)

variable (hn : g.Noded)
include hn

theorem crisp : g.Crisp := by
  set R : List (List Pt) := g.flatMap fun s => s.outer :: s.holes with hR
  have hsimple : ∀ L ∈ R, SimpleRing L := by
    intro L hL
    obtain ⟨s, hs, hL⟩ := List.mem_flatMap.1 hL
    rcases List.mem_cons.1 hL with rfl | hL
    · exact (hg.outer s hs).1
    · exact (hg.holes s hs L hL).1
  have : Std.Symm fun L M : List Pt => ∀ e ∈ polyEdges L, ∀ k ∈ polyEdges M, ∀ x,
    OnSeg e x → OnSeg k x → (x = e.1 ∨ x = e.2) ∧ (x = k.1 ∨ x = k.2) := ⟨fun L M h e he k hk x h1 h2 =>
      (h k hk e he x h2 h1).symm⟩
  have hmeet : ∀ L ∈ R, ∀ M ∈ R, L ≠ M → ∀ e ∈ polyEdges L, ∀ k ∈ polyEdges M, ∀ x,
    OnSeg e x → OnSeg k x → (x = e.1 ∨ x = e.2) ∧ (x = k.1 ∨ x = k.2) := fun L hL M hM h =>
      List.Pairwise.forall hn hL hM h
  have hnd : R.Nodup := by
    refine List.Pairwise.imp_of_mem ?_ hn
    rintro L M hL hM h rfl
    obtain ⟨v, hv⟩ := List.exists_mem_of_ne_nil L (hsimple L hL).ne_nil
    obtain ⟨e, he, -⟩ := polyEdges_fst hv
    obtain ⟨n1, n2⟩ := along_ne ((hsimple L hL).pos he) (s := 1 / 2) (by norm_num) (by norm_num)
    have := (h e he e he _ ⟨1 / 2, by norm_num, by norm_num, rfl⟩ ⟨1 / 2, by norm_num, by norm_num, rfl⟩).1
    tauto
  set H : List Seg := R.flatMap bothWays with hH
  have hsub : ∀ L ∈ R, ∀ e ∈ polyEdges L, e ∈ H := fun L hL e he =>
    List.mem_flatMap.2 ⟨L, hL, mem_bothWays.2 (Or.inl he)⟩
  have hP : Planar H := by
    refine ⟨fun e he => ?_, fun e he => ?_, fun e he k hk x h1 h2 => ?_⟩
    · obtain ⟨L, hL, he⟩ := List.mem_flatMap.1 he
      exact List.mem_flatMap.2 ⟨L, hL, mem_bothWays.2 (mem_bothWays.1 he).symm⟩
    · obtain ⟨L, hL, he⟩ := List.mem_flatMap.1 he
      exact (planar_of (fun e he => (hsimple L hL).pos he) (hsimple L hL).inner).ne e he
    · obtain ⟨L, hL, he⟩ := List.mem_flatMap.1 he
      obtain ⟨M, hM, hk⟩ := List.mem_flatMap.1 hk
      by_cases hLM : L = M
      · subst hLM
        exact (planar_of (fun e he => (hsimple L hL).pos he) (hsimple L hL).inner).meet e he k hk x h1 h2
      · refine Or.inr ?_
        have hm := hmeet L hL M hM hLM
        rcases mem_bothWays.1 he with he | he <;> rcases mem_bothWays.1 hk with hk | hk
        · exact hm e he k hk x h1 h2
        · exact (hm e he _ hk x h1 ((onSeg_rev k x).2 h2)).imp_right Or.symm
        · exact (hm _ he k hk x ((onSeg_rev e x).2 h1) h2).imp_left Or.symm
        · exact (hm _ he _ hk x ((onSeg_rev e x).2 h1) ((onSeg_rev k x).2 h2)).imp Or.symm Or.symm
  -- edges are in one ring only
  have hown : ∀ L ∈ R, ∀ M ∈ R, L ≠ M → ∀ e ∈ polyEdges L, e ∉ polyEdges M ∧ (e.2, e.1) ∉ polyEdges M := by
    intro L hL M hM h e he
    obtain ⟨n1, n2⟩ := along_ne ((hsimple L hL).pos he) (s := 1 / 2) (by norm_num) (by norm_num)
    constructor
    · intro hc
      have := (hmeet L hL M hM h e he e hc _ ⟨1 / 2, by norm_num, by norm_num, rfl⟩ ⟨1 / 2, by norm_num, by norm_num, rfl⟩).1
      tauto
    · intro hc
      have := (hmeet L hL M hM h e he _ hc _ ⟨1 / 2, by norm_num, by norm_num, rfl⟩
        ((onSeg_rev e _).2 ⟨1 / 2, by norm_num, by norm_num, rfl⟩)).1
      tauto
  have hpass : ∀ L ∈ R, ∀ M ∈ R, L ≠ M → ∀ e ∈ polyEdges L, ∀ p q, Sees H e p → Sees H (e.2, e.1) q →
      windingNumber M p = windingNumber M q := fun L hL M hM h e he p q hp hq =>
    sees_pass hP (hsub M hM) (hsub L hL e he) (hown L hL M hM h e he).1 (hown L hL M hM h e he).2 hp hq
  have hoff : ∀ L ∈ R, ∀ e p, Sees H e p → ¬ OnBoundary L p := by
    rintro L hL e p hp ⟨k, hk, ho⟩
    exact hp.off ⟨k, hsub L hL k hk, ho⟩
  have hedge : ∀ x, g.OnEdge x → OnAny H x := by
    rintro x ⟨s, hs, ⟨e, he, ho⟩ | ⟨h, hh, e, he, ho⟩⟩
    · exact ⟨e, hsub s.outer (List.mem_flatMap.2 ⟨s, hs, List.mem_cons_self⟩) e he, ho⟩
    · exact ⟨e, hsub h (List.mem_flatMap.2 ⟨s, hs, List.mem_cons_of_mem _ hh⟩) e he, ho⟩
  have mo : ∀ s ∈ g, s.outer ∈ R := fun s hs => List.mem_flatMap.2 ⟨s, hs, List.mem_cons_self⟩
  have mh : ∀ s ∈ g, ∀ h ∈ s.holes, h ∈ R := fun s hs h hh => List.mem_flatMap.2 ⟨s, hs, List.mem_cons_of_mem _ hh⟩
  -- rings of different polygons are different
  have hdiff : ∀ s ∈ g, ∀ t ∈ g, s ≠ t → ∀ L ∈ s.outer :: s.holes, ∀ M ∈ t.outer :: t.holes, L ≠ M := by
    have h2 := (List.nodup_flatMap.1 hnd).2
    have : Std.Symm (Function.onFun List.Disjoint fun s : SPWH => s.outer :: s.holes) :=
      ⟨fun s t h => List.Disjoint.symm h⟩
    intro s hs t ht hst L hL M hM hLM
    subst hLM
    exact List.Pairwise.forall h2 hs ht hst hL hM
  have hho : ∀ s ∈ g, ∀ h ∈ s.holes, s.outer ≠ h := by
    intro s hs h hh hc
    have := (List.nodup_flatMap.1 hnd).1 s hs
    rw [List.nodup_cons] at this
    exact this.1 (hc ▸ hh)
  have : Std.Symm fun s t : SPWH => ∀ p, ¬ (InRegion s.outer s.holes p ∧ InRegion t.outer t.holes p) :=
    ⟨fun s t h p hc => h p hc.symm⟩
  have hdisj : ∀ s ∈ g, ∀ t ∈ g, s ≠ t → ∀ p, ¬ (InRegion s.outer s.holes p ∧ InRegion t.outer t.holes p) :=
    fun s hs t ht h => List.Pairwise.forall hg.disj hs ht h
  -- another polygon has both sides or none
  have hother : ∀ s ∈ g, ∀ t ∈ g, s ≠ t → ∀ L ∈ s.outer :: s.holes, ∀ e ∈ polyEdges L, ∀ p q, Sees H e p →
      Sees H (e.2, e.1) q → (InRegion t.outer t.holes p ↔ InRegion t.outer t.holes q) := by
    intro s hs t ht hst L hL e he p q hp hq
    have hLR : L ∈ R := List.mem_flatMap.2 ⟨s, hs, hL⟩
    have w : ∀ M ∈ t.outer :: t.holes, windingNumber M p = windingNumber M q ∧ ¬ OnBoundary M p ∧ ¬ OnBoundary M q := by
      intro M hM
      have hMR : M ∈ R := List.mem_flatMap.2 ⟨t, ht, hM⟩
      exact ⟨hpass L hLR M hMR (hdiff s hs t ht hst L hL M hM) e he p q hp hq, hoff M hMR e p hp, hoff M hMR _ q hq⟩
    obtain ⟨a1, a2, a3⟩ := w _ List.mem_cons_self
    unfold InRegion InPoly OutPoly
    constructor
    · rintro ⟨h1, h2⟩
      refine ⟨⟨a3, a1 ▸ h1.2⟩, fun h hh => ?_⟩
      obtain ⟨b1, b2, b3⟩ := w h (List.mem_cons_of_mem _ hh)
      exact ⟨b3, b1 ▸ (h2 h hh).2⟩
    · rintro ⟨h1, h2⟩
      refine ⟨⟨a2, by rw [a1]; exact h1.2⟩, fun h hh => ?_⟩
      obtain ⟨b1, b2, b3⟩ := w h (List.mem_cons_of_mem _ hh)
      exact ⟨b2, by rw [b1]; exact (h2 h hh).2⟩
  intro s hs
  obtain ⟨oo, oh⟩ := hg.outlined s hs
  constructor
  · intro e he
    have heH := hsub _ (mo s hs) e he
    have hr : ∀ p, Sees H e p → InRegion s.outer s.holes p := by
      intro p hp
      refine ⟨⟨hoff _ (mo s hs) e p hp, by rw [sees_right oo (hsub _ (mo s hs)) he hp]; decide⟩, fun h hh => ?_⟩
      refine ⟨hoff h (mh s hs h hh) e p hp, ?_⟩
      by_contra hc
      obtain ⟨l, r, hlr⟩ := across_exists hP heH
      have hq := hlr.rev.sees
      rw [hpass _ (mo s hs) h (mh s hs h hh) (hho s hs h hh) e he p l hp hq] at hc
      exact (hg.within s hs h hh l ⟨hoff h (mh s hs h hh) _ l hq, hc⟩).2 (sees_left oo (hsub _ (mo s hs)) he hq)
    refine parts_of hP hg.made hedge heH (fun p hp => (locate_one hg.made p).2 ⟨s, hs, hr p hp⟩) fun q hq hc => ?_
    obtain ⟨t, ht, hin⟩ := (locate_one hg.made q).1 hc
    by_cases hst : s = t
    · subst hst
      exact hin.1.2 (sees_left oo (hsub _ (mo s hs)) he hq)
    · obtain ⟨l, r, hlr⟩ := across_exists hP heH
      exact hdisj s hs t ht hst r ⟨hr r hlr.sees, (hother s hs t ht hst _ List.mem_cons_self e he r q hlr.sees hq).2 hin⟩
  · intro h hh e he
    have hhR := mh s hs h hh
    have heH := hsub _ hhR e he
    have hr : ∀ p, Sees H (e.2, e.1) p → InRegion s.outer s.holes p := by
      intro p hp
      obtain ⟨l, q, hlr⟩ := across_exists hP heH
      have hq := hlr.sees
      have hqi : InPoly h q := ⟨hoff h hhR e q hq, by rw [sees_right (oh h hh) (hsub h hhR) he hq]; decide⟩
      have hqo := hg.within s hs h hh q hqi
      refine ⟨⟨hoff _ (mo s hs) _ p hp, ?_⟩, fun k hk => ⟨hoff k (mh s hs k hk) _ p hp, ?_⟩⟩
      · rw [← hpass h hhR _ (mo s hs) (hho s hs h hh).symm e he q p hq hp]
        exact hqo.2
      · by_cases hhk : h = k
        · subst hhk
          exact sees_left (oh h hh) (hsub h hhR) he hp
        · by_contra hc
          rw [← hpass h hhR k (mh s hs k hk) hhk e he q p hq hp] at hc
          have : Std.Symm fun h k : List Pt => ∀ p, ¬ (InPoly h p ∧ InPoly k p) := ⟨fun s t h p hc => h p hc.symm⟩
          exact List.Pairwise.forall (hg.apart s hs) hh hk hhk q ⟨hqi, hoff k (mh s hs k hk) _ q hq, hc⟩
    refine parts_of hP hg.made hedge (hP.rev e heH) (fun p hp => (locate_one hg.made p).2 ⟨s, hs, hr p hp⟩) fun q hq hc => ?_
    have hq : Sees H e q := hq
    obtain ⟨t, ht, hin⟩ := (locate_one hg.made q).1 hc
    by_cases hst : s = t
    · subst hst
      have := (hin.2 h hh).2
      rw [sees_right (oh h hh) (hsub h hhR) he hq] at this
      cases this
    · obtain ⟨l, r, hlr⟩ := across_exists hP heH
      exact hdisj s hs t ht hst l ⟨hr l hlr.rev.sees,
        (hother s hs t ht hst h (List.mem_cons_of_mem _ hh) e he q l hq hlr.rev.sees).1 hin⟩

theorem fine : g.Fine := ⟨hg.proper, hg.outlined, hg.crisp hn⟩

end Geom2D.Ringed

end Ply
