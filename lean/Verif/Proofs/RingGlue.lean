import Mathlib.Logic.Relation
import Verif.Proofs.CellMerger
import Verif.Proofs.Chain
import Verif.Spec.Cells

/-!
# Rings of directed edges, and rings glued along a stretch
-/

namespace Ply.CellMerger

variable {V : Type}

open Relation (ReflTransGen)

/-- Directed edges that form one ring: from each vertex one edge goes out, into each vertex one comes in, and every vertex
is reached from every other. -/
structure Ring (E : V → V → Prop) : Prop where
  out : ∀ u v w, E u v → E u w → v = w
  inn : ∀ u v w, E u w → E v w → u = v
  on : ∀ u v, E u v → ∃ w, E v w
  reach : ∀ u u' v v', E u u' → E v v' → ReflTransGen E u v

theorem loop_next {l : List V} {u v : V} (h : (u, v) ∈ polyEdges l) : ∃ w, (v, w) ∈ polyEdges l := by
  obtain ⟨e, he, rfl⟩ := polyEdges_fst (polyEdges_mem h).2
  exact ⟨e.2, he⟩

/-- Closed loops that use each edge of a ring once are one loop. -/
theorem Ring.single {E : V → V → Prop} (h : Ring E) {ms : List (List V)} (hn : ∀ m ∈ ms, m ≠ [])
    (hE : ∀ u v, (u, v) ∈ allEdges ms ↔ E u v) (hnd : (allEdges ms).Nodup) (hne : ∃ u v, E u v) : ∃ m, ms = [m] := by
  have key : ∀ m ∈ ms, ∀ u v, E u v → (u, v) ∈ polyEdges m := by
    intro m hm u v huv
    have hsub : ∀ e ∈ polyEdges m, E e.1 e.2 := fun e he => (hE _ _).1 (List.mem_flatMap.2 ⟨m, hm, he⟩)
    obtain ⟨a, ha⟩ := List.exists_mem_of_ne_nil m (hn m hm)
    obtain ⟨e, he, rfl⟩ := polyEdges_fst ha
    have hr := h.reach _ _ u v (hsub e he) huv
    have : ∃ w, (u, w) ∈ polyEdges m := by
      clear huv
      induction hr with
      | refl => exact ⟨e.2, he⟩
      | tail _ h2 ih =>
        obtain ⟨w, hw⟩ := ih
        obtain rfl := h.out _ _ _ h2 (hsub _ hw)
        exact loop_next hw
    obtain ⟨w, hw⟩ := this
    obtain rfl := h.out _ _ _ huv (hsub _ hw)
    exact hw
  obtain ⟨u, v, huv⟩ := hne
  match ms, hnd, key, hE with
  | [], _, _, hE => exact absurd ((hE u v).2 huv) (by simp [allEdges])
  | [m], _, _, _ => exact ⟨m, rfl⟩
  | m :: m' :: l, hnd, key, _ =>
    have : (polyEdges m ++ (polyEdges m' ++ allEdges l)).Nodup := hnd
    exact absurd rfl ((List.nodup_append.1 this).2.2 (u, v) (key m (by simp) u v huv) (u, v)
      (List.mem_append_left _ (key m' (by simp) u v huv)))

/-- A loop of edges of a ring uses all of them. -/
theorem Ring.whole {E : V → V → Prop} (h : Ring E) {m : List V} (hn : m ≠ []) (hsub : ∀ e ∈ polyEdges m, E e.1 e.2) {u v : V}
    (huv : E u v) : (u, v) ∈ polyEdges m := by
  obtain ⟨a, ha⟩ := List.exists_mem_of_ne_nil m hn
  obtain ⟨e, he, rfl⟩ := polyEdges_fst ha
  have hr := h.reach _ _ u v (hsub e he) huv
  have : ∃ w, (u, w) ∈ polyEdges m := by
    clear huv
    induction hr with
    | refl => exact ⟨e.2, he⟩
    | tail _ h2 ih =>
      obtain ⟨w, hw⟩ := ih
      obtain rfl := h.out _ _ _ h2 (hsub _ hw)
      exact loop_next hw
  obtain ⟨w, hw⟩ := this
  obtain rfl := h.out _ _ _ huv (hsub _ hw)
  exact hw

/-- The edges of both whose reverse is not in the other. -/
def Glued (C D : V → V → Prop) (u v : V) : Prop := C u v ∧ ¬ D v u ∨ D u v ∧ ¬ C v u

/-- Where the rings touch: a stretch of `D` from `x` to `y` goes back along `C`. -/
structure Contact (C D : V → V → Prop) (x y : V) : Prop where
  ne : x ≠ y
  start : ∃ v, D x v ∧ C v x
  stop : ∃ u, D u y ∧ C y u
  first : ∀ u, D u x → ¬ C x u
  last : ∀ v, D y v → ¬ C v y
  before : ∀ u v, (∃ a, C a u ∨ C u a) → D u v → u ≠ x → ∃ w, D w u ∧ C u w
  after : ∀ u v, (∃ a, C a v ∨ C v a) → D u v → v ≠ y → ∃ w, D v w ∧ C w v

/-- Gluing two rings along one stretch gives a ring. -/
theorem Ring.glue {C D : V → V → Prop} (hC : Ring C) (hD : Ring D) {x y : V} (h : Contact C D x y) : Ring (Glued C D) := by
  -- every vertex of a ring has an edge in
  have inC : ∀ u v, C u v → ∃ w, C w u := by
    intro u v huv
    obtain ⟨w, hw⟩ := hC.on u v huv
    have := hC.reach v w u v hw huv
    rcases this.cases_tail with e | ⟨b, _, hb⟩
    · exact ⟨u, e ▸ huv⟩
    · exact ⟨b, hb⟩
  have inD : ∀ u v, D u v → ∃ w, D w u := by
    intro u v huv
    obtain ⟨w, hw⟩ := hD.on u v huv
    have := hD.reach v w u v hw huv
    rcases this.cases_tail with e | ⟨b, _, hb⟩
    · exact ⟨u, e ▸ huv⟩
    · exact ⟨b, hb⟩
  -- a vertex with free edges out in both
  have outs : ∀ u v w, C u v → ¬ D v u → D u w → ¬ C w u → False := by
    intro u v w c1 c2 d1 d2
    by_cases hux : u = x
    · subst hux
      obtain ⟨k, k1, k2⟩ := h.start
      obtain rfl := hD.out _ _ _ d1 k1
      exact d2 k2
    · obtain ⟨k, k1, k2⟩ := h.before u w ⟨v, Or.inr c1⟩ d1 hux
      obtain rfl := hC.out _ _ _ c1 k2
      exact c2 k1
  have inns : ∀ u v w, C u w → ¬ D w u → D v w → ¬ C w v → False := by
    intro u v w c1 c2 d1 d2
    by_cases hwy : w = y
    · subst hwy
      obtain ⟨k, k1, k2⟩ := h.stop
      obtain rfl := hD.inn _ _ _ d1 k1
      exact d2 k2
    · obtain ⟨k, k1, k2⟩ := h.after v w ⟨u, Or.inl c1⟩ d1 hwy
      obtain rfl := hC.inn _ _ _ c1 k2
      exact c2 k1
  -- the free edges at the ends
  have xC : ∃ v, C x v ∧ ¬ D v x := by
    obtain ⟨k, -, k2⟩ := h.start
    obtain ⟨v, hv⟩ := hC.on _ _ k2
    exact ⟨v, hv, fun hd => h.first v hd hv⟩
  have yD : ∃ v, D y v ∧ ¬ C v y := by
    obtain ⟨k, k1, -⟩ := h.stop
    obtain ⟨v, hv⟩ := hD.on _ _ k1
    exact ⟨v, hv, h.last v hv⟩
  -- walking on
  have onC : ∀ u v, C u v → ¬ D v u → v ≠ y → ∃ w, C v w ∧ ¬ D w v := by
    intro u v c1 c2 hvy
    obtain ⟨w, hw⟩ := hC.on u v c1
    refine ⟨w, hw, fun hd => ?_⟩
    obtain ⟨k, k1, k2⟩ := h.after w v ⟨u, Or.inl c1⟩ hd hvy
    obtain rfl := hC.inn _ _ _ c1 k2
    exact c2 k1
  have onD : ∀ u v, D u v → ¬ C v u → v ≠ x → ∃ w, D v w ∧ ¬ C w v := by
    intro u v d1 d2 hvx
    obtain ⟨w, hw⟩ := hD.on u v d1
    refine ⟨w, hw, fun hc => ?_⟩
    obtain ⟨k, k1, k2⟩ := h.before v w ⟨w, Or.inl hc⟩ hw hvx
    obtain rfl := hD.inn _ _ _ d1 k1
    exact d2 k2
  have toY : ∀ u v, C u v → ¬ D v u → ReflTransGen (Glued C D) u y := by
    intro u v c1 c2
    obtain ⟨k, -, k2⟩ := h.stop
    have hr := hC.reach u v y k c1 k2
    induction hr using ReflTransGen.head_induction_on generalizing v with
    | refl => exact .refl
    | head h1 _ ih =>
      obtain rfl := hC.out _ _ _ c1 h1
      refine .head (Or.inl ⟨c1, c2⟩) ?_
      by_cases hvy : v = y
      · rw [hvy]
      · obtain ⟨w, w1, w2⟩ := onC _ v c1 c2 hvy
        exact ih w w1 w2
  have toX : ∀ u v, D u v → ¬ C v u → ReflTransGen (Glued C D) u x := by
    intro u v d1 d2
    obtain ⟨k, k1, -⟩ := h.start
    have hr := hD.reach u v x k d1 k1
    induction hr using ReflTransGen.head_induction_on generalizing v with
    | refl => exact .refl
    | head h1 _ ih =>
      obtain rfl := hD.out _ _ _ d1 h1
      refine .head (Or.inr ⟨d1, d2⟩) ?_
      by_cases hvx : v = x
      · rw [hvx]
      · obtain ⟨w, w1, w2⟩ := onD _ v d1 d2 hvx
        exact ih w w1 w2
  have fromX : ∀ u v, C u v → ¬ D v u → ReflTransGen (Glued C D) x u := by
    intro u v c1 c2
    obtain ⟨k, k1, -⟩ := xC
    have hr := hC.reach x k u v k1 c1
    induction hr generalizing v with
    | refl => exact .refl
    | tail _ h2 ih =>
      rename_i b c _
      by_cases hd : D c b
      · by_cases hcx : c = x
        · rw [hcx]
        · exfalso
          obtain ⟨w, w1, w2⟩ := h.before c b ⟨b, Or.inl h2⟩ hd hcx
          obtain rfl := hC.out _ _ _ c1 w2
          exact c2 w1
      · exact .tail (ih c h2 hd) (Or.inl ⟨h2, hd⟩)
  have fromY : ∀ u v, D u v → ¬ C v u → ReflTransGen (Glued C D) y u := by
    intro u v d1 d2
    obtain ⟨k, k1, -⟩ := yD
    have hr := hD.reach y k u v k1 d1
    induction hr generalizing v with
    | refl => exact .refl
    | tail _ h2 ih =>
      rename_i b c _
      by_cases hc : C c b
      · by_cases hcy : c = y
        · rw [hcy]
        · exfalso
          obtain ⟨w, w1, w2⟩ := h.after b c ⟨b, Or.inr hc⟩ h2 hcy
          obtain rfl := hD.out _ _ _ d1 w1
          exact d2 w2
      · exact .tail (ih c h2 hc) (Or.inr ⟨h2, hc⟩)
  have xy : ReflTransGen (Glued C D) x y := by
    obtain ⟨v, v1, v2⟩ := xC
    exact toY x v v1 v2
  have yx : ReflTransGen (Glued C D) y x := by
    obtain ⟨v, v1, v2⟩ := yD
    exact toX y v v1 v2
  refine ⟨?_, ?_, ?_, ?_⟩
  · rintro u v w (⟨a1, a2⟩ | ⟨a1, a2⟩) (⟨b1, b2⟩ | ⟨b1, b2⟩)
    · exact hC.out _ _ _ a1 b1
    · exact (outs _ _ _ a1 a2 b1 b2).elim
    · exact (outs _ _ _ b1 b2 a1 a2).elim
    · exact hD.out _ _ _ a1 b1
  · rintro u v w (⟨a1, a2⟩ | ⟨a1, a2⟩) (⟨b1, b2⟩ | ⟨b1, b2⟩)
    · exact hC.inn _ _ _ a1 b1
    · exact (inns _ _ _ a1 a2 b1 b2).elim
    · exact (inns _ _ _ b1 b2 a1 a2).elim
    · exact hD.inn _ _ _ a1 b1
  · rintro u v (⟨a1, a2⟩ | ⟨a1, a2⟩)
    · by_cases hv : v = y
      · obtain ⟨w, w1, w2⟩ := yD
        exact ⟨w, hv ▸ Or.inr ⟨w1, w2⟩⟩
      · obtain ⟨w, w1, w2⟩ := onC u v a1 a2 hv
        exact ⟨w, Or.inl ⟨w1, w2⟩⟩
    · by_cases hv : v = x
      · obtain ⟨w, w1, w2⟩ := xC
        exact ⟨w, hv ▸ Or.inl ⟨w1, w2⟩⟩
      · obtain ⟨w, w1, w2⟩ := onD u v a1 a2 hv
        exact ⟨w, Or.inr ⟨w1, w2⟩⟩
  · have hto : ∀ u u', Glued C D u u' → ReflTransGen (Glued C D) u x := by
      rintro u u' (⟨a1, a2⟩ | ⟨a1, a2⟩)
      · exact (toY _ _ a1 a2).trans yx
      · exact toX _ _ a1 a2
    have hfrom : ∀ u u', Glued C D u u' → ReflTransGen (Glued C D) x u := by
      rintro u u' (⟨a1, a2⟩ | ⟨a1, a2⟩)
      · exact fromX _ _ a1 a2
      · exact xy.trans (fromY _ _ a1 a2)
    exact fun u u' v v' h1 h2 => (hto u u' h1).trans (hfrom v v' h2)

end Ply.CellMerger
