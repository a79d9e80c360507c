import Verif.Proofs.Joined
import Verif.Spec.StarRing

/-!
# The arrangement of two rings that are seen from one point
-/

namespace Ply.Arr

open CellMerger Filter Topology
open Relation (ReflTransGen)

/-- Directed edges that go on where they end, and that all have the point on their right, wind around it. -/
theorem edges_around {E : List Seg} {p : Pt} (hE : E ≠ []) (on : ∀ e ∈ E, ∃ f ∈ E, f.1 = e.2) (h : ∀ e ∈ E, orient e.1 e.2 p < 0) :
    (E.map fun e => crossing p e.1 e.2).sum ≤ -1 := by
  have hle : ∀ e ∈ E, crossing p e.1 e.2 ≤ 0 := by
    intro e he
    have := h e he
    unfold crossing
    split_ifs with h1 h2
    · linarith [h1.2.2]
    · simp
    · simp
  by_contra hc
  have hz : ∀ e ∈ E, crossing p e.1 e.2 = 0 := by
    have key : ∀ l : List Seg, (∀ e ∈ l, crossing p e.1 e.2 ≤ 0) → (l.map fun e => crossing p e.1 e.2).sum ≤ 0 ∧
        (¬ (l.map fun e => crossing p e.1 e.2).sum ≤ -1 → ∀ e ∈ l, crossing p e.1 e.2 = 0) := by
      intro l
      induction l with
      | nil => simp
      | cons a l ih =>
        intro hl
        obtain ⟨i1, i2⟩ := ih fun e he => hl e (List.mem_cons_of_mem _ he)
        have ha := hl a List.mem_cons_self
        rw [List.map_cons, List.sum_cons]
        refine ⟨by omega, fun h0 => ?_⟩
        have : crossing p a.1 a.2 = 0 := by omega
        exact List.forall_mem_cons.2 ⟨this, i2 (by omega)⟩
    exact (key _ hle).2 hc
  have stay : ∀ e ∈ E, p.2 < e.1.2 → p.2 < e.2.2 := by
    intro e he h1
    by_contra h2
    have := hz e he
    unfold crossing at this
    rw [if_neg (by rintro ⟨a, -⟩; linarith), if_pos ⟨not_lt.1 h2, h1, h e he⟩] at this
    simp at this
  -- no edges on one side of the level of the point that go on among themselves
  have none : ∀ S : Pt → Prop, (∀ a b : Pt, S a → S b → 0 < (a.2 - p.2) * (b.2 - p.2)) → (∀ e ∈ E, S e.1 → S e.2) →
      ∀ e ∈ E, ¬ S e.1 := by
    classical
    intro S hS hgo e he hs
    obtain ⟨v, hv, hmax⟩ := Finset.exists_max_image (E.toFinset.filter fun e => S e.1)
      (fun e : Seg => (e.1.1 - p.1) / (e.1.2 - p.2)) ⟨e, Finset.mem_filter.2 ⟨List.mem_toFinset.2 he, hs⟩⟩
    obtain ⟨v1, v2⟩ := Finset.mem_filter.1 hv
    have v1 := List.mem_toFinset.1 v1
    obtain ⟨f, hf, hfv⟩ := on v v1
    have w2 := hgo v v1 v2
    have h1 := hmax f (Finset.mem_filter.2 ⟨List.mem_toFinset.2 hf, hfv ▸ w2⟩)
    rw [hfv] at h1
    have hpp := hS _ _ v2 w2
    have h2 := h v v1
    have n1 : v.1.2 - p.2 ≠ 0 := by intro hc; rw [hc, zero_mul] at hpp; exact lt_irrefl _ hpp
    have n2 : v.2.2 - p.2 ≠ 0 := by intro hc; rw [hc, mul_zero] at hpp; exact lt_irrefl _ hpp
    have e1 : (v.2.1 - p.1) / (v.2.2 - p.2) - (v.1.1 - p.1) / (v.1.2 - p.2) = -orient v.1 v.2 p / ((v.1.2 - p.2) * (v.2.2 - p.2)) := by
      field_simp
      unfold orient
      ring
    have : 0 < -orient v.1 v.2 p / ((v.1.2 - p.2) * (v.2.2 - p.2)) := div_pos (by linarith) hpp
    linarith
  have up := none (fun v => p.2 < v.2) (fun a b ha hb => mul_pos (sub_pos.2 ha) (sub_pos.2 hb)) stay
  have le1 : ∀ e ∈ E, e.1.2 ≤ p.2 := fun e he => not_lt.1 (up e he)
  have le2 : ∀ e ∈ E, e.2.2 ≤ p.2 := by
    intro e he
    obtain ⟨f, hf, hfe⟩ := on e he
    rw [← hfe]; exact le1 f hf
  have start : ∀ e ∈ E, e.1.2 = p.2 → p.1 < e.1.1 ∧ e.2.2 < p.2 := by
    intro e he hc
    have h2 := h e he
    unfold orient at h2
    have a2 := le2 e he
    have g2 : 0 < (p.2 - e.2.2) * (e.1.1 - p.1) := by rw [hc] at h2; nlinarith
    have n : e.2.2 < p.2 := by
      refine lt_of_le_of_ne a2 fun hc' => ?_
      rw [hc'] at g2; simp at g2
    refine ⟨?_, n⟩
    by_contra hn
    nlinarith [mul_nonneg (sub_nonneg.2 a2) (sub_nonneg.2 (not_lt.1 hn))]
  have down := none (fun v => v.2 < p.2) (fun a b ha hb => mul_pos_of_neg_of_neg (sub_neg.2 ha) (sub_neg.2 hb)) (by
    intro e he h1
    refine lt_of_le_of_ne (le2 e he) fun hc => ?_
    obtain ⟨f, hf, hfe⟩ := on e he
    have s1 := (start f hf (by rw [hfe]; exact hc)).1
    rw [hfe] at s1
    have h2 := h e he
    unfold orient at h2
    have g1 : 0 < (p.2 - e.1.2) * (p.1 - e.2.1) := by rw [hc] at h2; nlinarith
    nlinarith [mul_pos (sub_pos.2 h1) (sub_pos.2 s1)])
  obtain ⟨e, he⟩ := List.exists_mem_of_ne_nil _ hE
  have h0 : e.1.2 = p.2 := le_antisymm (le1 e he) (not_lt.1 (down e he))
  obtain ⟨f, hf, hfe⟩ := on e he
  exact down f hf (by rw [hfe]; exact (start e he h0).2)

/-- A loop all of whose edges have the point on their right winds around it. -/
theorem loop_around {m : List Pt} {p : Pt} (hm : m ≠ []) (h : ∀ e ∈ polyEdges m, orient e.1 e.2 p < 0) : windingNumber m p ≤ -1 := by
  refine edges_around ?_ (fun e he => polyEdges_fst (polyEdges_mem he).2) h
  obtain ⟨a, ha⟩ := List.exists_mem_of_ne_nil m hm
  obtain ⟨e, he, -⟩ := polyEdges_fst ha
  exact List.ne_nil_of_mem he

/-- Directed edges, one out of each vertex and one into it, that have the point on their right and wind around it once, are one
ring. -/
theorem ring_around {E : List Seg} {p : Pt} (out : ∀ u v w, (u, v) ∈ E → (u, w) ∈ E → v = w)
    (inn : ∀ u v w, (u, w) ∈ E → (v, w) ∈ E → u = v) (on : ∀ u v, (u, v) ∈ E → ∃ w, (v, w) ∈ E)
    (h : ∀ e ∈ E, orient e.1 e.2 p < 0) (h1 : (E.map fun e => crossing p e.1 e.2).sum = -1) : Ring fun u v => (u, v) ∈ E where
  out := out
  inn := inn
  on := on
  reach := by
    classical
    intro u u' v v' hu hv
    by_contra hc
    set R : Pt → Prop := fun x => ReflTransGen (fun u v => (u, v) ∈ E) u x with hR
    set S := (E.toFinset.filter fun e => R e.1) with hS
    have hex : ∀ e ∈ E, ∃ f ∈ E, f.1 = e.2 := by
      intro e he
      obtain ⟨w, hw⟩ := on e.1 e.2 he
      exact ⟨_, hw, rfl⟩
    choose! nx nx1 nx2 using hex
    have hmem : ∀ e, e ∈ S ↔ e ∈ E ∧ R e.1 := by
      intro e; rw [hS, Finset.mem_filter, List.mem_toFinset]
    have hmaps : ∀ e ∈ S, nx e ∈ S := by
      intro e he
      obtain ⟨e1, e2⟩ := (hmem e).1 he
      refine (hmem _).2 ⟨nx1 e e1, ?_⟩
      rw [nx2 e e1]
      exact e2.tail e1
    have hinj : ∀ e ∈ S, ∀ f ∈ S, nx e = nx f → e = f := by
      intro e he f hf hef
      obtain ⟨e1, -⟩ := (hmem e).1 he
      obtain ⟨f1, -⟩ := (hmem f).1 hf
      have h2 : e.2 = f.2 := by rw [← nx2 e e1, ← nx2 f f1, hef]
      refine Prod.ext ?_ h2
      exact inn e.1 f.1 e.2 e1 (by rw [h2]; exact f1)
    have himg : S.image nx = S := by
      refine Finset.eq_of_subset_of_card_le ?_ ?_
      · intro x hx
        obtain ⟨e, he, rfl⟩ := Finset.mem_image.1 hx
        exact hmaps e he
      · rw [Finset.card_image_of_injOn fun e he f hf hef => hinj e he f hf hef]
    set E1 := E.filter fun e => decide (R e.1) with hE1
    set E2 := E.filter fun e => !decide (R e.1) with hE2
    have m1 : ∀ e, e ∈ E1 ↔ e ∈ E ∧ R e.1 := by intro e; rw [hE1, List.mem_filter, decide_eq_true_eq]
    have m2 : ∀ e, e ∈ E2 ↔ e ∈ E ∧ ¬ R e.1 := by intro e; rw [hE2, List.mem_filter]; simp
    have hp : (E1 ++ E2).Perm E := List.filter_append_perm _ _
    have a1 := edges_around (E := E1) (p := p) (List.ne_nil_of_mem ((m1 (u, u')).2 ⟨hu, .refl⟩)) (by
      intro e he
      obtain ⟨e1, e2⟩ := (m1 e).1 he
      exact ⟨nx e, (m1 _).2 ⟨nx1 e e1, by rw [nx2 e e1]; exact e2.tail e1⟩, nx2 e e1⟩) fun e he => h e ((m1 e).1 he).1
    have a2 := edges_around (E := E2) (p := p) (List.ne_nil_of_mem ((m2 (v, v')).2 ⟨hv, hc⟩)) (by
      intro e he
      obtain ⟨e1, e2⟩ := (m2 e).1 he
      refine ⟨nx e, (m2 _).2 ⟨nx1 e e1, fun hr => e2 ?_⟩, nx2 e e1⟩
      have : nx e ∈ S := (hmem _).2 ⟨nx1 e e1, hr⟩
      rw [← himg] at this
      obtain ⟨f, hf, hfe⟩ := Finset.mem_image.1 this
      obtain ⟨f1, f2⟩ := (hmem f).1 hf
      have h2 : e.2 = f.2 := by rw [← nx2 e e1, ← nx2 f f1, hfe]
      have : e.1 = f.1 := inn e.1 f.1 e.2 e1 (by rw [h2]; exact f1)
      rw [this]; exact f2) fun e he => h e ((m2 e).1 he).1
    have := (hp.map fun e => crossing p e.1 e.2).sum_eq
    rw [List.map_append, List.sum_append, h1] at this
    omega

/-- Where an edge of the border of cells ends, another one starts. -/
theorem border_on {F : List (List Pt)} (hn : (allEdges F).Nodup) {u v : Pt} (huv : u ≠ v) (h : (u, v) ∈ border F) :
    ∃ w, (v, w) ∈ border F := by
  by_contra hc
  push Not at hc
  set f : Pt × Pt → ℤ := fun e => (if e.2 = v then 1 else 0) - (if e.1 = v then 1 else 0) with hf
  have h1 := border_sum (fun x hx => by omega) f (by
    intro e
    simp only [hf, opp]
    ring) hn
  have h2 : ∀ F : List (List Pt), ((allEdges F).map f).sum = 0 := by
    intro F
    induction F with
    | nil => simp [allEdges]
    | cons c F ih =>
      have : (allEdges (c :: F)).map f = (polyEdges c).map f ++ (allEdges F).map f := by simp [allEdges]
      rw [this, List.sum_append, ih, add_zero]
      exact polyEdges_telescope (fun x : Pt => if x = v then (1 : ℤ) else 0) c
  rw [h2] at h1
  have key : ∀ l : List (Pt × Pt), (∀ e ∈ l, 0 ≤ f e) → 0 ≤ (l.map f).sum ∧ ∀ e ∈ l, f e ≤ (l.map f).sum := by
    intro l
    induction l with
    | nil => simp
    | cons a l ih =>
      intro hl
      obtain ⟨i1, i2⟩ := ih fun e he => hl e (List.mem_cons_of_mem _ he)
      have ha := hl a List.mem_cons_self
      rw [List.map_cons, List.sum_cons]
      refine ⟨by omega, fun e he => ?_⟩
      rcases List.mem_cons.1 he with rfl | he
      · omega
      · have := i2 e he; omega
  have := (key (border F) (by
    intro e he
    have : e.1 ≠ v := by
      rintro rfl
      exact hc e.2 he
    simp only [hf, if_neg this]
    split_ifs <;> omega)).2 _ h
  rw [h1] at this
  simp only [hf, if_pos, if_neg huv] at this
  omega

/-- Between two half-edges with no others between them: a point sees both. -/
theorem sector {H : List Seg} (hP : Planar H) {u v w z : Pt} (σ : ℚ) (hv : (u, v) ∈ H) (hw : (u, w) ∈ H)
    (hc : cross (v - u) (w - u) < 0) (h1 : 0 < σ * cross (v - u) z) (h2 : 0 < σ * cross (w - u) z)
    (hk : ∀ x, (u, x) ∈ H → x = v ∨ x = w ∨ σ * cross (x - u) z < 0) : ∃ q, Sees H (u, v) q ∧ Sees H (w, u) q := by
  have key := cone hP u (v - u) (w - u) ⟨_, hv, rfl⟩ (fun t => 0 < t ∧ t < 1) (fun t h => ⟨h.1.le, h.2.le⟩) (by
    rintro t ⟨t0, t1⟩ hz
    have : (1 - t) * (σ * cross (v - u) z) + t * (σ * cross (w - u) z) = σ * cross ((1 - t) • (v - u) + t • (w - u)) z := by
      unfold cross; simp only [Prod.fst_add, Prod.snd_add, Prod.smul_fst, Prod.smul_snd, smul_eq_mul]; ring
    rw [hz] at this
    have h0 : cross (0 : Pt) z = 0 := by unfold cross; simp
    rw [h0, mul_zero] at this
    nlinarith [mul_pos (sub_pos.2 t1) h1, mul_pos t0 h2]) (by
    rintro ⟨k1, x⟩ hkH rfl t ⟨t0, t1⟩ r r0 he
    have hd : dir (k1, x) = x - k1 := rfl
    rw [hd] at he
    have e1 : (1 - t) * cross (v - k1) (v - k1) + t * cross (v - k1) (w - k1) = r * cross (v - k1) (x - k1) := by
      have : (1 - t) * cross (v - k1) (v - k1) + t * cross (v - k1) (w - k1) = cross (v - k1) ((1 - t) • (v - k1) + t • (w - k1)) := by
        unfold cross; simp only [Prod.fst_add, Prod.snd_add, Prod.smul_fst, Prod.smul_snd, smul_eq_mul]; ring
      rw [this, he]
      unfold cross; simp only [Prod.smul_fst, Prod.smul_snd, smul_eq_mul]; ring
    have e2 : (1 - t) * cross (v - k1) (w - k1) + t * cross (w - k1) (w - k1) = r * cross (x - k1) (w - k1) := by
      have : (1 - t) * cross (v - k1) (w - k1) + t * cross (w - k1) (w - k1) = cross ((1 - t) • (v - k1) + t • (w - k1)) (w - k1) := by
        unfold cross; simp only [Prod.fst_add, Prod.snd_add, Prod.smul_fst, Prod.smul_snd, smul_eq_mul]; ring
      rw [this, he]
      unfold cross; simp only [Prod.smul_fst, Prod.smul_snd, smul_eq_mul]; ring
    have e3 : (1 - t) * (σ * cross (v - k1) z) + t * (σ * cross (w - k1) z) = r * (σ * cross (x - k1) z) := by
      have : (1 - t) * (σ * cross (v - k1) z) + t * (σ * cross (w - k1) z) = σ * cross ((1 - t) • (v - k1) + t • (w - k1)) z := by
        unfold cross; simp only [Prod.fst_add, Prod.snd_add, Prod.smul_fst, Prod.smul_snd, smul_eq_mul]; ring
      rw [this, he]
      unfold cross; simp only [Prod.smul_fst, Prod.smul_snd, smul_eq_mul]; ring
    have self : ∀ a : Pt, cross a a = 0 := by intro a; unfold cross; ring
    rcases hk x hkH with rfl | rfl | hx
    · rw [self, mul_zero, mul_zero, zero_add] at e1
      nlinarith [mul_neg_of_pos_of_neg t0 hc]
    · rw [self, mul_zero, mul_zero, add_zero] at e2
      nlinarith [mul_neg_of_pos_of_neg (sub_pos.2 t1) hc]
    · nlinarith [mul_pos (sub_pos.2 t1) h1, mul_pos t0 h2, mul_neg_of_pos_of_neg r0 hx])
  obtain ⟨ε, e0, h3, h4⟩ := small_exists (key.and (small_lt 1 one_pos))
  refine ⟨u + ε • ((1 / 2 : ℚ) • (v - u) + (1 / 2 : ℚ) • (w - u)), ⟨ε, (ε / 2) • (w - v), e0, h4, ?_, ?_, ?_⟩,
    ⟨1 - ε, (ε / 2) • (v - w), by linarith, by linarith, ?_, ?_, ?_⟩⟩
  · have : cross (dir (u, v)) ((ε / 2) • (w - v)) = (ε / 2) * cross (v - u) (w - u) := by
      unfold cross dir; simp only [Prod.fst_sub, Prod.snd_sub, Prod.smul_fst, Prod.smul_snd, smul_eq_mul]; ring
    rw [this]; nlinarith
  · unfold along
    ext <;> simp only [Prod.fst_add, Prod.snd_add, Prod.fst_sub, Prod.snd_sub, Prod.smul_fst, Prod.smul_snd, smul_eq_mul] <;> ring
  · intro τ τ0 τ1
    have := h3 (τ / 2) ⟨by linarith, by linarith⟩
    convert this using 2
    unfold along
    ext <;> simp only [Prod.fst_add, Prod.snd_add, Prod.fst_sub, Prod.snd_sub, Prod.smul_fst, Prod.smul_snd, smul_eq_mul] <;> ring
  · have : cross (dir (w, u)) ((ε / 2) • (v - w)) = (ε / 2) * cross (v - u) (w - u) := by
      unfold cross dir; simp only [Prod.fst_sub, Prod.snd_sub, Prod.smul_fst, Prod.smul_snd, smul_eq_mul]; ring
    rw [this]; nlinarith
  · unfold along
    ext <;> simp only [Prod.fst_add, Prod.snd_add, Prod.fst_sub, Prod.snd_sub, Prod.smul_fst, Prod.smul_snd, smul_eq_mul] <;> ring
  · intro τ τ0 τ1
    have := h3 (1 - τ / 2) ⟨by linarith, by linarith⟩
    convert this using 2
    unfold along
    ext <;> simp only [Prod.fst_add, Prod.snd_add, Prod.fst_sub, Prod.snd_sub, Prod.smul_fst, Prod.smul_snd, smul_eq_mul] <;> ring

theorem _root_.Ply.StarRing.ne {o : Pt} {L : List Pt} (h : StarRing o L) : L ≠ [] := by
  have := h.simple.long
  rintro rfl
  simp at this

theorem _root_.Ply.StarRing.off {o : Pt} {L : List Pt} (h : StarRing o L) : ¬ OnBoundary L o := by
  rintro ⟨e, he, hx⟩
  have h1 := h.right e he
  rw [orient_cross, cross_on e o hx] at h1
  exact lt_irrefl _ h1

/-- Inside is on the right of a ring seen from a point inside. -/
theorem _root_.Ply.StarRing.sides {o : Pt} {L : List Pt} (h : StarRing o L) : Sides L 0 (-1) := by
  rcases h.simple.sides with hs | hs
  · exact hs
  · have h1 := loop_around h.ne h.right
    rcases hs.winding h.ne h.off with e | e <;> omega

theorem _root_.Ply.StarRing.cw {o : Pt} {L : List Pt} (h : StarRing o L) : shoelace L < 0 := Sides.shoelace_neg h.sides h.ne

section
variable {A : Arrangement} {Ls : List (List Pt)} {o : Pt} (hR : LoopNet A Ls) (hS : ∀ L ∈ Ls, StarRing o L)

include hS in
theorem al_right {L : List Pt} (hL : L ∈ Ls) {u v : Pt} (h : Al A L u v) : orient u v o < 0 := by
  obtain ⟨-, e, he, a, b, a0, ab, b1, rfl, rfl⟩ := h
  have h1 := (hS L hL).right e he
  have : orient (along e a) (along e b) o = (b - a) * orient e.1 e.2 o := by unfold orient along; ring
  rw [this]
  exact mul_neg_of_pos_of_neg (by linarith) h1

include hS in
theorem al_oneway {L M : List Pt} (hL : L ∈ Ls) (hM : M ∈ Ls) {u v : Pt} (h : Al A L u v) (h' : Al A M v u) : False := by
  have h1 := al_right hS hL h
  have h2 := al_right hS hM h'
  rw [orient_swap] at h2
  linarith

include hR hS

/-- The point is off the net. -/
theorem star_off : ¬ OnAny A.net.halfEdges o := by
  intro h
  obtain ⟨L, hL, h⟩ := (hR.on o).1 h
  exact (hS L hL).off h

/-- A cell with a half-edge along a ring is in the ring. -/
theorem cell_in {L : List Pt} (hL : L ∈ Ls) {c : Cell1} (hc : c ∈ A.cells) {u v : Pt} (he : (u, v) ∈ polyEdges c.vertices) :
    (Al A L u v → windingNumber L c.point = -1) ∧ (Al A L v u → windingNumber L c.point = 0) := by
  obtain ⟨p, hp, hs⟩ := hR.built.sees c hc _ he
  have hw : windingNumber L p = windingNumber L c.point := hs L (ring_within hR hL)
  constructor
  · intro h
    rw [← hw]; exact (loop_sides' hR hL (hS L hL).sides h).1 p hp
  · intro h
    rw [← hw]; exact (loop_sides' hR hL (hS L hL).sides h).2 p hp

omit hS in
/-- Cells on the two sides of a half-edge that is not along the ring are both inside the ring or both outside. -/
theorem cell_across {L : List Pt} (hL : L ∈ Ls) {c d : Cell1} (hc : c ∈ A.cells) (hd : d ∈ A.cells) {u v : Pt}
    (he : (u, v) ∈ polyEdges c.vertices) (hf : (v, u) ∈ polyEdges d.vertices) (h1 : ¬ Al A L u v) (h2 : ¬ Al A L v u) :
    windingNumber L c.point = windingNumber L d.point := by
  obtain ⟨p, hp, hs⟩ := hR.built.sees c hc _ he
  obtain ⟨q, hq, ht⟩ := hR.built.sees d hd _ hf
  have hm : (u, v) ∈ A.net.halfEdges := (cell_ok' hR hc).sub _ he
  rw [← hs L (ring_within hR hL), ← ht L (ring_within hR hL)]
  refine same_across hR hL hm (fun hx => ?_) hp hq
  rcases al_of_inner hR hL hm (by norm_num) (by norm_num) hx with h | h
  · exact h1 h
  · exact h2 h

/-- A cell inside all rings has the point on the right of its edges. -/
theorem both_edge {c : Cell1} (hc : c ∈ A.cells) (hb : ∀ L ∈ Ls, windingNumber L c.point ≠ 0) {e : Seg} (he : e ∈ polyEdges c.vertices) :
    orient e.1 e.2 o < 0 := by
  obtain ⟨L, hL, h | h⟩ := al_exists hR ((cell_ok' hR hc).sub _ he)
  · exact al_right hS hL h
  · exact absurd ((cell_in hR hS hL hc he).2 h) (hb L hL)

end

section
variable {A : Arrangement} {P Q : List Pt} {o : Pt} (hR : LoopNet A [P, Q]) (hS : ∀ L ∈ [P, Q], StarRing o L) (hm : Meet P Q)
include hR hm

theorem all_conn {a b : Cell1} (ha : a ∈ A.cells) (hb : b ∈ A.cells) : cellConn A.net a.vertices b.vertices := by
  obtain ⟨e, he⟩ := (cell_ok' hR ha).edge
  obtain ⟨f, hf⟩ := (cell_ok' hR hb).edge
  exact ⟨e, he, f, hf, pair_conn hR hm ((cell_ok' hR ha).sub _ he) ((cell_ok' hR hb).sub _ hf)⟩

/-- How often a cell winds around a point of another cell. -/
theorem other_winding {a b : Cell1} (ha : a ∈ A.cells) (hb : b ∈ A.cells) (hab : a ≠ b) :
    windingNumber a.vertices b.point = windingNumber a.vertices a.point + 1 := by
  classical
  have hN := nested hR.full.wheel hR.full.tiling
  have m : ∀ {c : Cell1}, c ∈ A.cells → c.vertices ∈ (A.cells.map Cell1.vertices).toFinset := fun hc =>
    List.mem_toFinset.2 (List.mem_map_of_mem hc)
  rw [← cellW_pt hR.full ha hb, ← cellW_pt hR.full ha ha]
  exact hN.same _ (m ha) _ (m hb) (all_conn hR hm ha hb) fun h => hab (cell_eq hR.full ha hb h)

omit hm in
theorem own_winding {a : Cell1} (ha : a ∈ A.cells) :
    windingNumber a.vertices a.point = if shoelace a.vertices < 0 then -1 else 0 := by
  classical
  have hN := nested hR.full.wheel hR.full.tiling
  rw [← cellW_pt hR.full ha ha]
  have := hN.own a.vertices (List.mem_toFinset.2 (List.mem_map_of_mem ha))
  unfold cellPos at this
  convert this

/-- Each face has one cell. -/
theorem face_cell {a b : Cell1} (ha : a ∈ A.cells) (hb : b ∈ A.cells) (h : SameFace A.net.halfEdges a.point b.point) : a = b := by
  by_contra hne
  have h1 := other_winding hR hm ha hb hne
  have h2 := h.winding (cell_ok' hR ha).sub
  omega

/-- The cell outside is the one that goes counterclockwise. -/
theorem cell_pos {c : Cell1} (hc : c ∈ A.cells) {L : List Pt} (hL : L ∈ [P, Q]) (hw : windingNumber L c.point ≠ 0) :
    shoelace c.vertices < 0 := by
  by_contra hn
  obtain ⟨M, hM1, hM⟩ := far_bound [] (L :: A.cells.map Cell1.vertices)
  have hne : A.net.halfEdges ≠ [] := by
    obtain ⟨e, he⟩ := (cell_ok' hR hc).edge
    exact List.ne_nil_of_mem ((cell_ok' hR hc).sub _ he)
  obtain ⟨N, hN⟩ : ∃ N : ℚ, ∀ h ∈ A.net.halfEdges, h.1.1 < N ∧ h.2.1 < N := by
    clear hne
    induction A.net.halfEdges with
    | nil => exact ⟨0, by simp⟩
    | cons a l ih =>
      obtain ⟨N, hN⟩ := ih
      refine ⟨max N (max a.1.1 a.2.1 + 1), fun h hh => ?_⟩
      rcases List.mem_cons.1 hh with rfl | hh
      · have := le_max_left h.1.1 h.2.1
        have := le_max_right h.1.1 h.2.1
        have := le_max_right N (max h.1.1 h.2.1 + 1)
        exact ⟨by linarith, by linarith⟩
      · have := le_max_left N (max a.1.1 a.2.1 + 1)
        exact ⟨(hN h hh).1.trans_le this, (hN h hh).2.trans_le this⟩
  set q : Pt := (max M N + 1, 0) with hq
  have hqM : M < q.1 := lt_of_le_of_lt (le_max_left M N) (lt_add_one _)
  have hqN : N < q.1 := lt_of_le_of_lt (le_max_right M N) (lt_add_one _)
  have hoff : ¬ OnAny A.net.halfEdges q := by
    rintro ⟨k, hk, t, t0, t1, e⟩
    have e1 := congrArg Prod.fst e
    unfold along at e1
    dsimp only at e1
    obtain ⟨n1, n2⟩ := hN k hk
    have : q.1 = (1 - t) * k.1.1 + t * k.2.1 := by rw [e1]; ring
    nlinarith [mul_nonneg t0 (sub_pos.2 n2).le, mul_nonneg (sub_nonneg.2 t1) (sub_pos.2 n1).le]
  obtain ⟨d, hd, hs⟩ := hR.built.all q hne hoff
  have far : ∀ l ∈ L :: A.cells.map Cell1.vertices, windingNumber l q = 0 := fun l hl =>
    winding_far l q fun v hv => (hM l hl v hv).trans hqM
  have wd : windingNumber L d.point = 0 := by
    rw [← hs L (ring_within hR hL)]
    exact far L List.mem_cons_self
  have hcd : c ≠ d := by
    rintro rfl
    exact hw wd
  have h1 := other_winding hR hm hc hd hcd
  rw [own_winding hR hc, if_neg hn, ← hs.winding (cell_ok' hR hc).sub, far _ (List.mem_cons_of_mem _ (List.mem_map_of_mem hc))] at h1
  omega

include hS

/-- There is one cell inside both rings, the one with the point. -/
theorem both_cell : ∃ b ∈ A.cells, SameFace A.net.halfEdges o b.point ∧ (∀ L ∈ [P, Q], windingNumber L b.point ≠ 0) ∧
    ∀ c ∈ A.cells, (∀ L ∈ [P, Q], windingNumber L c.point ≠ 0) → c = b := by
  have hne : A.net.halfEdges ≠ [] := by
    obtain ⟨x, ⟨e, he, hx⟩, -⟩ := hm
    obtain ⟨k, hk, -⟩ := (hR.on x).2 ⟨P, by simp, e, he, hx⟩
    exact List.ne_nil_of_mem hk
  obtain ⟨b, hb, hs⟩ := hR.built.all o hne (star_off hR hS)
  refine ⟨b, hb, hs, fun L hL => ?_, fun c hc hw => ?_⟩
  · rw [← hs L (ring_within hR hL)]
    have := loop_around (hS L hL).ne (hS L hL).right
    omega
  · by_contra hcb
    have h1 := other_winding hR hm hc hb hcb
    have h2 := loop_around (cell_ok' hR hc).ne fun e he => both_edge hR hS hc hw he
    rw [own_winding hR hc, ← hs.winding (cell_ok' hR hc).sub] at h1
    split_ifs at h1 <;> omega

omit hm in
/-- Of two neighbouring cells inside rings one is inside both rings. -/
theorem adjacent_both {c d : Cell1} (hc : c ∈ A.cells) (hd : d ∈ A.cells) (ic : ∃ L ∈ [P, Q], windingNumber L c.point ≠ 0)
    (id : ∃ L ∈ [P, Q], windingNumber L d.point ≠ 0) {u v : Pt} (he : (u, v) ∈ polyEdges c.vertices)
    (hf : (v, u) ∈ polyEdges d.vertices) : (∀ L ∈ [P, Q], windingNumber L c.point ≠ 0) ∨ ∀ L ∈ [P, Q], windingNumber L d.point ≠ 0 := by
  have key : ∀ {c d : Cell1}, c ∈ A.cells → d ∈ A.cells → (∃ L ∈ [P, Q], windingNumber L d.point ≠ 0) → ∀ {u v : Pt},
      (u, v) ∈ polyEdges c.vertices → (v, u) ∈ polyEdges d.vertices → ∀ L ∈ [P, Q], Al A L u v →
      ∀ M ∈ [P, Q], windingNumber M c.point ≠ 0 := by
    intro c d hc hd id u v he hf L hL al M hM
    have w1 := (cell_in hR hS hL hc he).1 al
    have w2 := (cell_in hR hS hL hd hf).2 al
    by_cases hML : M = L
    · subst hML; omega
    · obtain ⟨M', hM', hw⟩ := id
      have : M' = M := by
        have h0 : M' ≠ L := by rintro rfl; exact hw w2
        simp only [List.mem_cons, List.not_mem_nil, or_false] at hL hM hM'
        rcases hL with rfl | rfl <;> rcases hM with rfl | rfl <;> rcases hM' with rfl | rfl <;> simp_all
      subst this
      by_cases a1 : Al A M' u v
      · have := (cell_in hR hS hM hc he).1 a1; omega
      · rw [cell_across hR hM hc hd he hf a1 fun a2 => al_oneway hS hL hM al a2]
        exact hw
  obtain ⟨L, hL, al | al⟩ := al_exists hR ((cell_ok' hR hc).sub _ he)
  · exact Or.inl (key hc hd id he hf L hL al)
  · exact Or.inr (key hd hc ic hf he L hL al)

omit hR hS hm in
theorem orient_at (u v p : Pt) : orient u v p = cross (v - u) (p - u) := by
  unfold orient cross
  simp only [Prod.fst_sub, Prod.snd_sub]

omit hR hS hm in
theorem of_two {P Q L M K : List Pt} (hL : L ∈ [P, Q]) (hM : M ∈ [P, Q]) (hK : K ∈ [P, Q]) (h1 : M ≠ L) (h2 : K ≠ L) : K = M := by
  simp only [List.mem_cons, List.not_mem_nil, or_false] at hL hM hK
  rcases hL with rfl | rfl <;> rcases hM with rfl | rfl <;> rcases hK with rfl | rfl <;> first | rfl | exact absurd rfl h1 | exact absurd rfl h2

omit hR hS hm in
/-- The edges of the border of cells wind as often as the cells together. -/
theorem border_winding {F : List (List Pt)} (h : (allEdges F).Nodup) (p : Pt) :
    ((border F).map fun e => crossing p e.1 e.2).sum = (F.map fun c => windingNumber c p).sum := by
  have h1 := border_sum (fun x hx => by omega) (fun e : Pt × Pt => crossing p e.1 e.2) (by
    intro e
    have ho : orient e.2 e.1 p = - orient e.1 e.2 p := by simp only [orient]; ring
    simp only [crossing, opp, ho, Left.neg_pos_iff, Left.neg_neg_iff]
    split_ifs <;> first | rfl | (exfalso; rename_i h1 h2; linarith [h1.1, h1.2.1, h2.1, h2.2.1])) h
  rw [h1]
  clear h1 h
  induction F with
  | nil => simp [allEdges]
  | cons c cs ih =>
    rw [List.map_cons, List.sum_cons, ← ih]
    simp only [allEdges, List.flatMap_cons, List.map_append, List.sum_append, windingNumber]

omit hR hS hm in
theorem sum_one (b : List Pt) (l : List (List Pt)) : (l.map fun c => if c = b then (-1 : ℤ) else 0).sum = -(l.count b : ℤ) := by
  induction l with
  | nil => simp
  | cons x l ih =>
    rw [List.map_cons, List.sum_cons, ih, List.count_cons]
    by_cases h : x = b <;> simp [h]

omit hR hS hm in
/-- Parallel half-edges on the same side of a line through their start go the same way. -/
theorem same_way {u v w z : Pt} (σ : ℚ) (h0 : cross (v - u) (w - u) = 0) (h1 : 0 < σ * cross (v - u) z)
    (h2 : 0 < σ * cross (w - u) z) : SameWay u v w := by
  have key : ∀ v w : Pt, cross (v - u) (w - u) = 0 → 0 < σ * cross (v - u) z → 0 < σ * cross (w - u) z →
      σ * cross (w - u) z ≤ σ * cross (v - u) z → OnSeg (u, v) w := by
    intro v w h0 h1 h2 h
    refine ⟨σ * cross (w - u) z / (σ * cross (v - u) z), (div_pos h2 h1).le, (div_le_one h1).2 h, ?_⟩
    have e1 : cross (w - u) z * (v.1 - u.1) = cross (v - u) z * (w.1 - u.1) := by
      unfold cross at h0 ⊢
      simp only [Prod.fst_sub, Prod.snd_sub] at h0 ⊢
      linear_combination (-z.1) * h0
    have e2 : cross (w - u) z * (v.2 - u.2) = cross (v - u) z * (w.2 - u.2) := by
      unfold cross at h0 ⊢
      simp only [Prod.fst_sub, Prod.snd_sub] at h0 ⊢
      linear_combination (-z.2) * h0
    unfold along
    refine Prod.ext ?_ ?_ <;> dsimp only
    · rw [div_mul_eq_mul_div, ← sub_eq_iff_eq_add', eq_div_iff h1.ne']
      linear_combination (-σ) * e1
    · rw [div_mul_eq_mul_div, ← sub_eq_iff_eq_add', eq_div_iff h1.ne']
      linear_combination (-σ) * e2
  rcases le_total (σ * cross (w - u) z) (σ * cross (v - u) z) with h | h
  · exact Or.inl (key v w h0 h1 h2 h)
  · refine Or.inr (key w v ?_ h2 h1 h)
    unfold cross at h0 ⊢
    linear_combination -h0

omit hS in
/-- Two cells one point sees are one cell. -/
theorem seen_cell {e f : Seg} {q : Pt} (s1 : Sees A.net.halfEdges e q) (s2 : Sees A.net.halfEdges f q) {c : Cell1} (hc : c ∈ A.cells)
    (he : e ∈ polyEdges c.vertices) (hf : f ∈ A.net.halfEdges) : f ∈ polyEdges c.vertices := by
  obtain ⟨d, hd, hfd⟩ := hR.built.every f hf
  obtain ⟨p, hp, hs⟩ := hR.built.sees c hc e he
  obtain ⟨p', hp', hs'⟩ := hR.built.sees d hd f hfd
  have e1 := sees_same hR.built.planar ((cell_ok' hR hc).sub _ he) hp s1
  have e2 := sees_same hR.built.planar hf s2 hp'
  rw [face_cell hR hm hc hd (hs.symm.trans (e1.trans (e2.trans hs')))]
  exact hfd

/-- Where two half-edges along the rings start, the cell of one has the reverse of the other. -/
theorem fork_out {L M : List Pt} (hL : L ∈ [P, Q]) (hM : M ∈ [P, Q]) {u v w : Pt} (h1 : Al A L u v) (h2 : Al A M u w) (hvw : v ≠ w) :
    (∀ c ∈ A.cells, (u, v) ∈ polyEdges c.vertices → (w, u) ∈ polyEdges c.vertices) ∨
    (∀ c ∈ A.cells, (u, w) ∈ polyEdges c.vertices → (v, u) ∈ polyEdges c.vertices) := by
  have hP := hR.built.planar
  have r : ∀ {L : List Pt}, L ∈ [P, Q] → ∀ {v : Pt}, Al A L u v → 0 < -1 * cross (v - u) (o - u) := by
    intro L hL v h
    have := al_right hS hL h
    rw [orient_at] at this
    linarith
  have hk : ∀ x, (u, x) ∈ A.net.halfEdges → x = v ∨ x = w ∨ -1 * cross (x - u) (o - u) < 0 := by
    intro x hx
    obtain ⟨R, hR', h | h⟩ := al_exists hR hx
    · have hLM : L ≠ M := by
        rintro rfl
        exact hvw (al_out hR hL h1 h2)
      have : R = L ∨ R = M := by
        by_cases hRL : R = L
        · exact Or.inl hRL
        · exact Or.inr (of_two hL hM hR' (Ne.symm hLM) hRL)
      rcases this with rfl | rfl
      · exact Or.inl (al_out hR hR' h h1)
      · exact Or.inr (Or.inl (al_out hR hR' h h2))
    · have : orient _ _ o < 0 := al_right hS hR' h
      dsimp only at this
      rw [orient_swap, orient_at] at this
      exact Or.inr (Or.inr (by linarith))
  have a1 := r hL h1
  have a2 := r hM h2
  rcases lt_trichotomy (cross (v - u) (w - u)) 0 with hc | hc | hc
  · obtain ⟨q, s1, s2⟩ := sector hP (-1) h1.1 h2.1 hc a1 a2 hk
    exact Or.inl fun c hc he => seen_cell hR hm s1 s2 hc he (hP.rev _ h2.1)
  · exact absurd (sameWay_eq hP h1.1 h2.1 (same_way (-1) hc a1 a2)) hvw
  · obtain ⟨q, s1, s2⟩ := sector hP (-1) h2.1 h1.1 (by unfold cross at hc ⊢; linarith) a2 a1 fun x hx => by
      rcases hk x hx with h | h | h
      · exact Or.inr (Or.inl h)
      · exact Or.inl h
      · exact Or.inr (Or.inr h)
    exact Or.inr fun c hc he => seen_cell hR hm s1 s2 hc he (hP.rev _ h1.1)

/-- Where two half-edges along the rings end, the cell of one has the reverse of the other. -/
theorem fork_inn {L M : List Pt} (hL : L ∈ [P, Q]) (hM : M ∈ [P, Q]) {u v w : Pt} (h1 : Al A L v u) (h2 : Al A M w u) (hvw : v ≠ w) :
    (∀ c ∈ A.cells, (w, u) ∈ polyEdges c.vertices → (u, v) ∈ polyEdges c.vertices) ∨
    (∀ c ∈ A.cells, (v, u) ∈ polyEdges c.vertices → (u, w) ∈ polyEdges c.vertices) := by
  have hP := hR.built.planar
  have r : ∀ {L : List Pt}, L ∈ [P, Q] → ∀ {v : Pt}, Al A L v u → 0 < 1 * cross (v - u) (o - u) := by
    intro L hL v h
    have := al_right hS hL h
    rw [orient_swap, orient_at] at this
    linarith
  have hk : ∀ x, (u, x) ∈ A.net.halfEdges → x = v ∨ x = w ∨ 1 * cross (x - u) (o - u) < 0 := by
    intro x hx
    obtain ⟨R, hR', h | h⟩ := al_exists hR hx
    · have : orient _ _ o < 0 := al_right hS hR' h
      dsimp only at this
      rw [orient_at] at this
      exact Or.inr (Or.inr (by linarith))
    · have hLM : L ≠ M := by
        rintro rfl
        exact hvw (al_inn hR hL h1 h2)
      have : R = L ∨ R = M := by
        by_cases hRL : R = L
        · exact Or.inl hRL
        · exact Or.inr (of_two hL hM hR' (Ne.symm hLM) hRL)
      rcases this with rfl | rfl
      · exact Or.inl (al_inn hR hR' h h1)
      · exact Or.inr (Or.inl (al_inn hR hR' h h2))
  have a1 := r hL h1
  have a2 := r hM h2
  have m1 := hP.rev _ h1.1
  have m2 := hP.rev _ h2.1
  rcases lt_trichotomy (cross (v - u) (w - u)) 0 with hc | hc | hc
  · obtain ⟨q, s1, s2⟩ := sector hP 1 m1 m2 hc a1 a2 hk
    exact Or.inl fun c hc he => seen_cell hR hm s2 s1 hc he m1
  · exact absurd (sameWay_eq hP m1 m2 (same_way 1 hc a1 a2)) hvw
  · obtain ⟨q, s1, s2⟩ := sector hP 1 m2 m1 (by unfold cross at hc ⊢; linarith) a2 a1 fun x hx => by
      rcases hk x hx with h | h | h
      · exact Or.inr (Or.inl h)
      · exact Or.inl h
      · exact Or.inr (Or.inr h)
    exact Or.inr fun c hc he => seen_cell hR hm s2 s1 hc he m2

/-- The cells inside the rings fuse into loops without pinches, whichever of them are taken. -/
theorem stars_fusing (sel : Cell1 → Bool) (hsel : ∀ c ∈ A.cells, sel c = true → ∃ L ∈ [P, Q], windingNumber L c.point ≠ 0) :
    Fusing ((A.cells.filter sel).map Cell1.vertices) := by
  have hcell : ∀ c ∈ (A.cells.filter sel).map Cell1.vertices, ∃ d ∈ A.cells, sel d = true ∧ d.vertices = c := by
    intro c hc
    obtain ⟨d, hd, rfl⟩ := List.mem_map.1 hc
    obtain ⟨h1, h2⟩ := List.mem_filter.1 hd
    exact ⟨d, h1, h2, rfl⟩
  have hlist : ((A.cells.filter sel).map Cell1.vertices).Sublist (A.cells.map Cell1.vertices) := List.filter_sublist.map _
  have hnd := (allEdges_sublist hlist).nodup hR.built.nodup
  obtain ⟨b, hb, ho, hbb, honly⟩ := both_cell hR hS hm
  refine ⟨fun c hc => ?_, hlist.nodup hR.full.nodup, hnd, ?_, ?_⟩
  · obtain ⟨d, hd, -, rfl⟩ := hcell c hc
    exact (cell_ok' hR hd).ne
  · rintro c hc ⟨u, v, h1, h2⟩
    obtain ⟨d, hd, -, rfl⟩ := hcell c hc
    obtain ⟨L, hL, h | h⟩ := al_exists hR ((cell_ok' hR hd).sub _ h1)
    · have e1 := (cell_in hR hS hL hd h1).1 h
      have e2 := (cell_in hR hS hL hd h2).2 h
      omega
    · have e1 := (cell_in hR hS hL hd h1).2 h
      have e2 := (cell_in hR hS hL hd h2).1 h
      omega
  · intro F hlen hF hsub hlink
    have hbF : b.vertices ∈ F := by
      obtain ⟨x, y, l, rfl⟩ : ∃ x y l, F = x :: y :: l := by
        rcases F with _ | ⟨x, _ | ⟨y, l⟩⟩
        · simp at hlen
        · simp at hlen
        · exact ⟨x, y, l, rfl⟩
      have hxy : x ≠ y := by
        rintro rfl
        simp at hF
      rcases (hlink x (by simp) y (by simp)).cases_head with h | ⟨z, ⟨hx, hz, u, v, h1, h2⟩, -⟩
      · exact absurd h hxy
      · obtain ⟨c, hc, sc, rfl⟩ := hcell _ (hsub _ hx)
        obtain ⟨d, hd, sd, rfl⟩ := hcell _ (hsub _ hz)
        rcases adjacent_both hR hS hc hd (hsel c hc sc) (hsel d hd sd) h1 h2 with h | h
        · rw [← honly c hc h]; exact hx
        · rw [← honly d hd h]; exact hz
    have hFn : (allEdges F).Nodup := edges_sub_nodup hnd hF hsub
    have hbc : ∀ {u v : Pt}, (u, v) ∈ border F → (∃ c ∈ A.cells, sel c = true ∧ c.vertices ∈ F ∧ (u, v) ∈ polyEdges c.vertices) ∧
        ∀ c ∈ A.cells, c.vertices ∈ F → (v, u) ∉ polyEdges c.vertices := by
      intro u v h
      obtain ⟨h1, h2⟩ := mem_border.1 h
      obtain ⟨x, hx, h1⟩ := List.mem_flatMap.1 h1
      obtain ⟨c, hc, sc, rfl⟩ := hcell x (hsub x hx)
      exact ⟨⟨c, hc, sc, hx, h1⟩, fun d _ hd h => h2 (List.mem_flatMap.2 ⟨_, hd, h⟩)⟩
    have hal : ∀ {u v : Pt}, (u, v) ∈ border F → ∃ L ∈ [P, Q], Al A L u v := by
      intro u v h
      obtain ⟨⟨c, hc, sc, -, he⟩, hno⟩ := hbc h
      by_contra hcon
      push Not at hcon
      have huv := (cell_ok' hR hc).sub _ he
      obtain ⟨d, hd, hf⟩ := hR.built.every _ (hR.built.planar.rev _ huv)
      obtain ⟨L, hL, al | al⟩ := al_exists hR huv
      · exact hcon L hL al
      · obtain ⟨M, hM, hw⟩ := hsel c hc sc
        have hML : M ≠ L := by
          rintro rfl
          exact hw ((cell_in hR hS hL hc he).2 al)
        have : d = b := honly d hd fun K hK => by
          by_cases a1 : Al A K v u
          · have := (cell_in hR hS hK hd hf).1 a1; omega
          · have hKM : K = M := by
              have : K ≠ L := by
                rintro rfl
                exact a1 al
              exact of_two hL hM hK hML this
            subst hKM
            rw [← cell_across hR hK hc hd he hf (hcon K hK) a1]
            exact hw
        subst this
        exact hno d hd hbF hf
    have hsum : ((border F).map fun e => crossing o e.1 e.2).sum = -1 := by
      rw [border_winding hFn]
      have hv : ∀ c ∈ F, windingNumber c o = if c = b.vertices then -1 else 0 := by
        intro c hc
        obtain ⟨d, hd, sd, rfl⟩ := hcell c (hsub c hc)
        obtain ⟨L, hL, hw⟩ := hsel d hd sd
        have own := own_winding hR hd
        rw [if_pos (cell_pos hR hm hd hL hw)] at own
        rw [ho.winding (cell_ok' hR hd).sub]
        split_ifs with h
        · rw [← cell_eq hR.full hd hb h]; exact own
        · rw [other_winding hR hm hd hb fun e => h (by rw [e]), own]; rfl
      rw [List.map_congr_left hv]
      rw [sum_one, List.count_eq_one_of_mem hF hbF]
      rfl
    refine ⟨ring_around ?_ ?_ ?_ ?_ hsum, ?_⟩
    · intro u v w h1 h2
      by_contra hvw
      obtain ⟨⟨c, hc, -, cF, he⟩, hno⟩ := hbc h1
      obtain ⟨⟨c', hc', -, cF', he'⟩, hno'⟩ := hbc h2
      obtain ⟨L, hL, a1⟩ := hal h1
      obtain ⟨M, hM, a2⟩ := hal h2
      rcases fork_out hR hS hm hL hM a1 a2 hvw with h | h
      · exact hno' c hc cF (h c hc he)
      · exact hno c' hc' cF' (h c' hc' he')
    · intro u v w h1 h2
      by_contra hvw
      obtain ⟨⟨c, hc, -, cF, he⟩, hno⟩ := hbc h1
      obtain ⟨⟨c', hc', -, cF', he'⟩, hno'⟩ := hbc h2
      obtain ⟨L, hL, a1⟩ := hal h1
      obtain ⟨M, hM, a2⟩ := hal h2
      rcases fork_inn hR hS hm hL hM a1 a2 hvw with h | h
      · exact hno c' hc' cF' (h c' hc' he')
      · exact hno' c hc cF (h c hc he)
    · intro u v h
      obtain ⟨⟨c, hc, -, -, he⟩, -⟩ := hbc h
      exact border_on hFn (hR.built.planar.ne _ ((cell_ok' hR hc).sub _ he)) h
    · intro e he
      obtain ⟨L, hL, a⟩ := hal (u := e.1) (v := e.2) he
      exact al_right hS hL a
    · intro h
      rw [h] at hsum
      simp at hsum

end

end Ply.Arr
