import Verif.Props.OkSide

/-!
# single_fingers_random as a whole (C64, C65)
-/

namespace Ply

open MeasureTheory Geom1D Heu

variable {G : Type}

/-- On the joint with the sides `s0` and `s1` the stretches `A0` and `A1` are chosen in addition; all other
joints stay as they are. -/
structure JointEffect (sb sb' : SheetBuild G) (s0 s1 : InterSide) (A0 A1 : Set ℝ) : Prop where
  plex : sb'.sheetplex = sb.sheetplex
  base : Base1 sb'
  chosen : ∀ k, pts sb'.interChosen k = if k = s0.id then pts sb.interChosen k ∪ A0
    else if k = s1.id then pts sb.interChosen k ∪ A1 else pts sb.interChosen k
  ok : ∀ k, pts sb'.interOk k = if k = s0.id then pts sb.interOk k \ A1
    else if k = s1.id then pts sb.interOk k \ A0 else pts sb.interOk k

theorem JointEffect.refl {sb : SheetBuild G} (hb : Base1 sb) (s0 s1 : InterSide) :
    JointEffect sb sb s0 s1 ∅ ∅ :=
  ⟨rfl, hb, fun k => by simp, fun k => by simp⟩

theorem JointEffect.trans {sb sb' sb'' : SheetBuild G} {s0 s1 : InterSide} {A0 A1 B0 B1 : Set ℝ}
    (h1 : JointEffect sb sb' s0 s1 A0 A1) (h2 : JointEffect sb' sb'' s0 s1 B0 B1) :
    JointEffect sb sb'' s0 s1 (A0 ∪ B0) (A1 ∪ B1) := by
  refine ⟨h2.plex.trans h1.plex, h2.base, fun k => ?_, fun k => ?_⟩
  · rw [h2.chosen, h1.chosen]
    split_ifs <;> simp [Set.union_assoc]
  · rw [h2.ok, h1.ok]
    split_ifs <;> ext x <;> simp only [Set.mem_sdiff, Set.mem_union] <;> tauto

theorem chooseFingers_effect (o : G2Ops G) (sb sb' : SheetBuild G) (hb : Base1 sb) (s0 s1 : InterSide)
    (hj : Joint sb.sheetplex s0 s1) (c : ℕ × Geom1D) (hc : Made c.2) (h : chooseFingers o s0 s1 sb c = .ok sb') :
    JointEffect sb sb' s0 s1 (if c.1 = 0 then pointsOf c.2.intervals else ∅)
      (if c.1 = 0 then ∅ else pointsOf c.2.intervals) := by
  obtain ⟨hj', hne, _⟩ := hj.symm hb.paired
  unfold chooseFingers at h
  by_cases h0 : c.1 = 0
  · rw [if_pos h0] at h
    obtain ⟨s, t, ef⟩ := choose_effect o sb sb' hb.madeC hb.madeO s0.id c.2 hc false h
    have e1 := ef.here
    rw [hj.1] at e1
    cases e1
    have e2 := ef.opp
    rw [hj.2] at e2
    cases e2
    refine ⟨ef.plex, ⟨by rw [ef.plex]; exact hb.paired, ef.madeC, ef.madeO⟩, fun k => ?_, fun k => ?_⟩
    · rw [ef.chosen, if_pos h0, if_pos h0]
      split_ifs <;> simp
    · rw [ef.ok, if_pos h0, if_pos h0]
      split_ifs with h1 h2 h2
      · rw [h1] at h2
        exact absurd h2 hne
      · rfl
      · simp
      · rfl
  · rw [if_neg h0] at h
    obtain ⟨s, t, ef⟩ := choose_effect o sb sb' hb.madeC hb.madeO s1.id c.2 hc false h
    have e1 := ef.here
    rw [hj'.1] at e1
    cases e1
    have e2 := ef.opp
    rw [hj'.2] at e2
    cases e2
    refine ⟨ef.plex, ⟨by rw [ef.plex]; exact hb.paired, ef.madeC, ef.madeO⟩, fun k => ?_, fun k => ?_⟩
    · rw [ef.chosen, if_neg h0, if_neg h0]
      split_ifs with h1 h2 h2
      · rw [h1] at h2
        exact absurd h2 hne
      · rfl
      · simp
      · rfl
    · rw [ef.ok, if_neg h0, if_neg h0]
      split_ifs <;> simp

theorem asFraction_ok {e : Ext} {q : ℚ} (h : asFraction e = .ok q) : e = Ext.fin q := by
  unfold asFraction at h
  split at h
  · cases h
    rfl
  · cases h

/-- The choices for one stretch cover it exactly, without overlap. -/
theorem fingersAt_effect (o : G2Ops G) (draws : Ivl → Draws) (hd : ∀ i, (draws i).Valid) (minW maxW : ℚ)
    (h1 : 0 < minW) (h2 : 0 < maxW) (sb sb' : SheetBuild G) (hb : Base1 sb) (s0 s1 : InterSide)
    (hj : Joint sb.sheetplex s0 s1) (i : Ivl) (hi : i.1 < i.2)
    (h : fingersAt o draws minW maxW s0 s1 sb i = .ok sb') :
    ∃ A0 A1, JointEffect sb sb' s0 s1 A0 A1 ∧ A0 ∪ A1 = icoSet i.1 i.2 ∧ Disjoint A0 A1 := by
  unfold fingersAt at h
  rw [bind_ok] at h; obtain ⟨start, a1, h⟩ := h
  rw [bind_ok] at h; obtain ⟨stop, a2, h⟩ := h
  rw [bind_ok] at h; obtain ⟨ch0, a3, h⟩ := h
  rw [bind_ok] at h; obtain ⟨ch1, a4, h⟩ := h
  rw [bind_ok] at h; obtain ⟨cs, a5, h⟩ := h
  have e1 := asFraction_ok a1
  have e2 := asFraction_ok a2
  have hss : start < stop := by
    rw [e1, e2] at hi
    have := Ext.toE_lt.2 hi
    rw [Ext.toE_fin, Ext.toE_fin] at this
    exact_mod_cast this
  rw [e1, e2, icoSet_fin]
  obtain ⟨before, after, _, _, hcase⟩ := c48_split (draws i) (hd i) minW maxW h1 h2 ch0 ch1 (made_of_get hb.madeC a3)
    (made_of_get hb.madeC a4) start stop hss
  rcases hcase with ⟨g, g1, g2, g3, _⟩ | ⟨g0, g1, spans, lo, hi', k1, k2, k3, _, _, _, _, _, _, _, k4, k5⟩
  · rw [a5] at g1
    cases g1
    rw [fold, bind_ok] at h
    obtain ⟨sb1, b1, h⟩ := h
    cases h
    have ef := chooseFingers_effect o sb sb' hb s0 s1 hj (0, g) g2 b1
    exact ⟨_, _, ef, by simp [g3], by simp⟩
  · rw [a5] at k1
    cases k1
    rw [fold, bind_ok] at h
    obtain ⟨sb1, b1, h⟩ := h
    rw [fold, bind_ok] at h
    obtain ⟨sb2, b2, h⟩ := h
    cases h
    have ef := chooseFingers_effect o sb sb1 hb s0 s1 hj (0, g0) k2 b1
    have ef' := chooseFingers_effect o sb1 sb' ef.base s0 s1 (by rw [ef.plex]; exact hj) (1, g1) k3 b2
    refine ⟨_, _, ef.trans ef', ?_, ?_⟩
    · simpa using k5
    · simpa using k4

theorem stretches_effect (o : G2Ops G) (draws : Ivl → Draws) (hd : ∀ i, (draws i).Valid) (minW maxW : ℚ)
    (h1 : 0 < minW) (h2 : 0 < maxW) (s0 s1 : InterSide) : ∀ (l : List Ivl) (sb sb' : SheetBuild G), Base1 sb →
    Joint sb.sheetplex s0 s1 → NormalForm l → fold (fingersAt o draws minW maxW s0 s1) sb l = .ok sb' →
    ∃ A0 A1, JointEffect sb sb' s0 s1 A0 A1 ∧ A0 ∪ A1 = pointsOf l ∧ Disjoint A0 A1
  | [], sb, sb', hb, _, _, h => by
    cases h
    exact ⟨∅, ∅, JointEffect.refl hb s0 s1, by rw [pointsOf_nil, Set.union_empty], by simp⟩
  | i :: l, sb, sb', hb, hj, hn, h => by
    rw [fold, bind_ok] at h
    obtain ⟨sb1, b1, h⟩ := h
    obtain ⟨A0, A1, ef, ea, da⟩ := fingersAt_effect o draws hd minW maxW h1 h2 sb sb1 hb s0 s1 hj i (nf_head hn) b1
    obtain ⟨B0, B1, ef', eb, db⟩ := stretches_effect o draws hd minW maxW h1 h2 s0 s1 l sb1 sb' ef.base
      (by rw [ef.plex]; exact hj) (nf_tail hn) h
    have hdis : Disjoint (A0 ∪ A1) (B0 ∪ B1) := by
      rw [ea, eb, nf_tail_points hn]
      exact Set.disjoint_sdiff_right
    rw [Set.disjoint_union_left, Set.disjoint_union_right, Set.disjoint_union_right] at hdis
    refine ⟨A0 ∪ B0, A1 ∪ B1, ef.trans ef', ?_, ?_⟩
    · rw [pointsOf_cons, ← ea, ← eb]
      ext x
      simp only [Set.mem_union]
      tauto
    · rw [Set.disjoint_union_left, Set.disjoint_union_right, Set.disjoint_union_right]
      exact ⟨⟨da, hdis.1.2⟩, ⟨hdis.2.1.symm, db⟩⟩

/-- What is available on a side: allowed there and not chosen. -/
def available (sb : SheetBuild G) (s : InterSide) : Set ℝ := pts sb.interOk s.id \ pts sb.interChosen s.id

theorem fingersJoint_effect (o : G2Ops G) (draws : Name → Ivl → Draws) (hd : ∀ k i, (draws k i).Valid)
    (minW maxW : ℚ) (h1 : 0 < minW) (h2 : 0 < maxW) (sb sb' : SheetBuild G) (hb : Base1 sb)
    (e : Name × Intersection) (s0 s1 : InterSide) (he : e.2.sides = [s0, s1]) (hj : Joint sb.sheetplex s0 s1)
    (h : fingersJoint o draws minW maxW sb e = .ok sb') :
    volume (symmDiff (available sb s0) (available sb s1)) < ENNReal.ofReal (tol8 : ℝ) ∧
    ∃ A0 A1, JointEffect sb sb' s0 s1 A0 A1 ∧ A0 ∪ A1 = available sb s0 ∧ Disjoint A0 A1 := by
  unfold fingersJoint at h
  rw [he] at h
  dsimp only at h
  rw [bind_ok] at h; obtain ⟨ok0, a1, h⟩ := h
  rw [bind_ok] at h; obtain ⟨ok1, a2, h⟩ := h
  rw [bind_ok] at h; obtain ⟨ch0, a3, h⟩ := h
  rw [bind_ok] at h; obtain ⟨ch1, a4, h⟩ := h
  rw [bind_ok] at h; obtain ⟨a0, a5, h⟩ := h
  rw [bind_ok] at h; obtain ⟨a1', a6, h⟩ := h
  rw [bind_ok] at h; obtain ⟨x, a7, h⟩ := h
  rw [bind_ok] at h; obtain ⟨u, a8, h⟩ := h
  obtain ⟨m5, p5⟩ := sub_ok (made_of_get hb.madeO a1) (made_of_get hb.madeC a3) a5
  obtain ⟨m6, p6⟩ := sub_ok (made_of_get hb.madeO a2) (made_of_get hb.madeC a4) a6
  obtain ⟨x', x1, x2, x3⟩ := xor_denotes m5.nf m6.nf
  rw [a7] at x1
  cases x1
  have e0 : pointsOf a0.intervals = available sb s0 := by
    unfold available
    rw [p5, pts_of_get a1, pts_of_get a3]
  have e1 : pointsOf a1'.intervals = available sb s1 := by
    unfold available
    rw [p6, pts_of_get a2, pts_of_get a4]
  constructor
  · rw [assert_ok, measureLt_iff ((made_iff_nf _).2 x2), x3, e0, e1] at a8
    exact a8
  · obtain ⟨A0, A1, q1, q2, q3⟩ := stretches_effect o (draws e.1) (hd e.1) minW maxW h1 h2 s0 s1 _ sb sb' hb hj m5.nf h
    exact ⟨A0, A1, q1, by rw [q2, e0], q3⟩

/-- The two sides of an entry of the sheetplex are a joint. -/
theorem entry_joint (sp : SheetPlex) (hsp : sp.Paired) (e : Name × Intersection) (he : e ∈ sp.intersections) :
    ∃ s0 s1, e.2.sides = [s0, s1] ∧ Joint sp s0 s1 ∧ s0.id.1 = e.1 ∧ s1.id.1 = e.1 := by
  obtain ⟨_, s0, s1, h2, h3, _, h5, h6⟩ := hsp.2 e he
  have hg : sp.intersections.get e.1 = .ok e.2 := PMap.get_of_mem _ hsp.1 _ he
  obtain ⟨⟨t, o1, o2, o3, _⟩, o5, _⟩ := paired_opposite sp hsp e.1 e.2 s0 hg (by rw [h2]; simp)
  have ht : t = s1 := by
    rw [h2] at o2
    rcases List.mem_cons.1 o2 with rfl | o2
    · exact absurd rfl o3
    · simpa using o2
  subst ht
  refine ⟨s0, t, h2, ⟨o5, o1⟩, ?_, ?_⟩
  · rw [(h6 s0 (by simp)).2]
  · rw [(h6 t (by simp)).2]

/-- A joint has an entry in the sheetplex. -/
theorem joint_entry (sp : SheetPlex) (hsp : sp.Paired) (s t : InterSide) (hj : Joint sp s t) :
    ∃ e ∈ sp.intersections, ∃ s0 s1, e.2.sides = [s0, s1] ∧ ((s = s0 ∧ t = s1) ∨ (s = s1 ∧ t = s0)) := by
  obtain ⟨_, q2, _, _⟩ := paired_intersides _ hsp _ (List.Perm.refl _) []
  have hm := (q2 s).2 hj.1
  unfold intersides at hm
  obtain ⟨inter, hi, hs⟩ := List.mem_flatMap.1 hm
  obtain ⟨e, he, rfl⟩ := List.mem_map.1 hi
  obtain ⟨s0, s1, es, j01, _⟩ := entry_joint sp hsp e he
  refine ⟨e, he, s0, s1, es, ?_⟩
  have hs' := (List.mem_filter.1 hs).1
  rw [es] at hs'
  rcases List.mem_cons.1 hs' with rfl | hs'
  · exact Or.inl ⟨rfl, (hj.unique j01 rfl).2⟩
  · rw [List.mem_singleton] at hs'
    subst hs'
    exact Or.inr ⟨rfl, (hj.unique (j01.symm hsp).1 rfl).2⟩

/-- What `single_fingers_random` does with the joint of the sides `s0` and `s1`. -/
structure Decided (sb sb' : SheetBuild G) (s0 s1 : InterSide) (A0 A1 : Set ℝ) : Prop where
  close : volume (symmDiff (available sb s0) (available sb s1)) < ENNReal.ofReal (tol8 : ℝ)
  cover : A0 ∪ A1 = available sb s0
  once : Disjoint A0 A1
  chosen0 : pts sb'.interChosen s0.id = pts sb.interChosen s0.id ∪ A0
  chosen1 : pts sb'.interChosen s1.id = pts sb.interChosen s1.id ∪ A1
  ok0 : pts sb'.interOk s0.id = pts sb.interOk s0.id \ A1
  ok1 : pts sb'.interOk s1.id = pts sb.interOk s1.id \ A0

theorem joints_effect (o : G2Ops G) (draws : Name → Ivl → Draws) (hd : ∀ k i, (draws k i).Valid)
    (minW maxW : ℚ) (h1 : 0 < minW) (h2 : 0 < maxW) : ∀ (l : List (Name × Intersection)) (sb sb' : SheetBuild G),
    Base1 sb → (l.map Prod.fst).Nodup → (∀ e ∈ l, e ∈ sb.sheetplex.intersections) →
    fold (fingersJoint o draws minW maxW) sb l = .ok sb' →
    sb'.sheetplex = sb.sheetplex ∧ Base1 sb' ∧
    (∀ e ∈ l, ∀ s0 s1, e.2.sides = [s0, s1] → ∃ A0 A1, Decided sb sb' s0 s1 A0 A1) ∧
    (∀ k, k.1 ∉ l.map Prod.fst → pts sb'.interChosen k = pts sb.interChosen k ∧
      pts sb'.interOk k = pts sb.interOk k)
  | [], sb, sb', hb, _, _, h => by
    cases h
    exact ⟨rfl, hb, by simp, fun k _ => ⟨rfl, rfl⟩⟩
  | e :: l, sb, sb', hb, hn, hl, h => by
    rw [fold, bind_ok] at h
    obtain ⟨sb1, b1, h⟩ := h
    have hn' := List.nodup_cons.1 (show (e.1 :: l.map Prod.fst).Nodup from hn)
    obtain ⟨s0, s1, es, hj, k0, k1⟩ := entry_joint _ hb.paired e (hl e List.mem_cons_self)
    obtain ⟨_, hne, _⟩ := hj.symm hb.paired
    obtain ⟨cl, A0, A1, ef, ea, da⟩ := fingersJoint_effect o draws hd minW maxW h1 h2 sb sb1 hb e s0 s1 es hj b1
    obtain ⟨r1, r2, r3, r4⟩ := joints_effect o draws hd minW maxW h1 h2 l sb1 sb' ef.base hn'.2
      (fun x hx => by rw [ef.plex]; exact hl x (List.mem_cons_of_mem _ hx)) h
    refine ⟨r1.trans ef.plex, r2, ?_, ?_⟩
    · intro x hx t0 t1 hxs
      rcases List.mem_cons.1 hx with rfl | hx
      · rw [es] at hxs
        cases hxs
        obtain ⟨c0, d0⟩ := r4 s0.id (by rw [k0]; exact hn'.1)
        obtain ⟨c1, d1⟩ := r4 s1.id (by rw [k1]; exact hn'.1)
        refine ⟨A0, A1, cl, ea, da, ?_, ?_, ?_, ?_⟩
        · rw [c0, ef.chosen, if_pos rfl]
        · rw [c1, ef.chosen, if_neg hne, if_pos rfl]
        · rw [d0, ef.ok, if_pos rfl]
        · rw [d1, ef.ok, if_neg hne, if_pos rfl]
      · obtain ⟨u0, u1, eu, hu, m0, m1⟩ := entry_joint _ hb.paired x (hl x (List.mem_cons_of_mem _ hx))
        rw [hxs] at eu
        cases eu
        have hxe : x.1 ≠ e.1 := fun (q : x.1 = e.1) => hn'.1 (q ▸ List.mem_map_of_mem hx)
        have same : ∀ k : Name × Name, k.1 = x.1 → pts sb1.interChosen k = pts sb.interChosen k ∧
            pts sb1.interOk k = pts sb.interOk k := by
          intro k hk
          have n0 : k ≠ s0.id := fun (q : k = s0.id) => hxe (by rw [← hk, q, k0])
          have n1 : k ≠ s1.id := fun (q : k = s1.id) => hxe (by rw [← hk, q, k1])
          rw [ef.chosen, ef.ok, if_neg n0, if_neg n1, if_neg n0, if_neg n1]
          exact ⟨rfl, rfl⟩
        obtain ⟨c0, d0⟩ := same t0.id m0
        obtain ⟨c1, d1⟩ := same t1.id m1
        obtain ⟨B0, B1, D⟩ := r3 x hx t0 t1 hxs
        have a0 : available sb1 t0 = available sb t0 := by unfold available; rw [c0, d0]
        have a1 : available sb1 t1 = available sb t1 := by unfold available; rw [c1, d1]
        refine ⟨B0, B1, ?_, ?_, D.once, ?_, ?_, ?_, ?_⟩
        · rw [← a0, ← a1]; exact D.close
        · rw [← a0]; exact D.cover
        · rw [D.chosen0, c0]
        · rw [D.chosen1, c1]
        · rw [D.ok0, d0]
        · rw [D.ok1, d1]
    · intro k hk
      have hk' : k.1 ≠ e.1 ∧ k.1 ∉ l.map Prod.fst := by simpa using hk
      obtain ⟨c, d⟩ := r4 k hk'.2
      have n0 : k ≠ s0.id := fun (q : k = s0.id) => hk'.1 (by rw [q, k0])
      have n1 : k ≠ s1.id := fun (q : k = s1.id) => hk'.1 (by rw [q, k1])
      rw [c, d, ef.chosen, ef.ok, if_neg n0, if_neg n1, if_neg n0, if_neg n1]
      exact ⟨rfl, rfl⟩

/-- C65: `single_fingers_random` chooses every stretch still available on the first side of a joint for
exactly one of the two sides, takes it from what is allowed on the other, and changes nothing else. -/
theorem c65_effect (o : G2Ops G) (el : ℕ → Bool) (draws : Name → Ivl → Draws) (hd : ∀ k i, (draws k i).Valid)
    (minW maxW : ℚ) (h1 : 0 < minW) (h2 : 0 < maxW) (sb sb' : SheetBuild G) (hb : Base1 sb)
    (h : singleFingers o el draws minW maxW sb = .ok sb') :
    sb'.sheetplex = sb.sheetplex ∧ Base1 sb' ∧
    (∀ e ∈ sb.sheetplex.intersections, ∃ s0 s1 A0 A1, e.2.sides = [s0, s1] ∧ Decided sb sb' s0 s1 A0 A1) ∧
    (∀ k, k.1 ∉ sb.sheetplex.intersections.map Prod.fst → pts sb'.interChosen k = pts sb.interChosen k ∧
      pts sb'.interOk k = pts sb.interOk k) := by
  unfold singleFingers at h
  rw [bind_ok] at h
  obtain ⟨u, _, h⟩ := h
  obtain ⟨r1, r2, r3, r4⟩ := joints_effect o draws hd minW maxW h1 h2 _ sb sb' hb hb.paired.1 (fun _ he => he) h
  refine ⟨r1, r2, fun e he => ?_, r4⟩
  obtain ⟨s0, s1, es, _⟩ := entry_joint _ hb.paired e he
  obtain ⟨A0, A1, D⟩ := r3 e he s0 s1 es
  exact ⟨s0, s1, A0, A1, es, D⟩

/-- C65: afterwards whatever is allowed on the first side of a joint is chosen there, and the length of
what is allowed on the second side but not chosen there is below 1e-8. -/
theorem c65_decided (o : G2Ops G) (el : ℕ → Bool) (draws : Name → Ivl → Draws) (hd : ∀ k i, (draws k i).Valid)
    (minW maxW : ℚ) (h1 : 0 < minW) (h2 : 0 < maxW) (sb sb' : SheetBuild G) (hb : Base1 sb)
    (h : singleFingers o el draws minW maxW sb = .ok sb') (e : Name × Intersection)
    (he : e ∈ sb.sheetplex.intersections) (s0 s1 : InterSide) (hs : e.2.sides = [s0, s1]) :
    pts sb'.interOk s0.id ⊆ pts sb'.interChosen s0.id ∧
    volume (pts sb'.interOk s1.id \ pts sb'.interChosen s1.id) < ENNReal.ofReal (tol8 : ℝ) ∧
    (available sb s0 = available sb s1 → pts sb'.interOk s1.id ⊆ pts sb'.interChosen s1.id) := by
  obtain ⟨_, _, h3, _⟩ := c65_effect o el draws hd minW maxW h1 h2 sb sb' hb h
  obtain ⟨t0, t1, A0, A1, et, D⟩ := h3 e he
  rw [hs] at et
  cases et
  have cov : ∀ x, x ∈ A0 ∨ x ∈ A1 ↔ x ∈ pts sb.interOk s0.id ∧ x ∉ pts sb.interChosen s0.id := by
    intro x
    have := D.cover
    unfold available at this
    rw [← Set.mem_union, this, Set.mem_sdiff]
  have out : pts sb'.interOk s1.id \ pts sb'.interChosen s1.id ⊆
      available sb s1 \ available sb s0 := by
    rw [D.ok1, D.chosen1]
    intro x hx
    have := cov x
    simp only [available, Set.mem_sdiff, Set.mem_union] at hx ⊢
    tauto
  refine ⟨?_, ?_, ?_⟩
  · rw [D.ok0, D.chosen0]
    intro x hx
    have := cov x
    simp only [Set.mem_sdiff, Set.mem_union] at hx ⊢
    tauto
  · refine lt_of_le_of_lt (measure_mono (out.trans ?_)) D.close
    intro x hx
    exact Or.inr hx
  · intro hq
    rw [← Set.sdiff_eq_empty]
    rw [hq, sdiff_self] at out
    exact Set.subset_empty_iff.1 out

/-- C64: after `choose_the_ok_side` the same stretches are available on both sides of a joint, and still
nothing chosen on one side is allowed on the other. -/
theorem c64_same (o : G2Ops G) (el : ℕ → Bool) (sb sb' : SheetBuild G) (hb : Base1 sb)
    (hx : ∀ s t, Joint sb.sheetplex s t → pts sb.interChosen s.id ∩ pts sb.interOk t.id = ∅)
    (h : chooseOkSide o el sb = .ok sb') (s t : InterSide) (hj : Joint sb.sheetplex s t) :
    available sb' s = available sb' t ∧ pts sb'.interChosen s.id ∩ pts sb'.interOk t.id = ∅ := by
  obtain ⟨_, _, h3⟩ := c51_effect o el sb sb' hb h
  have key : ∀ s t, Joint sb.sheetplex s t → pts sb'.interChosen s.id ∩ pts sb'.interOk t.id = ∅ := by
    intro s t hj
    rw [(h3 s t hj).1, (h3 t s (hj.symm hb.paired).1).2, Set.eq_empty_iff_forall_notMem]
    rintro x ⟨x1 | x1, x2⟩
    · exact Set.eq_empty_iff_forall_notMem.1 (hx s t hj) x ⟨x1, x2.1⟩
    · exact (broad_subset _ x1).1.2 x2.1
  have sub : ∀ s t, Joint sb.sheetplex s t → available sb' s ⊆ available sb' t := by
    intro s t hj x x1
    have n1 := Set.eq_empty_iff_forall_notMem.1 (c51_nothing_left o el sb sb' hb h s t hj).1 x
    have n2 := Set.eq_empty_iff_forall_notMem.1 (key t s (hj.symm hb.paired).1) x
    have d1 : x ∈ onlyHere sb' s t ↔ ((x ∈ pts sb'.interOk s.id ∧ x ∉ pts sb'.interChosen s.id) ∧
      x ∉ pts sb'.interOk t.id) ∧ x ∉ pts sb'.interChosen t.id := Iff.rfl
    simp only [available, Set.mem_sdiff, Set.mem_inter_iff] at x1 n2 ⊢
    tauto
  exact ⟨Set.Subset.antisymm (sub s t hj) (sub t s (hj.symm hb.paired).1), key s t hj⟩

theorem finite_ivl (i : Ivl) (hi : i.1 < i.2) (hb : volume (icoSet i.1 i.2) ≠ ⊤) :
    ∃ p q : ℚ, i = (Ext.fin p, Ext.fin q) ∧ p < q := by
  obtain ⟨w, w1, _, w3⟩ := pySub_measure hi
  have hfin : w ≠ ⊤ := by
    rintro rfl
    have : volume (icoSet i.1 i.2) = ⊤ := by simpa using w3.symm
    exact hb this
  rcases Ext.cases3 i.1 with e | e | ⟨p, e⟩
  · exfalso
    rw [e] at w1
    apply hfin
    rcases Ext.cases3 i.2 with e' | e' | ⟨q, e'⟩ <;> rw [e'] at w1
    · rw [e, e'] at hi; exact absurd hi (lt_irrefl _)
    · exact (Option.some.inj w1).symm
    · exact (Option.some.inj w1).symm
  · rw [e] at hi
    exact absurd hi (by simp)
  · rcases Ext.cases3 i.2 with e' | e' | ⟨q, e'⟩
    · rw [e'] at hi; exact absurd hi (by simp)
    · rw [e, e'] at w1
      exact absurd (Option.some.inj w1).symm hfin
    · rw [e, e'] at hi
      exact ⟨p, q, Prod.ext e e', Ext.fin_lt_fin.1 hi⟩

theorem bounded_ivl (i : Ivl) (hi : i.1 < i.2) (hb : Bornology.IsBounded (icoSet i.1 i.2)) :
    ∃ p q : ℚ, i = (Ext.fin p, Ext.fin q) ∧ p < q := finite_ivl i hi hb.measure_lt_top.ne

/-- C64: when the same bounded stretches are available on both sides, `single_fingers_random` passes its
assertion on the joint and goes on to the stretches, which have rational end points. -/
theorem c64_passes (o : G2Ops G) (draws : Name → Ivl → Draws) (minW maxW : ℚ) (sb : SheetBuild G) (hb : Base1 sb)
    (hf : Full sb) (e : Name × Intersection) (s0 s1 : InterSide) (he : e.2.sides = [s0, s1])
    (hj : Joint sb.sheetplex s0 s1) (ha : available sb s0 = available sb s1)
    (hbd : Bornology.IsBounded (pts sb.interOk s0.id)) :
    ∃ a : Geom1D, Made a ∧ pointsOf a.intervals = available sb s0 ∧
      (∀ i ∈ a.intervals, ∃ p q : ℚ, i = (Ext.fin p, Ext.fin q) ∧ p < q) ∧
      fingersJoint o draws minW maxW sb e = fold (fingersAt o (draws e.1) minW maxW s0 s1) sb a.intervals := by
  have hjt := (hj.symm hb.paired).1
  obtain ⟨ok0, a1⟩ := hf.ok _ _ hj.1
  obtain ⟨ok1, a2⟩ := hf.ok _ _ hjt.1
  obtain ⟨ch0, a3⟩ := hf.chosen _ _ hj.1
  obtain ⟨ch1, a4⟩ := hf.chosen _ _ hjt.1
  rw [← PMap.get_ok] at a1 a2 a3 a4
  obtain ⟨x0, a5, n5, p5⟩ := sub_denotes (made_of_get hb.madeO a1).nf (made_of_get hb.madeC a3).nf
  obtain ⟨x1, a6, n6, p6⟩ := sub_denotes (made_of_get hb.madeO a2).nf (made_of_get hb.madeC a4).nf
  obtain ⟨x, a7, n7, p7⟩ := xor_denotes n5 n6
  have e0 : pointsOf x0.intervals = available sb s0 := by
    unfold available
    rw [p5, pts_of_get a1, pts_of_get a3]
  have e1 : pointsOf x1.intervals = available sb s1 := by
    unfold available
    rw [p6, pts_of_get a2, pts_of_get a4]
  have hm : measureLt x.measure1d tol8 = true := by
    rw [measureLt_iff ((made_iff_nf _).2 n7), p7, e0, e1, ha, symmDiff_self]
    rw [Set.bot_eq_empty, measure_empty, ENNReal.ofReal_pos]
    have : (0 : ℚ) < tol8 := by unfold tol8; norm_num
    exact_mod_cast this
  have m0 : Made x0 := (made_iff_nf _).2 n5
  refine ⟨x0, m0, e0, ?_, ?_⟩
  · intro i hi
    refine bounded_ivl i (n5.1 i hi) ((hbd.subset Set.sdiff_subset).subset (?_ : _ ⊆ available sb s0))
    rw [← e0]
    exact fun x hx => ⟨i, hi, hx⟩
  · unfold fingersJoint
    rw [he]
    dsimp only
    rw [a1, bind_okC, a2, bind_okC, a3, bind_okC, a4, bind_okC, a5, bind_okC, a6, bind_okC, a7, bind_okC, hm]
    rfl

/-- C64 and C65 together: after `choose_the_ok_side` and `single_fingers_random` every joint is decided:
whatever is still allowed on a side is chosen there, and whatever was allowed before the fingers were
made is chosen on one of the sides. -/
theorem c65_all (o : G2Ops G) (el el' : ℕ → Bool) (draws : Name → Ivl → Draws) (hd : ∀ k i, (draws k i).Valid)
    (minW maxW : ℚ) (h1 : 0 < minW) (h2 : 0 < maxW) (sb sb1 sb2 : SheetBuild G) (hb : Base1 sb)
    (hx : ∀ s t, Joint sb.sheetplex s t → pts sb.interChosen s.id ∩ pts sb.interOk t.id = ∅)
    (h : chooseOkSide o el sb = .ok sb1) (h' : singleFingers o el' draws minW maxW sb1 = .ok sb2)
    (s t : InterSide) (hj : Joint sb.sheetplex s t) :
    pts sb2.interOk s.id ⊆ pts sb2.interChosen s.id ∧
    pts sb1.interOk s.id ⊆ pts sb2.interChosen s.id ∪ pts sb2.interChosen t.id ∧
    pts sb2.interChosen s.id ∩ pts sb2.interChosen t.id = pts sb1.interChosen s.id ∩ pts sb1.interChosen t.id := by
  obtain ⟨p1, b1, _⟩ := c51_effect o el sb sb1 hb h
  obtain ⟨_, _, h3, _⟩ := c65_effect o el' draws hd minW maxW h1 h2 sb1 sb2 b1 h'
  obtain ⟨e, he, s0, s1, hs, hc⟩ := joint_entry _ hb.paired s t hj
  obtain ⟨t0, t1, A0, A1, hs', D⟩ := h3 e (by rw [p1]; exact he)
  rw [hs] at hs'
  cases hs'
  have hj01 : Joint sb.sheetplex s0 s1 := by
    rcases hc with ⟨rfl, rfl⟩ | ⟨rfl, rfl⟩
    · exact hj
    · exact (hj.symm hb.paired).1
  obtain ⟨same, _⟩ := c64_same o el sb sb1 hb hx h s0 s1 hj01
  obtain ⟨d0, _, d1⟩ := c65_decided o el' draws hd minW maxW h1 h2 sb1 sb2 b1 h' e (by rw [p1]; exact he) s0 s1 hs
  have cov : ∀ x, x ∈ A0 ∨ x ∈ A1 ↔ x ∈ pts sb1.interOk s0.id ∧ x ∉ pts sb1.interChosen s0.id := by
    intro x
    have := D.cover
    unfold available at this
    rw [← Set.mem_union, this, Set.mem_sdiff]
  have cov1 : ∀ x, x ∈ pts sb1.interOk s0.id ∧ x ∉ pts sb1.interChosen s0.id ↔
      x ∈ pts sb1.interOk s1.id ∧ x ∉ pts sb1.interChosen s1.id := by
    intro x
    have := Set.ext_iff.1 same x
    exact this
  have once : ∀ x, x ∈ A0 → x ∉ A1 := fun x h0 h1 => Set.disjoint_left.1 D.once h0 h1
  have r0 : pts sb1.interOk s0.id ⊆ pts sb2.interChosen s0.id ∪ pts sb2.interChosen s1.id := by
    rw [D.chosen0, D.chosen1]
    intro x hx
    have := cov x
    simp only [Set.mem_union]
    tauto
  have r1 : pts sb1.interOk s1.id ⊆ pts sb2.interChosen s1.id ∪ pts sb2.interChosen s0.id := by
    rw [D.chosen0, D.chosen1]
    intro x hx
    have := cov x
    have := cov1 x
    simp only [Set.mem_union]
    tauto
  have r2 : pts sb2.interChosen s0.id ∩ pts sb2.interChosen s1.id =
      pts sb1.interChosen s0.id ∩ pts sb1.interChosen s1.id := by
    rw [D.chosen0, D.chosen1]
    ext x
    constructor
    · rintro ⟨a | a, b | b⟩
      · exact ⟨a, b⟩
      · exact absurd a ((cov x).1 (Or.inr b)).2
      · exact absurd b ((cov1 x).1 ((cov x).1 (Or.inl a))).2
      · exact absurd b (once x a)
    · exact fun h => ⟨Or.inl h.1, Or.inl h.2⟩
  rcases hc with ⟨rfl, rfl⟩ | ⟨rfl, rfl⟩
  · exact ⟨d0, r0, r2⟩
  · exact ⟨d1 same, r1, by rw [Set.inter_comm, r2, Set.inter_comm]⟩

theorem build2_available (s : InterSide) (hs : s = side2 0 ∨ s = side2 1) :
    available build2 s = {x | (0 : ℝ) ≤ x ∧ x < 10} := by
  have h1 : pts build2.interOk s.id = pointsOf (ivl 0 10).intervals := by rcases hs with rfl | rfl <;> rfl
  have h2 : pts build2.interChosen s.id = pointsOf [] := by rcases hs with rfl | rfl <;> rfl
  unfold available
  rw [h1, h2, pointsOf_nil, Set.sdiff_empty, ivl_points]
  simp

/-- With fingers between 1 and 2 on a stretch of 10, nothing is left open. -/
example : ∃ sb', singleFingers lineOps (fun _ => true) (fun _ _ => lowDraws) 1 2 build2 = .ok sb' ∧
    pts sb'.interOk id0 ⊆ pts sb'.interChosen id0 := by
  have hj : Joint build2.sheetplex (side2 0) (side2 1) := ⟨rfl, rfl⟩
  have key : ∃ sb', singleFingers lineOps (fun _ => true) (fun _ _ => lowDraws) 1 2 build2 = .ok sb' := by
    obtain ⟨a, a1, a2, _, a4⟩ := c64_passes lineOps (fun _ _ => lowDraws) 1 2 build2 build2_good.base build2_full
      ("s0,s2".toList, ⟨"s0,s2".toList, [side2 0, side2 1]⟩) (side2 0) (side2 1) rfl hj
      (by rw [build2_available _ (Or.inl rfl), build2_available _ (Or.inr rfl)])
      (ivl_valid 0 10 (by norm_num)).bounded
    have hai : a = ivl 0 10 := c03_canonical a (ivl 0 10) a1 (ivl_valid 0 10 (by norm_num)).1
      (fun x => by rw [a2, build2_available _ (Or.inl rfl), ivl_points]; simp)
    subst hai
    have g1 : build2.interChosen.get (side2 0).id = .ok ⟨[]⟩ := rfl
    have g2 : build2.interChosen.get (side2 1).id = .ok ⟨[]⟩ := rfl
    obtain ⟨b, c, _, _, hsp⟩ := c48_split lowDraws lowDraws_valid 1 2 (by norm_num) (by norm_num) ⟨[]⟩ ⟨[]⟩
      (made_of_get build2_good.madeC g1) (made_of_get build2_good.madeC g2) 0 10 (by norm_num)
    have hlast : ∀ sb' : SheetBuild Geom1D, fold (fingersAt lineOps (fun _ => lowDraws) 1 2 (side2 0) (side2 1)) build2
        (ivl 0 10).intervals = .ok sb' →
        singleFingers lineOps (fun _ => true) (fun _ _ => lowDraws) 1 2 build2 = .ok sb' := by
      intro sb' h
      unfold singleFingers
      rw [show build2.sheetplex.intersections = _ from plex2_inter,
        show checkAt lineOps (fun _ => true) 0 build2 = .ok () from rfl, bind_okC, fold, a4, h]
      rfl
    have hfold : ∀ cs, stretchFingers lowDraws 1 2 ⟨[]⟩ ⟨[]⟩ 0 10 = .ok cs →
        fold (fingersAt lineOps (fun _ => lowDraws) 1 2 (side2 0) (side2 1)) build2 (ivl 0 10).intervals =
          fold (chooseFingers lineOps (side2 0) (side2 1)) build2 cs := by
      intro cs h
      unfold ivl
      rw [fold]
      unfold fingersAt
      rw [show asFraction (Ext.fin 0) = .ok 0 from rfl, show asFraction (Ext.fin 10) = .ok 10 from rfl, bind_okC, bind_okC, g1, g2, bind_okC, bind_okC, h, bind_okC]
      cases fold (chooseFingers lineOps (side2 0) (side2 1)) build2 cs <;> rfl
    have hok : ∀ g : Geom1D, pointsOf g.intervals ⊆ {x | ((0 : ℚ) : ℝ) ≤ x ∧ x < ((10 : ℚ) : ℝ)} → Made g →
        g.isBounded = true ∧ volume (pointsOf g.intervals \ pts build2.interOk id0) < ENNReal.ofReal (tol6 : ℝ) ∧
        pointsOf g.intervals ⊆ pts build2.interOk id2 := by
      intro g hg hm
      have h1 : pts build2.interOk id0 = pointsOf (ivl 0 10).intervals := rfl
      have h2 : pts build2.interOk id2 = pointsOf (ivl 0 10).intervals := rfl
      rw [h1, h2, ivl_points, Set.sdiff_eq_empty.2 hg, measure_empty]
      exact ⟨(c10_isBounded g hm).2 ((Metric.isBounded_Ico _ _).subset hg), tol6_pos, hg⟩
    have hfirst : ∀ g : Geom1D, pointsOf g.intervals ⊆ {x | ((0 : ℚ) : ℝ) ≤ x ∧ x < ((10 : ℚ) : ℝ)} → Made g →
        ∃ sb1, build2.chooseInterside lineOps id0 g false = .ok sb1 := by
      intro g hg hm
      obtain ⟨k1, k2, _⟩ := hok g hg hm
      refine c62_accept line_lawful line_area line_total build2 build2_good build2_full id0 (side2 0) (side2 1) rfl rfl
        g hm k1 k2 (fun F _ => ?_) false
      have : dens (fun g => pointsOf g.intervals) build2.sheetChosen (side2 1).sheet = pointsOf [] := rfl
      rw [this, pointsOf_nil, Set.inter_empty, measure_empty]
      exact tol6_pos
    rcases hsp with ⟨g, s1, s2, s3, _⟩ | ⟨g0, g1, spans, lo, hi, s1, s2, s3, _, _, _, _, _, _, _, s4, s5⟩
    · obtain ⟨sb1, h1⟩ := hfirst g s3.le s2
      refine ⟨sb1, hlast sb1 ?_⟩
      rw [hfold _ s1]
      show (build2.chooseInterside lineOps id0 g false >>= fun x => .ok x) = _
      rw [h1]
      rfl
    · have q0 : pointsOf g0.intervals ⊆ {x | ((0 : ℚ) : ℝ) ≤ x ∧ x < ((10 : ℚ) : ℝ)} :=
        Set.subset_union_left.trans s5.le
      have q1 : pointsOf g1.intervals ⊆ {x | ((0 : ℚ) : ℝ) ≤ x ∧ x < ((10 : ℚ) : ℝ)} :=
        Set.subset_union_right.trans s5.le
      obtain ⟨sb1, h1⟩ := hfirst g0 q0 s2
      obtain ⟨gd, pl, _⟩ := op_2d line_lawful build2 sb1 build2_good (.choose id0 g0 false) s2 s2 h1
      have f1 := Full.run lineOps build2 sb1 plex2_paired build2_good.madeC build2_good.madeO build2_full
        (.choose id0 g0 false) s2 h1
      obtain ⟨u0, u1, ef⟩ := choose_effect lineOps build2 sb1 build2_good.madeC build2_good.madeO id0 g0 s2 false h1
      have e1 := ef.here
      rw [show build2.sheetplex.interside id0 = .ok (side2 0) from rfl] at e1
      cases e1
      have e2 := ef.opp
      rw [show (side2 0).opposite build2.sheetplex = .ok (side2 1) from rfl] at e2
      cases e2
      have hch : dens (fun g => pointsOf g.intervals) sb1.sheetChosen (side2 0).sheet ⊆ pointsOf g0.intervals := by
        rcases ef.sheetChosen with ⟨h, _⟩ | ⟨f, k, fk, w1, w2, w3, w4⟩
        · cases h
        · have hf : LineValid f := line_lawful.fingers _ _ _ s2 w1
          have hfe : f = g0 := by
            have : (if g0.isBounded then .ok g0 else .error .assertion : Except PyErr Geom1D) = .ok f := w1
            split_ifs at this
            cases this
            rfl
          obtain ⟨v1, v2⟩ := line_lawful.and f k fk hf (build2_good.validO _ _ w2) w3
          obtain ⟨_, v3, _⟩ := orGeom_2d line_lawful build2.sheetChosen sb1.sheetChosen build2_good.validC _ fk v1 w4
          intro x hx
          have y1 := (Filter.eventually_top.1 v3 x).1 hx
          have : dens (fun g => pointsOf g.intervals) build2.sheetChosen (side2 0).sheet = pointsOf [] := rfl
          rw [this, pointsOf_nil] at y1
          have y2 := (Filter.eventually_top.1 v2 x).1 (y1.resolve_left fun h => h)
          rw [hfe] at y2
          exact y2.1
      obtain ⟨k1, _, k3⟩ := hok g1 q1 s3
      obtain ⟨sb2, h2⟩ := c62_accept line_lawful line_area line_total sb1 gd f1 id2 (side2 1) (side2 0)
        (by rw [pl]; rfl) (by rw [pl]; rfl) g1 s3 k1 (by
          have hsub : pointsOf g1.intervals ⊆ pts build2.interOk id2 \ pointsOf g0.intervals :=
            fun x hx => ⟨k3 hx, fun hx0 => Set.disjoint_left.1 s4 hx0 hx⟩
          rw [ef.ok, if_pos (show id2 = (side2 1).id from rfl), Set.sdiff_eq_empty.2 hsub, measure_empty]
          exact tol6_pos) (fun F hF => by
          have hfe : F = g1 := by
            have : (if g1.isBounded then .ok g1 else .error .assertion : Except PyErr Geom1D) = .ok F := hF
            split_ifs at this
            cases this
            rfl
          rw [hfe]
          have : pointsOf g1.intervals ∩ dens (fun g => pointsOf g.intervals) sb1.sheetChosen (side2 0).sheet = ∅ :=
            Set.eq_empty_iff_forall_notMem.2 fun x hx => Set.disjoint_left.1 s4 (hch hx.2) hx.1
          rw [this, measure_empty]
          exact tol6_pos) false
      refine ⟨sb2, hlast sb2 ?_⟩
      rw [hfold _ s1]
      show (build2.chooseInterside lineOps id0 g0 false >>= fun x =>
        (x.chooseInterside lineOps id2 g1 false >>= fun y => .ok y)) = _
      rw [h1, bind_okC, h2]
      rfl
  obtain ⟨sb', h⟩ := key
  exact ⟨sb', h, (c65_decided lineOps _ _ (fun _ _ => lowDraws_valid) 1 2 (by norm_num) (by norm_num) build2 sb'
    build2_good.base h ("s0,s2".toList, ⟨"s0,s2".toList, [side2 0, side2 1]⟩) (by
      show _ ∈ plex2.intersections
      rw [plex2_inter]
      exact List.mem_singleton.2 rfl) (side2 0) (side2 1) rfl).1⟩

end Ply
