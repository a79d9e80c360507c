import Verif.Props.Clusters
import Verif.Props.CreateBuild

/-!
# choose_the_ok_side (C51)
-/

namespace Ply

open MeasureTheory Geom1D Heu

variable {G : Type}

/-- The well formedness of the joints of a build. -/
structure Base1 (sb : SheetBuild G) : Prop where
  paired : sb.sheetplex.Paired
  madeC : MadeMap sb.interChosen
  madeO : MadeMap sb.interOk

theorem Good.base {Valid : G → Prop} {sb : SheetBuild G} (h : Good Valid sb) : Base1 sb :=
  ⟨h.paired, h.madeC, h.madeO⟩

/-- The stretches allowed on side `s` only: unchosen there, neither allowed nor chosen on side `t`. -/
def onlyHere (sb : SheetBuild G) (s t : InterSide) : Set ℝ :=
  ((pts sb.interOk s.id \ pts sb.interChosen s.id) \ pts sb.interOk t.id) \ pts sb.interChosen t.id

/-- The points of a set within one of its stretches of length 1/50 (the opening by 1/100). -/
def broad (S : Set ℝ) : Set ℝ := {x | ∃ c : ℝ, |x - c| ≤ 1 / 100 ∧ ∀ y : ℝ, |c - y| ≤ 1 / 100 → y ∈ S}

theorem broad_subset (S : Set ℝ) : broad S ⊆ S := by
  rintro x ⟨c, h1, h2⟩
  exact h2 x (by rw [abs_sub_comm]; exact h1)

theorem broad_buffer (g e r : Geom1D) (hg : Made g) (h1 : g.buffer (.mpq (-(1 / 100))) = .ok e)
    (h2 : e.buffer (.mpq (1 / 100)) = .ok r) : Made r ∧ pointsOf r.intervals = broad (pointsOf g.intervals) := by
  obtain ⟨e', e1, e2, _, e4⟩ := buffer_mpq g hg (-(1 / 100))
  rw [h1] at e1
  cases e1
  obtain ⟨r', r1, r2, r3, _⟩ := buffer_mpq e e2 (1 / 100)
  rw [h2] at r1
  cases r1
  refine ⟨r2, ?_⟩
  rw [r3 (by norm_num), e4 (by norm_num)]
  ext x
  unfold broad dilate erode
  push_cast
  simp only [Set.mem_ofPred_eq, neg_neg]
  constructor
  · rintro ⟨c, hc, hx⟩
    exact ⟨c, hx, hc⟩
  · rintro ⟨c, hx, hc⟩
    exact ⟨c, hc, hx⟩

theorem pts_of_get {κ : Type} [DecidableEq κ] {m : PMap κ Geom1D} {k : κ} {g : Geom1D} (h : m.get k = .ok g) :
    pts m k = pointsOf g.intervals := by
  unfold pts
  rw [(PMap.get_ok _ _ _).1 h]

theorem made_of_get {κ : Type} [DecidableEq κ] {m : PMap κ Geom1D} (hm : MadeMap m) {k : κ} {g : Geom1D}
    (h : m.get k = .ok g) : Made g := hm k g ((PMap.get_ok _ _ _).1 h)

theorem sub_ok {a b c : Geom1D} (ha : Made a) (hb : Made b) (h : a.sub b = .ok c) :
    Made c ∧ pointsOf c.intervals = pointsOf a.intervals \ pointsOf b.intervals := by
  obtain ⟨c', h1, h2, h3⟩ := sub_denotes ha.nf hb.nf
  rw [h] at h1
  cases h1
  exact ⟨(made_iff_nf _).2 h2, h3⟩

/-- What `choose_the_ok_side` does for one side. -/
theorem okSideAt_effect (o : G2Ops G) (el : ℕ → Bool) (n : ℕ) (sb sb' : SheetBuild G) (hb : Base1 sb)
    (s t : InterSide) (hj : Joint sb.sheetplex s t) (h : okSideAt o el n sb s = .ok sb') :
    sb'.sheetplex = sb.sheetplex ∧ Base1 sb' ∧
    (∀ k, pts sb'.interChosen k = if k = s.id then pts sb.interChosen k ∪ broad (onlyHere sb s t)
      else pts sb.interChosen k) ∧
    (∀ k, pts sb'.interOk k = if k = s.id then pts sb.interOk k \ (onlyHere sb s t \ broad (onlyHere sb s t))
      else pts sb.interOk k) := by
  unfold okSideAt at h
  rw [bind_ok] at h; obtain ⟨ok, a1, h⟩ := h
  rw [bind_ok] at h; obtain ⟨ch, a2, h⟩ := h
  rw [bind_ok] at h; obtain ⟨a, a3, h⟩ := h
  rw [bind_ok] at h; obtain ⟨opp, a4, h⟩ := h
  rw [bind_ok] at h; obtain ⟨oppOk, a5, h⟩ := h
  rw [bind_ok] at h; obtain ⟨b, a6, h⟩ := h
  rw [bind_ok] at h; obtain ⟨oppCh, a7, h⟩ := h
  rw [bind_ok] at h; obtain ⟨orig, a8, h⟩ := h
  rw [bind_ok] at h; obtain ⟨e, a9, h⟩ := h
  rw [bind_ok] at h; obtain ⟨thisOnly, a10, h⟩ := h
  rw [bind_ok] at h; obtain ⟨small, a11, h⟩ := h
  rw [bind_ok] at h; obtain ⟨sb1, a12, h⟩ := h
  rw [bind_ok] at h; obtain ⟨sb2, a13, h⟩ := h
  rw [bind_ok] at h; obtain ⟨u, a14, h⟩ := h
  cases h
  rw [hj.2] at a4
  cases a4
  obtain ⟨m3, p3⟩ := sub_ok (made_of_get hb.madeO a1) (made_of_get hb.madeC a2) a3
  obtain ⟨m6, p6⟩ := sub_ok m3 (made_of_get hb.madeO a5) a6
  obtain ⟨m8, p8⟩ := sub_ok m6 (made_of_get hb.madeC a7) a8
  have horig : pointsOf orig.intervals = onlyHere sb s t := by
    unfold onlyHere
    rw [p8, p6, p3, pts_of_get a1, pts_of_get a2, pts_of_get a5, pts_of_get a7]
  obtain ⟨m10, p10⟩ := broad_buffer orig e thisOnly m8 a9 a10
  obtain ⟨m11, p11⟩ := sub_ok m8 m10 a11
  rw [horig] at p10 p11
  rw [p10] at p11
  obtain ⟨s', t', ef⟩ := choose_effect o sb sb1 hb.madeC hb.madeO s.id thisOnly m10 false a12
  have e1 := ef.here
  rw [hj.1] at e1
  cases e1
  have e2 := ef.opp
  rw [hj.2] at e2
  cases e2
  have hne := (hj.symm hb.paired).2.1
  obtain ⟨u1, u2, u3, u4, u5, u6, u7, _⟩ := unchoose_effect sb1 sb' (by rw [ef.plex]; exact hb.paired) ef.madeC ef.madeO
    s.id small m11 a13
  refine ⟨u1.trans ef.plex, ⟨by rw [u1, ef.plex]; exact hb.paired, by rw [u4]; exact ef.madeC, u5⟩, ?_, ?_⟩
  · intro k
    rw [u4, ef.chosen, p10]
  · intro k
    rw [u6, ef.ok, p10, p11]
    split_ifs with h1 h2 h2
    · rw [h1] at h2
      exact absurd h2.symm hne
    · rfl
    · rw [h2]
      refine sdiff_eq_left.2 (Set.disjoint_left.2 fun x x1 x2 => ?_)
      have := broad_subset _ x2
      exact this.1.2 x1
    · rfl

theorem Joint.of {sp : SheetPlex} (hsp : sp.Paired) {s : InterSide} (h : sp.interside s.id = .ok s) :
    ∃ t, Joint sp s t := by
  obtain ⟨_, t, h1, _⟩ := interside_spec sp hsp s.id s h
  exact ⟨t, h, h1⟩

theorem okSides_effect (o : G2Ops G) (el : ℕ → Bool) : ∀ (l : List InterSide) (n : ℕ) (sb sb' : SheetBuild G),
    Base1 sb → (l.map InterSide.id).Nodup → (∀ s ∈ l, sb.sheetplex.interside s.id = .ok s) →
    okSides o el sb l n = .ok sb' →
    sb'.sheetplex = sb.sheetplex ∧ Base1 sb' ∧
    (∀ s ∈ l, ∀ t, Joint sb.sheetplex s t →
      pts sb'.interChosen s.id = pts sb.interChosen s.id ∪ broad (onlyHere sb s t) ∧
      pts sb'.interOk s.id = pts sb.interOk s.id \ (onlyHere sb s t \ broad (onlyHere sb s t))) ∧
    (∀ k, k ∉ l.map InterSide.id → pts sb'.interChosen k = pts sb.interChosen k ∧
      pts sb'.interOk k = pts sb.interOk k)
  | [], n, sb, sb', hb, _, _, h => by
    cases h
    exact ⟨rfl, hb, by simp, fun k _ => ⟨rfl, rfl⟩⟩
  | s :: l, n, sb, sb', hb, hn, hs, h => by
    rw [okSides, bind_ok] at h
    obtain ⟨sb1, h1, h⟩ := h
    obtain ⟨t, hj⟩ := Joint.of hb.paired (hs s List.mem_cons_self)
    obtain ⟨a1, a2, a3, a4⟩ := okSideAt_effect o el n sb sb1 hb s t hj h1
    have hn' := List.nodup_cons.1 (show (s.id :: l.map InterSide.id).Nodup from hn)
    obtain ⟨b1, b2, b3, b4⟩ := okSides_effect o el l (n + 1) sb1 sb' a2 hn'.2
      (fun x hx => by rw [a1]; exact hs x (List.mem_cons_of_mem _ hx)) h
    refine ⟨b1.trans a1, b2, ?_, ?_⟩
    · intro x hx t' hj'
      rcases List.mem_cons.1 hx with rfl | hx
      · obtain ⟨_, rfl⟩ := hj.unique hj' rfl
        obtain ⟨c1, c2⟩ := b4 x.id hn'.1
        rw [c1, c2, a3, a4, if_pos rfl, if_pos rfl]
        exact ⟨rfl, rfl⟩
      · have hne : x.id ≠ s.id := fun e => hn'.1 (e ▸ List.mem_map_of_mem hx)
        have hsame : onlyHere sb1 x t' = onlyHere sb x t' := by
          unfold onlyHere
          rw [a3, a4, a3, a4, if_neg hne, if_neg hne]
          by_cases ht : t'.id = s.id
          · rw [if_pos ht, if_pos ht]
            have hts : t' = s ∧ x = t := by
              obtain ⟨q1, _, _⟩ := hj'.symm hb.paired
              exact q1.unique hj ht
            obtain ⟨rfl, rfl⟩ := hts
            ext y
            have hO : y ∈ onlyHere sb t' x → y ∉ pts sb.interOk x.id := fun hy => hy.1.2
            have hB := @broad_subset (onlyHere sb t' x) y
            simp only [Set.mem_sdiff, Set.mem_union]
            tauto
          · rw [if_neg ht, if_neg ht]
        obtain ⟨c1, c2⟩ := b3 x hx t' (by rw [a1]; exact hj')
        rw [c1, c2, hsame, a3, a4, if_neg hne, if_neg hne]
        exact ⟨rfl, rfl⟩
    · intro k hk
      have hk' : k ≠ s.id ∧ k ∉ l.map InterSide.id := by simpa using hk
      obtain ⟨c1, c2⟩ := b4 k hk'.2
      rw [c1, c2, a3, a4, if_neg hk'.1, if_neg hk'.1]
      exact ⟨rfl, rfl⟩

/-- C51: `choose_the_ok_side` chooses on every side of every joint just the broad parts (within stretches
of length 1/50) of what is allowed there only, and takes back the remaining narrow bits of it.  Nothing
else changes on any joint. -/
theorem c51_effect (o : G2Ops G) (el : ℕ → Bool) (sb sb' : SheetBuild G) (hb : Base1 sb)
    (h : chooseOkSide o el sb = .ok sb') :
    sb'.sheetplex = sb.sheetplex ∧ Base1 sb' ∧ ∀ s t, Joint sb.sheetplex s t →
      pts sb'.interChosen s.id = pts sb.interChosen s.id ∪ broad (onlyHere sb s t) ∧
      pts sb'.interOk s.id = pts sb.interOk s.id \ (onlyHere sb s t \ broad (onlyHere sb s t)) := by
  unfold chooseOkSide at h
  rw [bind_ok] at h
  obtain ⟨u, _, h⟩ := h
  obtain ⟨_, p2, _, p4⟩ := paired_intersides _ hb.paired _ (List.Perm.refl _) []
  obtain ⟨a1, a2, a3, _⟩ := okSides_effect o el (allSides sb.sheetplex) 1 sb sb' hb p4
    (fun s hs => (p2 s).1 hs) h
  exact ⟨a1, a2, fun s t hj => a3 s ((p2 s).2 hj.1) t hj⟩

/-- C51: afterwards nothing is left on any joint that is allowed on one side only, unchosen there and
not chosen on the other side; only allowed stretches were chosen. -/
theorem c51_nothing_left (o : G2Ops G) (el : ℕ → Bool) (sb sb' : SheetBuild G) (hb : Base1 sb)
    (h : chooseOkSide o el sb = .ok sb') (s t : InterSide) (hj : Joint sb.sheetplex s t) :
    onlyHere sb' s t = ∅ ∧ pts sb'.interChosen s.id ⊆ pts sb.interChosen s.id ∪ pts sb.interOk s.id := by
  obtain ⟨_, _, h3⟩ := c51_effect o el sb sb' hb h
  obtain ⟨s1, s2⟩ := h3 s t hj
  obtain ⟨t1, t2⟩ := h3 t s (hj.symm hb.paired).1
  constructor
  · rw [Set.eq_empty_iff_forall_notMem]
    intro x hx
    have hx' : ((x ∈ pts sb'.interOk s.id ∧ x ∉ pts sb'.interChosen s.id) ∧ x ∉ pts sb'.interOk t.id) ∧
      x ∉ pts sb'.interChosen t.id := hx
    rw [s1, s2, t1, t2] at hx'
    have b1 := @broad_subset (onlyHere sb s t) x
    have b2 := @broad_subset (onlyHere sb t s) x
    have d1 : x ∈ onlyHere sb s t ↔ ((x ∈ pts sb.interOk s.id ∧ x ∉ pts sb.interChosen s.id) ∧
      x ∉ pts sb.interOk t.id) ∧ x ∉ pts sb.interChosen t.id := Iff.rfl
    have d2 : x ∈ onlyHere sb t s ↔ ((x ∈ pts sb.interOk t.id ∧ x ∉ pts sb.interChosen t.id) ∧
      x ∉ pts sb.interOk s.id) ∧ x ∉ pts sb.interChosen s.id := Iff.rfl
    simp only [Set.mem_union, Set.mem_sdiff] at hx'
    tauto
  · rw [s1]
    refine Set.union_subset_union_right _ fun x hx => ?_
    exact (broad_subset _ hx).1.1.1

/-- Unchoosing stretches of which nothing is chosen is accepted. -/
theorem unchoose_accept (sb : SheetBuild G) (hb : Base1 sb) (hf : Full sb) (s : InterSide)
    (hs : sb.sheetplex.interside s.id = .ok s) (v : Geom1D) (hv : Made v)
    (hd : pts sb.interChosen s.id ∩ pointsOf v.intervals = ∅) :
    ∃ sb', sb.unchooseInterside s.id v = .ok sb' := by
  obtain ⟨ch, a1⟩ := hf.chosen s.id s hs
  obtain ⟨ok, a2⟩ := hf.ok s.id s hs
  obtain ⟨w, w1, w2, w3⟩ := and_denotes (hb.madeC _ _ a1).nf hv.nf
  obtain ⟨d, d1, _⟩ := sub_denotes (hb.madeO _ _ a2).nf hv.nf
  have he : w.isEmpty = true := by
    rw [c10_isEmpty w ((made_iff_nf _).2 w2), w3]
    rw [pts_of_get ((PMap.get_ok _ _ _).2 a1)] at hd
    exact Set.eq_empty_iff_forall_notMem.1 hd
  have hm : mapOpGeom Geom1D.sub sb.interOk s.id v = .ok (sb.interOk.set s.id d) := by
    unfold mapOpGeom
    rw [a2]
    dsimp only
    rw [d1]
    rfl
  unfold SheetBuild.unchooseInterside
  rw [(PMap.get_ok _ _ _).2 a1, bind_okC, w1, bind_okC, if_pos he, hs, bind_okC, hm]
  exact ⟨_, rfl⟩

/-- C51: the assertions about the stretches never fire: unless a 2D operation raises, the
choice is made whenever the fingers of the opposite side meet its chosen area in less than 1e-6, and then
only `check` remains. -/
theorem c51_calls {X : Type} {o : G2Ops G} {l : Filter X} {Valid : G → Prop} {den : G → Set X}
    {μ : Set X → ENNReal} (L : Lawful o l Valid den) (A : LawfulArea o l Valid den μ) (T : TotalArea o Valid)
    (el : ℕ → Bool) (n : ℕ) (sb : SheetBuild G) (hg : Good Valid sb) (hf : Full sb) (s t : InterSide)
    (hj : Joint sb.sheetplex s t) (hopp : ∀ v F, Made v → pointsOf v.intervals = broad (onlyHere sb s t) → o.fingers t v = .ok F →
      μ (den F ∩ dens den sb.sheetChosen t.sheet) < ENNReal.ofReal (tol6 : ℝ))
    (calls : ∀ v, Made v → pointsOf v.intervals = broad (onlyHere sb s t) → ChooseCalls o sb s t v false) :
    ∃ sb', okSideAt o el n sb s = (checkAt o el n sb' >>= fun _ => .ok sb') ∧ Good Valid sb' ∧ Full sb' := by
  have hb := hg.base
  have hjt := hj.symm hg.paired
  obtain ⟨ok, a1⟩ := hf.ok _ _ hj.1
  obtain ⟨ch, a2⟩ := hf.chosen _ _ hj.1
  obtain ⟨oppOk, a5⟩ := hf.ok _ _ hjt.1.1
  obtain ⟨oppCh, a7⟩ := hf.chosen _ _ hjt.1.1
  rw [← PMap.get_ok] at a1 a2 a5 a7
  obtain ⟨a, a3, n3, p3⟩ := sub_denotes (made_of_get hb.madeO a1).nf (made_of_get hb.madeC a2).nf
  obtain ⟨b, a6, n6, p6⟩ := sub_denotes n3 (made_of_get hb.madeO a5).nf
  obtain ⟨orig, a8, n8, p8⟩ := sub_denotes n6 (made_of_get hb.madeC a7).nf
  have m8 : Made orig := (made_iff_nf _).2 n8
  have horig : pointsOf orig.intervals = onlyHere sb s t := by
    unfold onlyHere
    rw [p8, p6, p3, pts_of_get a1, pts_of_get a2, pts_of_get a5, pts_of_get a7]
  obtain ⟨e, a9, m9, _⟩ := buffer_mpq orig m8 (-(1 / 100))
  obtain ⟨v, a10, m10, _⟩ := buffer_mpq e m9 (1 / 100)
  obtain ⟨_, p10⟩ := broad_buffer orig e v m8 a9 a10
  obtain ⟨small, a11, n11, p11⟩ := sub_denotes n8 m10.nf
  have m11 : Made small := (made_iff_nf _).2 n11
  rw [horig] at p10 p11
  rw [p10] at p11
  have hsub : pointsOf v.intervals ⊆ pts sb.interOk s.id := by
    rw [p10]
    intro x hx
    exact (broad_subset _ hx).1.1.1
  obtain ⟨sb1, h1⟩ := c62_calls L A T sb hg hf s.id s t hj.1 hj.2 v m10
    (by rw [Set.sdiff_eq_empty.2 hsub, measure_empty]; exact tol6_pos)
    (fun F hF => hopp v F m10 p10 hF) false (calls v m10 p10)
  obtain ⟨g1, pl, _⟩ := op_2d L sb sb1 hg (.choose s.id v false) m10 m10 h1
  have f1 := Full.run o sb sb1 hg.paired hg.madeC hg.madeO hf (.choose s.id v false) m10 h1
  obtain ⟨s', t', ef⟩ := choose_effect o sb sb1 hb.madeC hb.madeO s.id v m10 false h1
  obtain ⟨sb2, h2⟩ := unchoose_accept sb1 g1.base f1 s (by rw [pl]; exact hj.1) small m11 (by
    rw [ef.chosen, if_pos rfl, p10, p11, Set.eq_empty_iff_forall_notMem]
    rintro x ⟨x1 | x1, x2⟩
    · exact x2.1.1.1.2 x1
    · exact x2.2 x1)
  have g2 := (op_2d L sb1 sb2 g1 (.unchoose s.id small) trivial m11 h2).1
  have f2 := Full.run o sb1 sb2 g1.paired g1.madeC g1.madeO f1 (.unchoose s.id small) m11 h2
  refine ⟨sb2, ?_, g2, f2⟩
  unfold okSideAt
  rw [a1, bind_okC, a2, bind_okC, a3, bind_okC, hj.2, bind_okC, a5, bind_okC, a6, bind_okC, a7, bind_okC, a8, bind_okC,
    a9, bind_okC, a10, bind_okC, a11, bind_okC, h1, bind_okC, h2, bind_okC]

/-- C51: the assertions about the stretches never fire: for a side with bounded allowed stretches the
choice is made whenever the fingers of the opposite side meet its chosen area in less than 1e-6, and then
only `check` remains. -/
theorem c51_accept {X : Type} {o : G2Ops G} {l : Filter X} {Valid : G → Prop} {den : G → Set X}
    {μ : Set X → ENNReal} (L : Lawful o l Valid den) (A : LawfulArea o l Valid den μ) (T : Total o Valid)
    (el : ℕ → Bool) (n : ℕ) (sb : SheetBuild G) (hg : Good Valid sb) (hf : Full sb) (s t : InterSide)
    (hj : Joint sb.sheetplex s t) (hbd : Bornology.IsBounded (pts sb.interOk s.id))
    (hopp : ∀ v F, Made v → pointsOf v.intervals = broad (onlyHere sb s t) → o.fingers t v = .ok F →
      μ (den F ∩ dens den sb.sheetChosen t.sheet) < ENNReal.ofReal (tol6 : ℝ)) :
    ∃ sb', okSideAt o el n sb s = (checkAt o el n sb' >>= fun _ => .ok sb') ∧ Good Valid sb' ∧ Full sb' := by
  refine c51_calls L A T.area el n sb hg hf s t hj hopp fun v hv he => ?_
  refine T.chooseCalls L sb hg hf s.id s t hj.1 hj.2 v hv ((c10_isBounded v hv).2 (hbd.subset ?_)) false
  rw [he]
  intro x hx
  exact (broad_subset _ hx).1.1.1

/-- Nothing chosen, 0 to 10 allowed on `s0` and 0 to 4 on `s2`. -/
def build3 : SheetBuild Geom1D := { build2 with interOk := [(id0, ivl 0 10), (id2, ivl 0 4)] }

theorem build3_good : Good LineValid build3 where
  paired := plex2_paired
  madeC := build2_good.madeC
  madeO k g h := by
    have := PMap.mem_of_get? _ _ _ h
    simp only [build3, List.mem_cons, List.not_mem_nil, or_false, Prod.mk.injEq] at this
    rcases this with ⟨_, rfl⟩ | ⟨_, rfl⟩
    · exact (ivl_valid 0 10 (by norm_num)).1
    · exact (ivl_valid 0 4 (by norm_num)).1
  validC := build2_good.validC
  validO := build2_good.validO

theorem build3_full : Full build3 where
  ok id s h := by
    rcases plex2_sides id s h with ⟨rfl, _⟩ | ⟨rfl, _⟩ <;> exact ⟨_, rfl⟩
  chosen := build2_full.chosen
  sheetOk := build2_full.sheetOk
  sheetChosen := build2_full.sheetChosen

theorem build3_joint : Joint build3.sheetplex (side2 0) (side2 1) := ⟨rfl, rfl⟩

theorem build3_only : onlyHere build3 (side2 0) (side2 1) = {x | (4 : ℝ) ≤ x ∧ x < 10} := by
  have h1 : pts build3.interOk (side2 0).id = pointsOf (ivl 0 10).intervals := rfl
  have h2 : pts build3.interOk (side2 1).id = pointsOf (ivl 0 4).intervals := rfl
  have h3 : pts build3.interChosen (side2 0).id = pointsOf [] := rfl
  have h4 : pts build3.interChosen (side2 1).id = pointsOf [] := rfl
  unfold onlyHere
  rw [h1, h2, h3, h4, ivl_points, ivl_points, pointsOf_nil]
  ext x
  simp only [Set.mem_sdiff, Set.mem_ofPred_eq, Set.mem_empty_iff_false, not_false_eq_true, and_true, not_and, not_lt]
  push_cast
  constructor
  · exact fun h => ⟨h.2 h.1.1, h.1.2⟩
  · exact fun h => ⟨⟨by linarith [h.1], h.2⟩, fun _ => h.1⟩

theorem build3_broad : broad {x : ℝ | 4 ≤ x ∧ x < 10} = {x : ℝ | 4 ≤ x ∧ x < 10} := by
  refine Set.Subset.antisymm (broad_subset _) ?_
  rintro x ⟨h1, h2⟩
  refine ⟨max (4 + 1 / 100) (x - 1 / 100), ?_, ?_⟩
  · rw [abs_le]
    constructor
    · have : max (4 + 1 / 100 : ℝ) (x - 1 / 100) ≤ x + 1 / 100 := max_le (by linarith) (by linarith)
      linarith
    · have : x - 1 / 100 ≤ max (4 + 1 / 100 : ℝ) (x - 1 / 100) := le_max_right _ _
      linarith
  · intro y hy
    rw [abs_le] at hy
    have h3 : (4 + 1 / 100 : ℝ) ≤ max (4 + 1 / 100 : ℝ) (x - 1 / 100) := le_max_left _ _
    have h4 : max (4 + 1 / 100 : ℝ) (x - 1 / 100) < 10 - 1 / 100 := max_lt (by norm_num) (by linarith)
    exact ⟨by linarith, by linarith⟩

/-- The stretch from 4 to 10 is chosen. -/
example : ∃ sb', okSideAt lineOps (fun _ => true) 1 build3 (side2 0) = .ok sb' ∧
    pts sb'.interChosen id0 = {x | (4 : ℝ) ≤ x ∧ x < 10} := by
  obtain ⟨sb', h1, _, _⟩ := c51_accept line_lawful line_area line_total (fun _ => true) 1 build3 build3_good build3_full
    (side2 0) (side2 1) build3_joint (by
      have h1 : pts build3.interOk (side2 0).id = pointsOf (ivl 0 10).intervals := rfl
      rw [h1]
      exact (ivl_valid 0 10 (by norm_num)).bounded) (by
      intro v F _ _ _
      have : dens (fun g => pointsOf g.intervals) build3.sheetChosen (side2 1).sheet = pointsOf [] := rfl
      rw [this, pointsOf_nil, Set.inter_empty, measure_empty]
      exact tol6_pos)
  have h2 : okSideAt lineOps (fun _ => true) 1 build3 (side2 0) = .ok sb' := h1
  refine ⟨sb', h2, ?_⟩
  obtain ⟨_, _, h3, _⟩ := okSideAt_effect lineOps (fun _ => true) 1 build3 sb' build3_good.base (side2 0) (side2 1)
    build3_joint h2
  rw [h3, if_pos (show id0 = (side2 0).id from rfl), build3_only, build3_broad]
  have : pts build3.interChosen id0 = pointsOf [] := rfl
  rw [this, pointsOf_nil, Set.empty_union]

end Ply
