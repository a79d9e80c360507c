import Verif.Proofs.Scan2DReach

/-! # C24-C27, C60: segment intersection by sweeping -/

namespace Ply

/-! ### C24 -/

/-- C24: after the shear no non-degenerate segment is horizontal. -/
theorem c24_no_horizontal (S : List Seg) (s : Seg) (hs : s ∈ S) (hd : s.1 ≠ s.2) :
    (shearSeg (findShear S) s).1.2 ≠ (shearSeg (findShear S) s).2.2 :=
  findShear_nonH hs hd

/-- C24: no shear is applied if there is no horizontal segment in the first place. -/
theorem c24_identity (S : List Seg) (h : ∀ s ∈ S, s.1.2 ≠ s.2.2) : findShear S = 0 := by
  have key : ∀ (l : List Seg) (mr : Option ℚ), (∀ s ∈ l, s.1.2 ≠ s.2.2) →
      (shearLoop (false, mr) l).1 = false := by
    intro l
    induction l with
    | nil => intro mr _; rfl
    | cons s l ih =>
      intro mr hl
      have hs : ¬ s.2.2 - s.1.2 = 0 := fun hc => hl s (by simp) (by linarith)
      have hr := fun t ht => hl t (List.mem_cons_of_mem _ ht)
      rw [shearLoop]
      simp only
      split_ifs
      · cases mr with
        | none => exact ih _ hr
        | some m =>
          simp only
          split_ifs
          · exact ih _ hr
          · exact ih _ hr
      · exact ih _ hr
  have := key S none h
  unfold findShear
  generalize shearLoop (false, none) S = x at *
  obtain ⟨a, b⟩ := x
  simp only at this
  subst this
  rfl

/-- C24: undoing the shear, as the program does, gives the original point back. -/
theorem c24_undo (S : List Seg) (p : Pt) :
    ((shearPt (findShear S) p).1,
      (shearPt (findShear S) p).2 - findShear S * (shearPt (findShear S) p).1) = p :=
  unshear_shear _ _

example : ∃ s ∈ ([((0, 0), (1, 0)), ((0, 0), (3, -1))] : List Seg), s.1 ≠ s.2 ∧ s.1.2 = s.2.2 := by
  refine ⟨((0, 0), (1, 0)), by simp, ?_, rfl⟩
  intro h; have := congrArg Prod.fst h; norm_num at this

/-! ### C25 -/

/-- C25: a point is returned exactly if the segments are not parallel and it is their common point,
of which there is at most one. -/
theorem c25_some (a b : Seg) (p : Pt) :
    nonparallelIntersection a b = some p ↔
      ¬ Parallel a b ∧ OnSeg a p ∧ OnSeg b p ∧ ∀ q, OnSeg a q → OnSeg b q → q = p := by
  rw [nonparallel_some]
  constructor
  · rintro ⟨h1, h2, h3⟩; exact ⟨h1, h2, h3, fun q h4 h5 => along_unique h1 h4 h5 h2 h3⟩
  · rintro ⟨h1, h2, h3, _⟩; exact ⟨h1, h2, h3⟩

/-- C25: nothing is returned exactly if the segments are parallel or do not meet. -/
theorem c25_none (a b : Seg) :
    nonparallelIntersection a b = none ↔ Parallel a b ∨ ¬ ∃ p, OnSeg a p ∧ OnSeg b p := by
  rw [Option.eq_none_iff_forall_ne_some]
  constructor
  · intro h
    by_cases hp : Parallel a b
    · exact Or.inl hp
    · exact Or.inr fun ⟨p, h1, h2⟩ => h p (nonparallel_some.2 ⟨hp, h1, h2⟩)
  · rintro (h | h) p hp
    · exact (nonparallel_some.1 hp).1 h
    · exact h ⟨p, (nonparallel_some.1 hp).2⟩

/-- C25: `_at_y_no_horizontal` gives the point of the line at height `y`, which is a point of the
segment if `y` is within it. -/
theorem c25_at_y (s : Seg) (y : ℚ) (h : s.1.2 ≠ s.2.2) :
    atYNoHorizontal s y = .ok (lineX s y) ∧ atY s y = lineX s y ∧
    (min s.1.2 s.2.2 ≤ y → y ≤ max s.1.2 s.2.2 → OnSeg s (lineX s y, y)) ∧
    ∀ x, OnSeg s (x, y) → x = lineX s y := by
  have hs : NonH s := h
  refine ⟨by rw [lineX_eq hs]; exact atYNoHorizontal_ok hs y, (lineX_eq hs y).symm, ?_, ?_⟩
  · intro h1 h2
    rw [onSeg_iff_y hs]
    exact ⟨h1, h2, lineX_eq hs y⟩
  · intro x hx
    rw [lineX_eq hs]
    exact ((onSeg_iff_y hs _).1 hx).2.2

/-- C25: on a horizontal segment the call is refused, unless `y` is its height. -/
theorem c25_at_y_horizontal (s : Seg) (y : ℚ) (h : s.1.2 = s.2.2) (hy : y ≠ s.1.2) :
    atYNoHorizontal s y = .error .assertion := by
  unfold atYNoHorizontal
  rw [if_neg hy, if_neg (h ▸ hy), if_neg (by rw [h]; simp)]

example : nonparallelIntersection ((0, 0), (2, 2)) ((0, 2), (2, 0)) = some (1, 1) := by
  rw [nonparallel_some]
  refine ⟨by unfold Parallel cross dir; norm_num, ⟨1/2, by norm_num, by norm_num, ?_⟩,
    ⟨1/2, by norm_num, by norm_num, ?_⟩⟩ <;> unfold along <;> norm_num

/-! ### C26 -/

/-- C26: a key is never less than itself and of two keys at most one is less, whatever their points
on their segments' lines. -/
theorem c26_strict (a b : SweepKey) (ha : a.segment.1.2 ≠ a.segment.2.2)
    (hb : b.segment.1.2 ≠ b.segment.2.2) (pa : a.pt.1 = lineX a.segment a.pt.2)
    (pb : b.pt.1 = lineX b.segment b.pt.2) :
    a.lt a = false ∧ (a.lt b = true → b.lt a = false) ∧
    (a.segment ≠ b.segment → a.lt b = true ∨ b.lt a = true) := by
  have ga : a.Good := ⟨ha, by rw [pa, ← lineX_eq ha]⟩
  have gb : b.Good := ⟨hb, by rw [pb, ← lineX_eq hb]⟩
  refine ⟨?_, ?_, ?_⟩
  · rw [← Bool.not_eq_true, lt_iff ga ga]
    exact lt_irrefl _
  · rw [← Bool.not_eq_true, lt_iff ga gb, lt_iff gb ga, max_comm, if_congr eq_comm rfl rfl]
    exact fun h => lt_asymm h
  · intro hne
    rw [lt_iff ga gb, lt_iff gb ga, max_comm b.pt.2, if_congr (eq_comm (a := b.pt.2)) rfl rfl]
    exact lt_or_gt_of_ne fun hc => hne (lexKey_inj.1 hc)

/-- C26: in every state of the sweep there is a position such that the active list holds exactly the
segments alive there, once each, from left to right, and the comparison of any two active keys is this
left-to-right order. -/
theorem c26_active_sorted (S : List Seg) (hS : ∀ s ∈ S, s.1.2 ≠ s.2.2) (hnd : S.Nodup)
    (y : WithBot ℚ) (q : EventQueue) (act : List SweepKey) (h : SweepReach S y q act) :
    ∃ p : Pt, (∀ s, s ∈ act.map SweepKey.segment ↔ s ∈ S ∧ Alive s p) ∧
      (act.Pairwise fun a b => LeftOf p a.segment b.segment) ∧
      (∀ a ∈ act, ∀ b ∈ act, (a.lt b = true ↔ LeftOf p a.segment b.segment)) := by
  obtain ⟨p, hinv, _⟩ := reach_inv hS hnd h
  have nh : ∀ k ∈ act, NonH k.segment := fun k hk => hS _ (hinv.keys k hk).active.1
  refine ⟨p, ?_, ?_, ?_⟩
  · intro s
    rw [List.mem_map]
    constructor
    · rintro ⟨k, hk, rfl⟩
      have := (hinv.keys k hk).active
      exact ⟨this.1, (alive_iff (nh k hk)).2 this.2⟩
    · rintro ⟨h1, h2⟩
      exact hinv.complete s ⟨h1, (alive_iff (hS s h1)).1 h2⟩
  · exact hinv.sorted.imp_of_mem fun {a b} ha hb hab => (leftOf_iff (nh a ha) (nh b hb)).2 hab
  · intro a ha b hb
    rw [lt_active hS (hinv.keys a ha) (hinv.keys b hb), leftOf_iff (nh a ha) (nh b hb)]

/-- C26: hence on the active keys the comparison is a strict total order, along which the list is
sorted. -/
theorem c26_total_order (S : List Seg) (hS : ∀ s ∈ S, s.1.2 ≠ s.2.2) (hnd : S.Nodup)
    (y : WithBot ℚ) (q : EventQueue) (act : List SweepKey) (h : SweepReach S y q act) :
    (act.Pairwise fun a b => a.lt b = true ∧ b.lt a = false) ∧
    ∀ a ∈ act, ∀ b ∈ act, ∀ c ∈ act, a.lt b = true → b.lt c = true → a.lt c = true := by
  obtain ⟨p, hinv, _⟩ := reach_inv hS hnd h
  constructor
  · refine hinv.sorted.imp_of_mem ?_
    intro a b ha hb hab
    refine ⟨(lt_active hS (hinv.keys a ha) (hinv.keys b hb)).2 hab, ?_⟩
    rw [← Bool.not_eq_true, lt_active hS (hinv.keys b hb) (hinv.keys a ha)]
    exact lt_asymm hab
  · intro a ha b hb c hc
    rw [lt_active hS (hinv.keys a ha) (hinv.keys b hb), lt_active hS (hinv.keys b hb) (hinv.keys c hc),
      lt_active hS (hinv.keys a ha) (hinv.keys c hc)]
    exact lt_trans

/-- C26: the artificial vertical key at the next event splits the active list in two, so that searching
its place by bisection is meaningful. -/
theorem c26_fake_key_monotone (S : List Seg) (hS : ∀ s ∈ S, s.1.2 ≠ s.2.2) (hnd : S.Nodup)
    (y : WithBot ℚ) (pt : Pt) (st : List SweepKey) (q : EventQueue) (act : List SweepKey)
    (h : SweepReach S y ((pt, st) :: q) act) :
    act.Pairwise fun a b => SweepKey.lt ⟨(pt, (pt.1, pt.2 + 1)), pt⟩ a = true →
      SweepKey.lt ⟨(pt, (pt.1, pt.2 + 1)), pt⟩ b = true := by
  obtain ⟨p, hinv, _⟩ := reach_inv hS hnd h
  exact fake_mono hS hinv

/-- Two crossing segments and a third one starting between them. -/
def exSegs : List Seg := [((0, 0), (2, 2)), ((2, 0), (0, 2)), ((1, 1), (1, 3))]

theorem exSegs_ok : exSegs.Nodup ∧ (∀ s ∈ exSegs, s.1.2 ≠ s.2.2) ∧ ∀ s ∈ exSegs, s.1 ≠ s.2 := by
  unfold exSegs
  refine ⟨?_, ?_, ?_⟩
  · simp
  · simp
  · simp

example : ∃ q, SweepReach exSegs ⊥ q [] := by
  obtain ⟨q, _, h, _⟩ := inv_init (S := exSegs) exSegs_ok.2.1
  exact ⟨q, .init h⟩

/-! ### C27 -/

theorem sweepLoop_mono {f g : ℕ} (hfg : f ≤ g) : ∀ {y : WithBot ℚ} {q : EventQueue}
    {act : List SweepKey} {out : List (Pt × List Seg)}, sweepLoop f y q act = .ok out →
    sweepLoop g y q act = .ok out := by
  induction f generalizing g with
  | zero =>
    intro y q act out h
    cases q with
    | nil => cases g <;> rw [sweepLoop] at * <;> exact h
    | cons a q => rw [sweepLoop] at h; cases h
  | succ f ih =>
    intro y q act out h
    cases q with
    | nil => cases g <;> rw [sweepLoop] at * <;> exact h
    | cons a q =>
      obtain ⟨pt, st⟩ := a
      obtain ⟨g, rfl⟩ : ∃ g', g = g' + 1 := ⟨g - 1, by omega⟩
      rw [sweepLoop] at h ⊢
      cases hs : sweepStep y pt st q act with
      | error e => rw [hs] at h; cases h
      | ok r =>
        rw [hs] at h
        change (do
          let rest ← sweepLoop f (pt.2 : WithBot ℚ) r.queue r.active
          return r.out ++ rest : Except PyErr _) = _ at h
        show (do
          let rest ← sweepLoop g (pt.2 : WithBot ℚ) r.queue r.active
          return r.out ++ rest : Except PyErr _) = _
        cases hr : sweepLoop f (pt.2 : WithBot ℚ) r.queue r.active with
        | error e => rw [hr] at h; cases h
        | ok out' =>
          rw [hr] at h
          rw [ih (by omega) hr]
          exact h

theorem all_mono {f g : ℕ} (hfg : f ≤ g) {S : List Seg} {out : List (Pt × List Seg)}
    (h : allSegmentIntersections f S = .ok out) : allSegmentIntersections g S = .ok out := by
  unfold allSegmentIntersections at *
  simp only at *
  cases hs : sweepNoHorizontal f (S.map (shearSeg (findShear S))) with
  | error e => rw [hs] at h; cases h
  | ok r =>
    have : sweepNoHorizontal g (S.map (shearSeg (findShear S))) = .ok r := by
      unfold sweepNoHorizontal at *
      split_ifs at hs ⊢
      cases hq : initQueue [] (S.map (shearSeg (findShear S))) with
      | error e => rw [hq] at hs; cases hs
      | ok q =>
        rw [hq] at hs
        exact sweepLoop_mono hfg hs
    rw [this]
    rw [hs] at h
    exact h

/-- C27: for distinct non-degenerate segments the sweep terminates within `2 n + n²` events, without
any exception, and reports exactly the right points with exactly the segments through them. -/
theorem c27_correct (S : List Seg) (hd : ∀ s ∈ S, s.1 ≠ s.2) (hnd : S.Nodup) :
    ∃ out, (∀ fuel, 2 * S.length + S.length * S.length ≤ fuel →
      allSegmentIntersections fuel S = .ok out) ∧ SweepOutput S out := by
  obtain ⟨out, h1, h2⟩ := allSegmentIntersections_spec hd hnd le_rfl
  exact ⟨out, fun fuel hf => all_mono hf h1, h2⟩

/-- C27: the points of a report do not depend on the order in which the segments are given. -/
theorem c27_order_irrelevant (S T : List Seg) (hd : ∀ s ∈ S, s.1 ≠ s.2) (hnd : S.Nodup)
    (hp : S.Perm T) (f : ℕ) (hf : 2 * S.length + S.length * S.length ≤ f) :
    ∃ o1 o2, allSegmentIntersections f S = .ok o1 ∧ allSegmentIntersections f T = .ok o2 ∧
      ∀ r ∈ o1, ∃ r' ∈ o2, r'.1 = r.1 ∧ r'.2.Perm r.2 := by
  obtain ⟨o1, h1, a1, a2, a3⟩ := allSegmentIntersections_spec hd hnd hf
  obtain ⟨o2, h2, b1, b2, b3⟩ := allSegmentIntersections_spec (S := T)
    (fun s hs => hd s (hp.mem_iff.2 hs)) (hp.nodup_iff.1 hnd) (fuel := f) (by rwa [← hp.length_eq])
  refine ⟨o1, o2, h1, h2, ?_⟩
  intro r hr
  obtain ⟨c1, s, hs, t, ht, c2⟩ := (a3 r.1).1 ⟨r, hr, rfl⟩
  have c1' : EventPoint T r.1 := by
    rcases c1 with ⟨u, hu, c⟩ | ⟨u, hu, v, hv, c⟩
    · exact Or.inl ⟨u, hp.mem_iff.1 hu, c⟩
    · exact Or.inr ⟨u, hp.mem_iff.1 hu, v, hp.mem_iff.1 hv, c⟩
  obtain ⟨r', hr', he⟩ := (b3 r.1).2 ⟨c1', s, hp.mem_iff.1 hs, t, hp.mem_iff.1 ht, c2⟩
  refine ⟨r', hr', he, ?_⟩
  rw [List.perm_ext_iff_of_nodup (b2 r' hr').1 (a2 r hr).1]
  intro s
  rw [(b2 r' hr').2, (a2 r hr).2, he, hp.mem_iff]

/-- C27: duplicate or degenerate segments are refused. -/
theorem c27_rejects (S : List Seg) (h : ¬ S.Nodup ∨ ∃ s ∈ S, s.1 = s.2) (fuel : ℕ) :
    allSegmentIntersections fuel S = .error .assertion := by
  unfold allSegmentIntersections
  simp only
  rw [sweepNoHorizontal_error]
  · rfl
  · rcases h with h | ⟨s, hs, he⟩
    · refine Or.inl fun hc => h ?_
      exact hc.of_map _
    · refine Or.inr ⟨_, List.mem_map_of_mem hs, ?_⟩
      unfold shearSeg
      simp only [he]

/-- The three segments of `exSegs` meet in one point, which is reported with all three. -/
example : ∃ out, allSegmentIntersections 15 exSegs = .ok out ∧
    ∃ r ∈ out, r.1 = (1, 1) ∧ r.2.Perm exSegs := by
  obtain ⟨out, h1, h2, h3, h4⟩ := c27_correct exSegs exSegs_ok.2.2 exSegs_ok.1
  have on1 : OnSeg ((0, 0), (2, 2)) (1, 1) := ⟨1/2, by norm_num, by norm_num, by unfold along; norm_num⟩
  have on2 : OnSeg ((2, 0), (0, 2)) (1, 1) := ⟨1/2, by norm_num, by norm_num, by unfold along; norm_num⟩
  have on3 : OnSeg ((1, 1), (1, 3)) (1, 1) := ⟨0, by norm_num, by norm_num, by unfold along; norm_num⟩
  refine ⟨out, h1 15 (by simp [exSegs]), ?_⟩
  obtain ⟨r, hr, he⟩ := (h4 (1, 1)).2 ⟨Or.inl ⟨((1, 1), (1, 3)), by simp [exSegs], Or.inl rfl⟩,
    ((0, 0), (2, 2)), by simp [exSegs], ((2, 0), (0, 2)), by simp [exSegs], by simp, on1, on2⟩
  refine ⟨r, hr, he, ?_⟩
  rw [List.perm_ext_iff_of_nodup (h3 r hr).1 exSegs_ok.1]
  intro s
  rw [(h3 r hr).2, he]
  refine ⟨fun h => h.1, fun h => ⟨h, ?_⟩⟩
  simp only [exSegs, List.mem_cons, List.not_mem_nil, or_false] at h
  rcases h with rfl | rfl | rfl
  · exact on1
  · exact on2
  · exact on3

/-! ### C60 -/

/-- C60: the shear confuses no two segments. -/
theorem c60_injective (alpha : ℚ) (s t : Seg) : shearSeg alpha s = shearSeg alpha t ↔ s = t := shearSeg_inj

/-- C60: looking up a sheared segment gives the segment it came from. -/
theorem c60_lookup (alpha : ℚ) (S : List Seg) (s : Seg) (hs : s ∈ S) :
    origsLookup alpha S (shearSeg alpha s) = .ok s := origsLookup_shear hs

/-- C60: incidence is the same before and after the shear. -/
theorem c60_incidence (alpha : ℚ) (s : Seg) (p : Pt) :
    OnSeg (shearSeg alpha s) (shearPt alpha p) ↔ OnSeg s p := onSeg_shear

example : origsLookup 3 exSegs (shearSeg 3 ((2, 0), (0, 2))) = .ok ((2, 0), (0, 2)) :=
  c60_lookup 3 exSegs _ (by simp [exSegs])

end Ply
