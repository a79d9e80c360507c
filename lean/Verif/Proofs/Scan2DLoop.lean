import Verif.Proofs.Scan2DStep
import Verif.Proofs.Geom1DBase
import Mathlib.Data.List.Dedup

/-! The whole sweep, and the shear around it. -/

namespace Ply

variable {S : List Seg}

/-- Events still to come. -/
def pending (S : List Seg) (p : Pt) : List Pt :=
  (evList S).dedup.filter fun z => decide (ek p < ek z)

theorem pending_lt {p e : Pt} (he : EventPoint S e) (hpe : ek p < ek e) :
    (pending S e).length < (pending S p).length := by
  have hnd : ((evList S).dedup).Nodup := List.nodup_dedup _
  have hsub : (pending S e).Subperm ((pending S p).erase e) := by
    refine (hnd.filter _).subperm ?_
    intro z hz
    simp only [List.mem_filter, decide_eq_true_eq] at hz
    have hne : z ≠ e := by rintro rfl; exact lt_irrefl _ hz.2
    rw [List.mem_erase_of_ne hne]
    simp only [pending, List.mem_filter, decide_eq_true_eq]
    exact ⟨hz.1, hpe.trans hz.2⟩
  have hmem : e ∈ pending S p := by
    simp only [pending, List.mem_filter, decide_eq_true_eq, List.mem_dedup, mem_evList]
    exact ⟨he, hpe⟩
  have h1 := hsub.length_le
  have h2 := List.length_erase_of_mem hmem
  have h3 : 0 < (pending S p).length := List.length_pos_of_mem hmem
  omega

theorem evList_length (S : List Seg) : (evList S).length ≤ 2 * S.length + S.length * S.length := by
  unfold evList
  rw [List.length_append]
  have h1 : (S.flatMap fun s => [s.1, s.2]).length = 2 * S.length := by
    generalize S = l
    induction l with
    | nil => rfl
    | cons a l ih => rw [List.flatMap_cons, List.length_append, ih]; simp; omega
  have h2 : ∀ l : List Seg, (l.flatMap fun s => S.filterMap fun t => nonparallelIntersection s t).length ≤
      l.length * S.length := by
    intro l
    induction l with
    | nil => simp
    | cons a l ih =>
      rw [List.flatMap_cons, List.length_append, List.length_cons, Nat.succ_mul]
      have := List.length_filterMap_le (fun t => nonparallelIntersection a t) S
      omega
  have := h2 S
  omega

theorem pending_le (S : List Seg) (p : Pt) : (pending S p).length ≤ 2 * S.length + S.length * S.length := by
  unfold pending
  refine (List.length_filter_le _ _).trans ((List.Sublist.length_le (List.dedup_sublist _)).trans ?_)
  exact evList_length S

theorem two_of_length {l : List Seg} (h : l.length > 1) (hnd : l.Nodup) :
    ∃ s ∈ l, ∃ t ∈ l, s ≠ t := by
  match l, h, hnd with
  | a :: b :: l, _, hnd =>
    refine ⟨a, by simp, b, by simp, ?_⟩
    rintro rfl
    simp at hnd

theorem length_of_two {l : List Seg} {s t : Seg} (hs : s ∈ l) (ht : t ∈ l) (hne : s ≠ t) :
    l.length > 1 := by
  match l, hs, ht with
  | [a], hs, ht => simp at hs ht; exact absurd (hs.trans ht.symm) hne
  | _ :: _ :: _, _, _ => simp

/-- What the sweep reports after position `p`. -/
structure LoopOut (S : List Seg) (p : Pt) (out : List (Pt × List Seg)) : Prop where
  sorted : out.Pairwise fun a b => ek a.1 < ek b.1
  sound : ∀ r ∈ out, ek p < ek r.1 ∧ EventPoint S r.1 ∧ ReportOK S r ∧ r.2.length > 1
  complete : ∀ z, EventPoint S z → ek p < ek z →
    (∃ s ∈ S, ∃ t ∈ S, s ≠ t ∧ OnSeg s z ∧ OnSeg t z) → ∃ r ∈ out, r.1 = z

theorem loop_spec (hS : ∀ s ∈ S, NonH s) (hnd : S.Nodup) (fuel : ℕ) :
    ∀ {p : Pt} {q : EventQueue} {act : List SweepKey} {y : WithBot ℚ}, Inv S p q act →
      y ≤ (p.2 : WithBot ℚ) → (pending S p).length ≤ fuel →
      ∃ out, sweepLoop fuel y q act = .ok out ∧ LoopOut S p out := by
  induction fuel with
  | zero =>
    intro p q act y h hy hf
    cases q with
    | nil =>
      refine ⟨[], by rw [sweepLoop], by simp, by simp, ?_⟩
      intro z hz hpz _
      obtain ⟨m, h1, h2, h3⟩ := exists_next ⟨z, hz, hpz⟩
      have := next_in_queue hS h h1 h2 h3
      exact absurd this (by simp [qget])
    | cons a q =>
      obtain ⟨e, st⟩ := a
      obtain ⟨hev, hpe, _, _⟩ := queue_head_min hS h
      have := pending_lt hev hpe
      omega
  | succ fuel ih =>
    intro p q act y h hy hf
    cases q with
    | nil =>
      refine ⟨[], by rw [sweepLoop], by simp, by simp, ?_⟩
      intro z hz hpz _
      obtain ⟨m, h1, h2, h3⟩ := exists_next ⟨z, hz, hpz⟩
      have := next_in_queue hS h h1 h2 h3
      exact absurd this (by simp [qget])
    | cons a q =>
      obtain ⟨e, st⟩ := a
      obtain ⟨hev, hpe, _, hno⟩ := queue_head_min hS h
      obtain ⟨r, hr, hinv, segs, hout, snd, hsegs⟩ := step_spec hS hnd h hy
      have := pending_lt hev hpe
      obtain ⟨out, ho, lo⟩ := ih hinv le_rfl (by omega)
      refine ⟨r.out ++ out, ?_, ?_⟩
      · rw [sweepLoop, hr]
        show (do
          let rest ← sweepLoop fuel (e.2 : WithBot ℚ) r.queue r.active
          return r.out ++ rest : Except PyErr _) = _
        rw [ho]; rfl
      · have mem_out : ∀ x, x ∈ r.out → x = (e, segs) ∧ segs.length > 1 := by
          intro x hx
          rw [hout] at hx
          split_ifs at hx with hc
          · simp at hx; exact ⟨hx, hc⟩
          · simp at hx
        refine ⟨?_, ?_, ?_⟩
        · rw [List.pairwise_append]
          refine ⟨?_, lo.sorted, ?_⟩
          · rw [hout]; split_ifs <;> simp
          · intro a ha b hb
            rw [(mem_out a ha).1]
            exact (lo.sound b hb).1
        · intro x hx
          rcases List.mem_append.1 hx with hx | hx
          · obtain ⟨rfl, hlen⟩ := mem_out x hx
            exact ⟨hpe, hev, ⟨snd, hsegs⟩, hlen⟩
          · obtain ⟨h1, h2⟩ := lo.sound x hx
            exact ⟨hpe.trans h1, h2⟩
        · intro z hz hpz htwo
          rcases (hno z hz hpz).eq_or_lt with he | he
          · have he := ek_inj.1 he
            subst he
            obtain ⟨s, hs, t, ht, hne, os, ot⟩ := htwo
            have hlen := length_of_two ((hsegs s).2 ⟨hs, os⟩) ((hsegs t).2 ⟨ht, ot⟩) hne
            refine ⟨(e, segs), ?_, rfl⟩
            rw [hout, if_pos hlen]; simp
          · obtain ⟨x, hx, hxz⟩ := lo.complete z hz he htwo
            exact ⟨x, by simp [hx], hxz⟩

theorem exists_below (l : List Pt) : ∃ c : ℚ, ∀ z ∈ l, c < z.2 := by
  induction l with
  | nil => exact ⟨0, by simp⟩
  | cons a l ih =>
    obtain ⟨c, hc⟩ := ih
    refine ⟨min c (a.2 - 1), ?_⟩
    intro z hz
    rcases List.mem_cons.1 hz with rfl | hz
    · exact lt_of_le_of_lt (min_le_right _ _) (by linarith)
    · exact lt_of_le_of_lt (min_le_left _ _) (hc z hz)

/-- The state before the first event. -/
theorem inv_init (hS : ∀ s ∈ S, NonH s) :
    ∃ q p, initQueue [] S = .ok q ∧ Inv S p q [] ∧ ∀ z, EventPoint S z → ek p < ek z := by
  obtain ⟨q, hq, hqi⟩ := initQueue_spec (P := []) hS (q := []) ⟨by simp [QSorted], by simp [qget], by simp⟩
  obtain ⟨c, hc⟩ := exists_below (evList S)
  have hlow : ∀ z, EventPoint S z → ek ((0, c) : Pt) < ek z := fun z hz =>
    ek_lt.2 (Or.inl (hc z (mem_evList.2 hz)))
  rw [List.nil_append] at hqi
  refine ⟨q, (0, c), hq, ⟨by simp, by simp, ?_, ⟨hqi.sorted, ?_, ?_⟩, by simp⟩, hlow⟩
  · rintro s ⟨h1, h2, _⟩
    exact absurd h2 (not_le.2 (hlow _ (event_low h1)))
  · intro z l hz
    obtain ⟨⟨s, hs, h1⟩, h2⟩ := hqi.entry z l hz
    have : EventPoint S z := Or.inl ⟨s, hs, (endpoint_cases s z).2 h1⟩
    exact ⟨this, hlow z this, h2⟩
  · exact fun s hs z hz _ => hqi.ends s hs z hz

theorem sweepNoHorizontal_spec (hS : ∀ s ∈ S, NonH s) (hnd : S.Nodup) {fuel : ℕ}
    (hf : 2 * S.length + S.length * S.length ≤ fuel) :
    ∃ out, sweepNoHorizontal fuel S = .ok out ∧ SweepOutput S out ∧
      out.Pairwise fun a b => ek a.1 < ek b.1 := by
  obtain ⟨q, p, hq, hinv, hlow⟩ := inv_init hS
  have hloop : ∃ out, sweepLoop fuel ⊥ q [] = .ok out ∧ LoopOut S p out :=
    loop_spec hS hnd fuel hinv bot_le ((pending_le S p).trans hf)
  obtain ⟨out, ho, lo⟩ := hloop
  refine ⟨out, ?_, ?_, lo.sorted⟩
  · unfold sweepNoHorizontal
    rw [if_pos hnd, if_pos fun s hs hc => hS s hs (by rw [hc]), hq]
    exact ho
  · refine ⟨?_, fun r hr => (lo.sound r hr).2.2.1, ?_⟩
    · unfold List.Nodup
      rw [List.pairwise_map]
      refine lo.sorted.imp ?_
      intro a b hab hc
      rw [hc] at hab; exact lt_irrefl _ hab
    · intro z
      constructor
      · rintro ⟨r, hr, rfl⟩
        obtain ⟨_, h1, h2, h3⟩ := lo.sound r hr
        obtain ⟨s, hs, t, ht, hne⟩ := two_of_length h3 h2.1
        exact ⟨h1, s, ((h2.2 s).1 hs).1, t, ((h2.2 t).1 ht).1, hne, ((h2.2 s).1 hs).2, ((h2.2 t).1 ht).2⟩
      · rintro ⟨h1, h2⟩
        exact lo.complete z h1 (hlow z h1) h2

/-! ### the shear -/

theorem shearLoop_spec (l : List Seg) : ∀ (had : Bool) (mr : Option ℚ), (∀ m ∈ mr, 0 < m) →
    ∃ had' mr', shearLoop (had, mr) l = (had', mr') ∧ (∀ m ∈ mr', 0 < m) ∧
      (had = true → had' = true) ∧
      (∀ s ∈ l, s.2.1 - s.1.1 ≠ 0 → s.2.2 - s.1.2 = 0 → had' = true) ∧
      (∀ m ∈ mr, ∃ m' ∈ mr', m' ≤ m) ∧
      ∀ s ∈ l, s.2.1 - s.1.1 ≠ 0 → s.2.2 - s.1.2 ≠ 0 →
        ∃ m ∈ mr', m ≤ |(s.2.2 - s.1.2) / (s.2.1 - s.1.1)| := by
  induction l with
  | nil =>
    intro had mr h
    exact ⟨had, mr, rfl, h, fun h => h, by simp, fun m hm => ⟨m, hm, le_rfl⟩, by simp⟩
  | cons s l ih =>
    intro had mr h
    rw [shearLoop]
    simp only
    by_cases hx : s.2.1 - s.1.1 ≠ 0
    · rw [if_pos hx]
      by_cases hy : s.2.2 - s.1.2 = 0
      · rw [if_pos hy]
        obtain ⟨had', mr', e, a1, a2, a3, a4, a5⟩ := ih true mr h
        refine ⟨had', mr', e, a1, fun _ => a2 rfl, ?_, a4, ?_⟩
        · intro t ht h1 h2
          rcases List.mem_cons.1 ht with rfl | ht
          · exact a2 rfl
          · exact a3 t ht h1 h2
        · intro t ht h1 h2
          rcases List.mem_cons.1 ht with rfl | ht
          · exact absurd hy h2
          · exact a5 t ht h1 h2
      · rw [if_neg hy]
        have hpos : 0 < |(s.2.2 - s.1.2) / (s.2.1 - s.1.1)| := abs_pos.2 (div_ne_zero hy hx)
        have key : ∀ m0 : ℚ, 0 < m0 → m0 ≤ |(s.2.2 - s.1.2) / (s.2.1 - s.1.1)| → (∀ m ∈ mr, m0 ≤ m) →
            ∃ had' mr', shearLoop (had, some m0) l = (had', mr') ∧ (∀ m ∈ mr', 0 < m) ∧
            (had = true → had' = true) ∧
            (∀ t ∈ s :: l, t.2.1 - t.1.1 ≠ 0 → t.2.2 - t.1.2 = 0 → had' = true) ∧
            (∀ m ∈ mr, ∃ m' ∈ mr', m' ≤ m) ∧
            ∀ t ∈ s :: l, t.2.1 - t.1.1 ≠ 0 → t.2.2 - t.1.2 ≠ 0 →
              ∃ m ∈ mr', m ≤ |(t.2.2 - t.1.2) / (t.2.1 - t.1.1)| := by
          intro m0 p0 ple pmr
          obtain ⟨had', mr', e, a1, a2, a3, a4, a5⟩ := ih had (some m0) (by simpa using p0)
          obtain ⟨m', hm', hle⟩ := a4 m0 rfl
          refine ⟨had', mr', e, a1, a2, ?_, fun m hm => ⟨m', hm', hle.trans (pmr m hm)⟩, ?_⟩
          · intro t ht h1 h2
            rcases List.mem_cons.1 ht with rfl | ht
            · exact absurd h2 hy
            · exact a3 t ht h1 h2
          · intro t ht h1 h2
            rcases List.mem_cons.1 ht with rfl | ht
            · exact ⟨m', hm', hle.trans ple⟩
            · exact a5 t ht h1 h2
        cases mr with
        | none => exact key _ hpos le_rfl (by simp)
        | some m =>
          simp only
          by_cases hc : |(s.2.2 - s.1.2) / (s.2.1 - s.1.1)| < m
          · rw [if_pos hc]
            exact key _ hpos le_rfl (by simpa using hc.le)
          · rw [if_neg hc]
            exact key m (h m rfl) (not_lt.1 hc) (by simp)
    · rw [if_neg hx]
      obtain ⟨had', mr', e, a1, a2, a3, a4, a5⟩ := ih had mr h
      refine ⟨had', mr', e, a1, a2, ?_, a4, ?_⟩
      · intro t ht h1 h2
        rcases List.mem_cons.1 ht with rfl | ht
        · exact absurd h1 hx
        · exact a3 t ht h1 h2
      · intro t ht h1 h2
        rcases List.mem_cons.1 ht with rfl | ht
        · exact absurd h1 hx
        · exact a5 t ht h1 h2

theorem findShear_nonH {l : List Seg} {s : Seg} (hs : s ∈ l) (hd : s.1 ≠ s.2) :
    NonH (shearSeg (findShear l) s) := by
  obtain ⟨had, mr, e, a1, _, a3, _, a5⟩ := shearLoop_spec l false none (by simp)
  have hne : s.2.1 - s.1.1 = 0 → s.2.2 - s.1.2 ≠ 0 := by
    intro h1 h2
    exact hd (Prod.ext (by linarith) (by linarith))
  have goal : (s.2.2 - s.1.2) + findShear l * (s.2.1 - s.1.1) ≠ 0 := by
    unfold findShear
    rw [e]
    cases had with
    | false =>
      simp only
      rw [zero_mul, add_zero]
      intro hy
      by_cases hx : s.2.1 - s.1.1 = 0
      · exact hne hx hy
      · exact absurd (a3 s hs hx hy) (by simp)
    | true =>
      cases mr with
      | none =>
        simp only
        rw [one_mul]
        by_cases hx : s.2.1 - s.1.1 = 0
        · rw [hx, add_zero]; exact hne hx
        · by_cases hy : s.2.2 - s.1.2 = 0
          · rw [hy, zero_add]; exact hx
          · obtain ⟨m, hm, _⟩ := a5 s hs hx hy
            exact absurd hm (by simp)
      | some m =>
        simp only
        have hm := a1 m rfl
        by_cases hx : s.2.1 - s.1.1 = 0
        · rw [hx, mul_zero, add_zero]; exact hne hx
        · by_cases hy : s.2.2 - s.1.2 = 0
          · rw [hy, zero_add]; exact mul_ne_zero (by linarith) hx
          · obtain ⟨m', hm', hle⟩ := a5 s hs hx hy
            simp only [Option.mem_def, Option.some.injEq] at hm'
            subst hm'
            intro hc
            have : (s.2.2 - s.1.2) / (s.2.1 - s.1.1) = -(m / 2) := by
              rw [div_eq_iff hx]; linarith
            rw [this, abs_neg, abs_of_pos (by linarith)] at hle
            linarith
  intro hc
  apply goal
  simp only [shearSeg, shearPt] at hc
  linarith

theorem shearPt_inj {a : ℚ} {p q : Pt} : shearPt a p = shearPt a q ↔ p = q := by
  constructor
  · intro h
    have h1 := congrArg Prod.fst h
    have h2 := congrArg Prod.snd h
    simp only [shearPt] at h1 h2
    rw [h1] at h2
    exact Prod.ext h1 (by linarith)
  · rintro rfl; rfl

theorem shearSeg_inj {a : ℚ} {s t : Seg} : shearSeg a s = shearSeg a t ↔ s = t := by
  constructor
  · intro h
    have h1 := congrArg Prod.fst h
    have h2 := congrArg Prod.snd h
    exact Prod.ext (shearPt_inj.1 h1) (shearPt_inj.1 h2)
  · rintro rfl; rfl

/-- The inverse shear. -/
def unshearPt (a : ℚ) (p : Pt) : Pt := (p.1, p.2 - a * p.1)

theorem shear_unshear (a : ℚ) (p : Pt) : shearPt a (unshearPt a p) = p := by
  unfold shearPt unshearPt; ext <;> simp

theorem unshear_shear (a : ℚ) (p : Pt) : unshearPt a (shearPt a p) = p := by
  unfold shearPt unshearPt; ext <;> simp

theorem along_shear (a t : ℚ) (s : Seg) : along (shearSeg a s) t = shearPt a (along s t) := by
  unfold along shearSeg shearPt
  ext
  · rfl
  · simp only; ring

theorem onSeg_shear {a : ℚ} {s : Seg} {p : Pt} : OnSeg (shearSeg a s) (shearPt a p) ↔ OnSeg s p := by
  unfold OnSeg
  simp only [along_shear, shearPt_inj]

theorem parallel_shear {a : ℚ} {s t : Seg} : Parallel (shearSeg a s) (shearSeg a t) ↔ Parallel s t := by
  have : cross (dir (shearSeg a s)) (dir (shearSeg a t)) = cross (dir s) (dir t) := by
    unfold cross dir shearSeg shearPt; simp only; ring
  unfold Parallel
  rw [this]

theorem event_shear {a : ℚ} {S : List Seg} {p : Pt} :
    EventPoint (S.map (shearSeg a)) (shearPt a p) ↔ EventPoint S p := by
  unfold EventPoint
  simp only [List.mem_map]
  constructor
  · rintro (⟨_, ⟨s, hs, rfl⟩, h⟩ | ⟨_, ⟨s, hs, rfl⟩, _, ⟨t, ht, rfl⟩, h1, h2, h3⟩)
    · exact Or.inl ⟨s, hs, h.imp shearPt_inj.1 shearPt_inj.1⟩
    · exact Or.inr ⟨s, hs, t, ht, fun hc => h1 (parallel_shear.2 hc), onSeg_shear.1 h2, onSeg_shear.1 h3⟩
  · rintro (⟨s, hs, h⟩ | ⟨s, hs, t, ht, h1, h2, h3⟩)
    · exact Or.inl ⟨_, ⟨s, hs, rfl⟩, h.imp shearPt_inj.2 shearPt_inj.2⟩
    · exact Or.inr ⟨_, ⟨s, hs, rfl⟩, _, ⟨t, ht, rfl⟩, fun hc => h1 (parallel_shear.1 hc),
        onSeg_shear.2 h2, onSeg_shear.2 h3⟩

theorem origsLookup_shear {a : ℚ} {S : List Seg} {s : Seg} (hs : s ∈ S) :
    origsLookup a S (shearSeg a s) = .ok s := by
  unfold origsLookup
  cases hf : S.reverse.find? (fun t => decide (shearSeg a t = shearSeg a s)) with
  | none =>
    rw [List.find?_eq_none] at hf
    exact absurd (by simp) (hf s (by simp [hs]))
  | some t =>
    have := List.find?_some hf
    simp only [decide_eq_true_eq, shearSeg_inj] at this
    rw [this]

theorem sweepNoHorizontal_error {fuel : ℕ} {S : List Seg} (h : ¬ S.Nodup ∨ ∃ s ∈ S, s.1 = s.2) :
    sweepNoHorizontal fuel S = .error .assertion := by
  unfold sweepNoHorizontal
  by_cases hnd : S.Nodup
  · rw [if_pos hnd]
    rcases h with h | ⟨s, hs, he⟩
    · exact absurd hnd h
    · rw [if_neg fun hc => hc s hs he]
  · rw [if_neg hnd]

/-- The original of a sheared segment. -/
def unshearSeg (a : ℚ) (s : Seg) : Seg := (unshearPt a s.1, unshearPt a s.2)

theorem unshearSeg_shear (a : ℚ) (s : Seg) : unshearSeg a (shearSeg a s) = s := by
  unfold unshearSeg shearSeg; simp only [unshear_shear]

theorem allSegmentIntersections_spec {S : List Seg} (hd : ∀ s ∈ S, s.1 ≠ s.2) (hnd : S.Nodup) {fuel : ℕ}
    (hf : 2 * S.length + S.length * S.length ≤ fuel) :
    ∃ out, allSegmentIntersections fuel S = .ok out ∧ SweepOutput S out := by
  set a := findShear S with ha
  set S' := S.map (shearSeg a) with hS'
  have hnonH : ∀ s ∈ S', NonH s := by
    intro s hs
    obtain ⟨t, ht, rfl⟩ := List.mem_map.1 hs
    exact findShear_nonH ht (hd t ht)
  have hnd' : S'.Nodup := hnd.map fun s t h => shearSeg_inj.1 h
  obtain ⟨out, ho, ⟨h1, h2, h3⟩, _⟩ := sweepNoHorizontal_spec hnonH hnd' (fuel := fuel)
    (by rw [hS', List.length_map]; exact hf)
  refine ⟨out.map fun r => (unshearPt a r.1, r.2.map (unshearSeg a)), ?_, ?_, ?_, ?_⟩
  · unfold allSegmentIntersections
    simp only
    rw [← ha, ← hS', ho]
    show out.mapM _ = _
    apply Geom1D.mapM_except_ok
    intro r hr
    have : r.2.mapM (origsLookup a S) = .ok (r.2.map (unshearSeg a)) := by
      apply Geom1D.mapM_except_ok
      intro s hs
      obtain ⟨t, ht, rfl⟩ := List.mem_map.1 (((h2 r hr).2 s).1 hs).1
      rw [origsLookup_shear ht, unshearSeg_shear]
    show (do
      let origs ← r.2.mapM (origsLookup a S)
      return ((r.1.1, r.1.2 - a * r.1.1), origs) : Except PyErr (Pt × List Seg)) = _
    rw [this]; rfl
  · rw [List.map_map]
    have : (Prod.fst ∘ fun r : Pt × List Seg => (unshearPt a r.1, r.2.map (unshearSeg a))) =
        unshearPt a ∘ Prod.fst := rfl
    rw [this, ← List.map_map]
    refine h1.map ?_
    intro p q hpq
    rw [← shear_unshear a p, hpq, shear_unshear]
  · intro r hr
    obtain ⟨r, hr', rfl⟩ := List.mem_map.1 hr
    obtain ⟨k1, k2⟩ := h2 r hr'
    refine ⟨?_, ?_⟩
    · refine (List.nodup_map_iff_inj_on k1).2 ?_
      intro s hs t ht hst
      obtain ⟨s, _, rfl⟩ := List.mem_map.1 ((k2 s).1 hs).1
      obtain ⟨t, _, rfl⟩ := List.mem_map.1 ((k2 t).1 ht).1
      rw [unshearSeg_shear, unshearSeg_shear] at hst
      rw [hst]
    · intro s
      simp only [List.mem_map]
      have hp : OnSeg s (unshearPt a r.1) ↔ OnSeg (shearSeg a s) r.1 := by
        rw [← onSeg_shear (a := a), shear_unshear]
      rw [hp]
      constructor
      · rintro ⟨t, ht, rfl⟩
        obtain ⟨q1, q2⟩ := (k2 t).1 ht
        obtain ⟨t, ht', rfl⟩ := List.mem_map.1 q1
        rw [unshearSeg_shear]
        exact ⟨ht', q2⟩
      · rintro ⟨hs, ho⟩
        exact ⟨shearSeg a s, (k2 _).2 ⟨List.mem_map_of_mem hs, ho⟩, unshearSeg_shear a s⟩
  · intro p
    have e1 : (∃ r ∈ out.map (fun r => (unshearPt a r.1, r.2.map (unshearSeg a))), r.1 = p) ↔
        ∃ r ∈ out, r.1 = shearPt a p := by
      constructor
      · rintro ⟨r, hr, rfl⟩
        obtain ⟨r, hr', rfl⟩ := List.mem_map.1 hr
        exact ⟨r, hr', (shear_unshear a r.1).symm⟩
      · rintro ⟨r, hr, he⟩
        exact ⟨_, List.mem_map_of_mem hr, by simp only; rw [he, unshear_shear]⟩
    rw [e1, h3 (shearPt a p), event_shear]
    refine and_congr_right fun _ => ?_
    simp only [hS', List.mem_map]
    constructor
    · rintro ⟨_, ⟨s, hs, rfl⟩, _, ⟨t, ht, rfl⟩, hne, o1, o2⟩
      exact ⟨s, hs, t, ht, fun hc => hne (by rw [hc]), onSeg_shear.1 o1, onSeg_shear.1 o2⟩
    · rintro ⟨s, hs, t, ht, hne, o1, o2⟩
      exact ⟨_, ⟨s, hs, rfl⟩, _, ⟨t, ht, rfl⟩, fun hc => hne (shearSeg_inj.1 hc), onSeg_shear.2 o1,
        onSeg_shear.2 o2⟩

end Ply
