import Verif.Proofs.Scan2DQueue
import Mathlib.Data.List.Chain

/-! Invariant of the sweep and its preservation by one event. -/

namespace Ply

/-- The crossing of two neighbours after `p` is scheduled. -/
def Sched (p : Pt) (q : EventQueue) (a b : SweepKey) : Prop :=
  ∀ z, ¬ Parallel a.segment b.segment → OnSeg a.segment z → OnSeg b.segment z → ek p < ek z →
    (qget q z).isSome

/-- State of the sweep after the event `p`. -/
structure Inv (S : List Seg) (p : Pt) (q : EventQueue) (act : List SweepKey) : Prop where
  keys : ∀ k ∈ act, KeyOK S p k
  sorted : act.Pairwise fun a b => ordKey p a.segment < ordKey p b.segment
  complete : ∀ s, ActiveAt S p s → ∃ k ∈ act, k.segment = s
  queue : QOK S p q
  sched : act.IsChain (Sched p q)

variable {S : List Seg}

/-- The next event is in the queue. -/
theorem next_in_queue (hS : ∀ s ∈ S, NonH s) {p : Pt} {q : EventQueue} {act : List SweepKey}
    (h : Inv S p q act) {e : Pt} (he : EventPoint S e) (hpe : ek p < ek e)
    (hno : ∀ z, EventPoint S z → ek p < ek z → ek e ≤ ek z) : (qget q e).isSome := by
  have ends : ∀ s ∈ S, e = s.1 ∨ e = s.2 → (qget q e).isSome := fun s hs h' =>
    h.queue.ends s hs e ((endpoint_cases s e).1 h') hpe
  rcases he with ⟨s, hs, h'⟩ | ⟨u, hu, v, hv, hnp, ou, ov⟩
  · exact ends s hs h'
  · by_cases hend : ∃ s ∈ S, e = lowPt s ∨ e = topPt s
    · obtain ⟨s, hs, h'⟩ := hend
      exact ends s hs ((endpoint_cases s e).2 h')
    · have act_of : ∀ w ∈ S, OnSeg w e → ActiveAt S p w := by
        intro w hw ow
        refine ⟨hw, ?_, ?_⟩
        · by_contra hc
          have h1 := hno _ (event_low hw) (not_le.1 hc)
          have h2 := low_le_of_onSeg (hS w hw) ow
          exact hend ⟨w, hw, Or.inl (ek_inj.1 (le_antisymm h1 h2))⟩
        · exact lt_of_lt_of_le hpe (le_top_of_onSeg (hS w hw) ow)
      obtain ⟨ku, hku, eu⟩ := h.complete u (act_of u hu ou)
      obtain ⟨kv, hkv, ev⟩ := h.complete v (act_of v hv ov)
      have hB : act.Pairwise fun a b => atY a.segment e.2 ≤ atY b.segment e.2 := by
        refine h.sorted.imp_of_mem ?_
        intro a b ha hb hab
        have := ordB_of_ord hS hpe hno (h.keys a ha).active (h.keys b hb).active hab
        rw [ordKeyB_lt] at this
        rcases this with h' | h'
        · exact h'.le
        · exact h'.1.le
      obtain ⟨L, T, R, hl, hL, hT, hR⟩ := split3 (fun k : SweepKey => atY k.segment e.2) e.1 act hB
      have inT : ∀ k ∈ act, OnSeg k.segment e → k ∈ T := by
        intro k hk ok
        have hx := ((onSeg_iff_y (hS _ (h.keys k hk).active.1) _).1 ok).2.2
        rw [hl, List.mem_append, List.mem_append] at hk
        rcases hk with (hk | hk) | hk
        · have := hL k hk; rw [← hx] at this; exact absurd this (lt_irrefl _)
        · exact hk
        · have := hR k hk; rw [← hx] at this; exact absurd this (lt_irrefl _)
      have onT : ∀ k ∈ T, OnSeg k.segment e := by
        intro k hk
        have hka : k ∈ act := by rw [hl]; simp [hk]
        have ha := (h.keys k hka).active
        have hh := active_heights ha
        rw [onSeg_iff_y (hS _ ha.1)]
        refine ⟨hh.1.trans (ek_le_y hpe.le), ?_, (hT k hk).symm⟩
        rw [← topPt_y]
        exact ek_le_y (hno _ (event_top ha.1) ha.2.2)
      obtain ⟨l1, a, b, l2, hadj, hne⟩ := exists_adjacent_ne (fun k : SweepKey => slope k.segment) T
        (inT ku hku (eu ▸ ou)) (inT kv hkv (ev ▸ ov))
        (by simp only [eu, ev]; exact fun hc => hnp ((parallel_iff (hS u hu) (hS v hv)).2 hc))
      have hsc : Sched p q a b := by
        have := h.sched
        rw [hl, hadj] at this
        rw [List.append_assoc, List.isChain_append] at this
        have := this.2.1
        rw [List.append_assoc, List.isChain_append] at this
        have := this.2.1
        rw [List.cons_append, List.cons_append, List.isChain_cons_cons] at this
        exact this.1
      have haT : a ∈ T := by rw [hadj]; simp
      have hbT : b ∈ T := by rw [hadj]; simp
      have haS := (h.keys a (by rw [hl]; simp [haT])).active.1
      have hbS := (h.keys b (by rw [hl]; simp [hbT])).active.1
      exact hsc e (fun hc => hne ((parallel_iff (hS _ haS) (hS _ hbS)).1 hc)) (onT a haT) (onT b hbT) hpe

/-- The head of the queue is the next event. -/
theorem queue_head_min (hS : ∀ s ∈ S, NonH s) {p e : Pt} {st : List SweepKey} {q : EventQueue}
    {act : List SweepKey} (h : Inv S p ((e, st) :: q) act) :
    EventPoint S e ∧ ek p < ek e ∧ st = starts S e ∧
    ∀ z, EventPoint S z → ek p < ek z → ek e ≤ ek z := by
  obtain ⟨h1, h2, h3⟩ := h.queue.entry e st (by rw [qget, if_pos rfl])
  refine ⟨h1, h2, h3, ?_⟩
  obtain ⟨m, hm1, hm2, hm3⟩ := exists_next ⟨e, h1, h2⟩
  have hin := next_in_queue hS h hm1 hm2 hm3
  obtain ⟨l, hl⟩ := qget_isSome.1 hin
  have hle : ek e ≤ ek m := by
    rcases List.mem_cons.1 hl with hl | hl
    · injection hl with hl; rw [hl]
    · exact ((List.pairwise_cons.1 h.queue.sorted).1 _ hl).le
  exact fun z hz1 hz2 => hle.trans (hm3 z hz1 hz2)

/-- Popping the event leaves a queue in order for the next position. -/
theorem QOK.pop {p e : Pt} {st : List SweepKey} {q : EventQueue} (h : QOK S p ((e, st) :: q))
    (hpe : ek p < ek e) : QOK S e q ∧ ∀ z, ek e < ek z → (qget ((e, st) :: q) z).isSome → (qget q z).isSome := by
  obtain ⟨s1, s2⟩ := List.pairwise_cons.1 h.sorted
  have hlt : ∀ z l, qget q z = some l → ek e < ek z := fun z l hz => s1 _ (qget_mem hz)
  have hget : ∀ z, ek e < ek z → qget ((e, st) :: q) z = qget q z := by
    intro z hz
    rw [qget, if_neg]
    rintro rfl
    exact lt_irrefl _ hz
  refine ⟨⟨s2, ?_, ?_⟩, ?_⟩
  · intro z l hz
    have hz' := hlt z l hz
    rw [← hget z hz'] at hz
    obtain ⟨a, _, c⟩ := h.entry z l hz
    exact ⟨a, hz', c⟩
  · intro s hs z hz hez
    rw [← hget z hez]
    exact h.ends s hs z hz (hpe.trans hez)
  · intro z hz hq
    rwa [hget z hz] at hq

/-- `addCrossing` schedules what is needed between two segments. -/
theorem addCrossing_spec {e : Pt} {q : EventQueue} {a b : Seg}
    (ha : a ∈ S) (hb : b ∈ S) (h : QOK S e q)
    (hy : ∀ z, OnSeg a z → OnSeg b z → ek e < ek z → e.2 < z.2) :
    QOK S e (addCrossing a b e q) ∧ (∀ x, (qget q x).isSome → (qget (addCrossing a b e q) x).isSome) ∧
    ∀ z, ¬ Parallel a b → OnSeg a z → OnSeg b z → ek e < ek z → (qget (addCrossing a b e q) z).isSome := by
  unfold addCrossing
  cases hx : nonparallelIntersection a b with
  | none =>
    refine ⟨h, fun x hx => hx, fun z h1 h2 h3 _ => ?_⟩
    rw [nonparallel_some.2 ⟨h1, h2, h3⟩] at hx
    exact absurd hx (by simp)
  | some c =>
    obtain ⟨c1, c2, c3⟩ := nonparallel_some.1 hx
    simp only
    by_cases hc : c.2 > e.2
    · rw [if_pos hc]
      obtain ⟨h1, h2, h3⟩ := h.add (z := c) (Or.inr ⟨a, ha, b, hb, c1, c2, c3⟩) (ek_lt.2 (Or.inl hc))
      refine ⟨h1, h3, fun z z1 z2 z3 _ => ?_⟩
      rw [along_unique z1 z2 z3 c2 c3]
      exact h2
    · rw [if_neg hc]
      refine ⟨h, fun x hx => hx, fun z z1 z2 z3 z4 => ?_⟩
      have := hy z z2 z3 z4
      rw [along_unique z1 z2 z3 c2 c3] at this
      exact absurd this hc

theorem mapM_mkSweepKey {l : List Seg} (h : ∀ s ∈ l, NonH s) (p : Pt) :
    l.mapM (fun s => mkSweepKey s p) = .ok (l.map fun s => (⟨s, p⟩ : SweepKey)) := by
  induction l with
  | nil => rfl
  | cons s l ih =>
    rw [List.mapM_cons, mkSweepKey_ok (h s (by simp)), ih fun t ht => h t (List.mem_cons_of_mem _ ht)]
    rfl

/-- Sorting keys at `e`. -/
theorem sortKeys_spec {l : List Seg} (hnd : l.Nodup) {e : Pt}
    (hlt : ∀ s ∈ l, ∀ t ∈ l, SweepKey.lt ⟨s, e⟩ ⟨t, e⟩ = true ↔ ordKey e s < ordKey e t) :
    ∃ N : List SweepKey, sortKeys (l.map fun s => (⟨s, e⟩ : SweepKey)) = N ∧
      (∀ k, k ∈ N ↔ ∃ s ∈ l, k = ⟨s, e⟩) ∧
      N.Pairwise fun a b => ordKey e a.segment < ordKey e b.segment := by
  refine ⟨_, rfl, ?_, ?_⟩
  · intro k
    unfold sortKeys
    rw [List.mem_insertionSort, List.mem_map]
    simp only [eq_comm]
  · unfold sortKeys
    set K := l.map fun s => (⟨s, e⟩ : SweepKey) with hK
    have e1 : K.insertionSort (fun a b => b.lt a = false) =
        K.insertionSort fun a b => ordKey e a.segment ≤ ordKey e b.segment := by
      have := List.map_insertionSort (f := (id : SweepKey → SweepKey)) (l := K)
        (r := fun a b => b.lt a = false) (s := fun a b => ordKey e a.segment ≤ ordKey e b.segment)
        (by
          intro a ha b hb
          obtain ⟨s, hs, rfl⟩ := List.mem_map.1 ha
          obtain ⟨t, ht, rfl⟩ := List.mem_map.1 hb
          simp only [id]
          rw [← not_lt, ← hlt t ht s hs]
          simp)
      simpa using this
    rw [e1]
    have : Std.Total fun a b : SweepKey => ordKey e a.segment ≤ ordKey e b.segment := ⟨fun a b => le_total _ _⟩
    have : IsTrans SweepKey fun a b => ordKey e a.segment ≤ ordKey e b.segment := ⟨fun a b c h1 h2 => h1.trans h2⟩
    have hp := List.pairwise_insertionSort (fun a b : SweepKey => ordKey e a.segment ≤ ordKey e b.segment) K
    have hndK : (K.insertionSort fun a b => ordKey e a.segment ≤ ordKey e b.segment).Nodup := by
      rw [(List.perm_insertionSort _ _).nodup_iff, hK]
      exact hnd.map fun a b hab => by injection hab
    refine (hp.and hndK).imp_of_mem ?_
    intro a b ha hb hab
    refine lt_of_le_of_ne hab.1 fun hc => hab.2 ?_
    rw [ordKey_inj] at hc
    rw [List.mem_insertionSort] at ha hb
    obtain ⟨s, hs, rfl⟩ := List.mem_map.1 ha
    obtain ⟨t, ht, rfl⟩ := List.mem_map.1 hb
    simp only at hc
    rw [hc]

end Ply
