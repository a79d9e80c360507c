import Verif.Proofs.Scan2DSweep

/-! One event of the sweep. -/

namespace Ply

variable {S : List Seg}

/-- The key used for searching the active list (/repo/plycutter/geometry/impl2d/scan2d.py:237-238). -/
def fakeKey (e : Pt) : SweepKey := ⟨((e.1, e.2), (e.1, e.2 + 1)), e⟩

theorem fake_nonH (e : Pt) : NonH (fakeKey e).segment := by
  unfold NonH fakeKey; simp

theorem fake_good (e : Pt) : (fakeKey e).Good := by
  refine ⟨fake_nonH e, ?_⟩
  exact (atY_fst (fake_nonH e)).symm

theorem fake_lt {e : Pt} {k : SweepKey} (hk : k.Good) (hy : k.pt.2 ≤ e.2) :
    (atY k.segment e.2 < e.1 → (fakeKey e).lt k = false) ∧
    (e.1 < atY k.segment e.2 → (fakeKey e).lt k = true) := by
  have hmax : max (fakeKey e).pt.2 k.pt.2 = e.2 := max_eq_left hy
  have hx : atY (fakeKey e).segment e.2 = e.1 := (fake_good e).2.symm
  constructor
  · intro h
    rw [← Bool.not_eq_true, lt_iff (fake_good e) hk, hmax]
    unfold lexKey
    rw [lex3_lt, hx]
    rintro (h' | h')
    · exact lt_asymm h h'
    · exact h.ne' h'.1
  · intro h
    rw [lt_iff (fake_good e) hk, hmax]
    unfold lexKey
    rw [lex3_lt, hx]
    exact Or.inl h

theorem takeWhile_eq_self {α : Type*} {g : α → Bool} {l : List α} (h : ∀ a ∈ l, g a = true) :
    l.takeWhile g = l ∧ l.dropWhile g = [] := by
  have := takeWhile_append3 (A := l) (B := []) (C := []) h (by simp)
  simpa using this

theorem step_spec (hS : ∀ s ∈ S, NonH s) (hnd : S.Nodup) {p e : Pt} {st : List SweepKey}
    {q : EventQueue} {act : List SweepKey} (h : Inv S p ((e, st) :: q) act) {y : WithBot ℚ}
    (hy : y ≤ (p.2 : WithBot ℚ)) :
    ∃ r, sweepStep y e st q act = .ok r ∧ Inv S e r.queue r.active ∧
      ∃ segs : List Seg, (r.out = if segs.length > 1 then [(e, segs)] else []) ∧ segs.Nodup ∧
        ∀ s, s ∈ segs ↔ s ∈ S ∧ OnSeg s e := by
  obtain ⟨hev, hpe, hst, hno⟩ := queue_head_min hS h
  obtain ⟨hq, hqz⟩ := h.queue.pop hpe
  have hpy : p.2 ≤ e.2 := ek_le_y hpe.le
  -- the active list splits at `e`
  have hordB : act.Pairwise fun a b => ordKeyB e a.segment < ordKeyB e b.segment :=
    h.sorted.imp_of_mem fun {a b} ha hb hab =>
      ordB_of_ord hS hpe hno (h.keys a ha).active (h.keys b hb).active hab
  have hB : act.Pairwise fun a b => atY a.segment e.2 ≤ atY b.segment e.2 := by
    refine hordB.imp ?_
    intro a b this
    rw [ordKeyB_lt] at this
    rcases this with h' | h'
    · exact h'.le
    · exact h'.1.le
  obtain ⟨L, T, R, hl, hL, hT, hR⟩ := split3 (fun k : SweepKey => atY k.segment e.2) e.1 act hB
  have memL : ∀ k ∈ L, k ∈ act := fun k hk => by rw [hl]; simp [hk]
  have memT : ∀ k ∈ T, k ∈ act := fun k hk => by rw [hl]; simp [hk]
  have memR : ∀ k ∈ R, k ∈ act := fun k hk => by rw [hl]; simp [hk]
  have top_ge : ∀ k ∈ act, ek e ≤ ek (topPt k.segment) := fun k hk =>
    hno _ (event_top (h.keys k hk).active.1) (h.keys k hk).active.2.2
  have on_iff : ∀ k ∈ act, (OnSeg k.segment e ↔ atY k.segment e.2 = e.1) := by
    intro k hk
    have ha := (h.keys k hk).active
    rw [onSeg_iff_y (hS _ ha.1)]
    have h1 : lowY k.segment ≤ e.2 := (active_heights ha).1.trans hpy
    have h2 : e.2 ≤ topY k.segment := by rw [← topPt_y]; exact ek_le_y (top_ge k hk)
    constructor
    · rintro ⟨_, _, h'⟩; exact h'.symm
    · intro h'; exact ⟨h1, h2, h'.symm⟩
  -- order relations on the active list
  have hlt : act.Pairwise fun a b => a.lt b = true :=
    h.sorted.imp_of_mem fun {a b} ha hb hab => (lt_active hS (h.keys a ha) (h.keys b hb)).2 hab
  have hirr : ∀ a ∈ act, a.lt a = false := by
    intro a ha
    rw [← Bool.not_eq_true, lt_active hS (h.keys a ha) (h.keys a ha)]
    exact lt_irrefl _
  -- searching
  have hfake : ∀ k ∈ act, _ := fun k hk =>
    fake_lt (e := e) ((h.keys k hk).good hS) ((ek_le_y (h.keys k hk).le).trans hpy)
  set g : SweepKey → Bool := fun k => !((fakeKey e).lt k) with hg
  set hit : SweepKey → Bool := fun k => decide (atY k.segment e.2 = e.1) with hhit
  obtain ⟨tw, dw⟩ := takeWhile_append3 (g := g) (A := L) (B := T) (C := R)
    (fun k hk => by rw [hg]; simp only; rw [(hfake k (memL k hk)).1 (hL k hk)]; rfl)
    (fun k hk => by rw [hg]; simp only; rw [(hfake k (memR k hk)).2 (hR k hk)]; rfl)
  rw [← hl] at tw dw
  set T1 := T.takeWhile g with hT1
  set T2 := T.dropWhile g with hT2
  have hT12 : T1 ++ T2 = T := List.takeWhile_append_dropWhile
  have hitT : ∀ k ∈ T, hit k = true := fun k hk => decide_eq_true (hT k hk)
  have hitL : ∀ k ∈ L, hit k = false := fun k hk => decide_eq_false (hL k hk).ne
  have hitR : ∀ k ∈ R, hit k = false := fun k hk => decide_eq_false (hR k hk).ne'
  obtain ⟨lw1, lw2⟩ := takeWhile_append3 (g := hit) (A := T1.reverse) (B := []) (C := L.reverse)
    (fun k hk => hitT k (by rw [← hT12]; simp only [List.mem_reverse] at hk; simp [hk]))
    (fun k hk => hitL k (by simpa using hk))
  obtain ⟨hw1, hw2⟩ := takeWhile_append3 (g := hit) (A := T2) (B := []) (C := R)
    (fun k hk => hitT k (by rw [← hT12]; simp [hk])) hitR
  simp only [List.append_nil, List.takeWhile_nil, List.dropWhile_nil, List.nil_append] at lw1 lw2 hw1 hw2
  set touches := T1.reverse ++ T2 with htouch
  have mem_touch : ∀ k, k ∈ touches ↔ k ∈ T := by
    intro k; rw [htouch, ← hT12]; simp
  have actnd : act.Nodup := hlt.imp_of_mem fun {a b} ha hb hab e => by
    subst e; rw [hirr a ha] at hab; exact absurd hab (by simp)
  have Tnd : T.Nodup := by
    rw [hl] at actnd
    exact (List.nodup_append.1 (List.nodup_append.1 actnd).1).2.1
  have touch_nd : touches.Nodup := by
    have : touches.Perm T := by
      rw [htouch, ← hT12]
      exact (List.reverse_perm T1).append_right T2
    exact this.nodup_iff.2 Tnd
  have hrem : activeRemoveAll touches act = .ok (L ++ R) := by
    rw [activeRemoveAll_eq hlt hirr touch_nd fun k hk => memT k ((mem_touch k).1 hk)]
    congr 1
    rw [hl, List.filter_append, List.filter_append]
    rw [List.filter_eq_self.2, List.filter_eq_nil_iff.2, List.filter_eq_self.2, List.append_nil]
    · intro k hk
      refine decide_eq_true fun hc => ?_
      rw [mem_touch] at hc
      have := hT k hc; have := hR k hk; linarith
    · intro k hk hc
      exact of_decide_eq_true hc ((mem_touch k).2 hk)
    · intro k hk
      refine decide_eq_true fun hc => ?_
      rw [mem_touch] at hc
      have := hT k hc; have := hL k hk; linarith
  -- segments through `e`
  set segs := (touches ++ st).map SweepKey.segment with hsegs
  have mem_st : ∀ k, k ∈ st ↔ ∃ s ∈ S, lowPt s = e ∧ k = ⟨s, e⟩ := by
    intro k
    rw [hst]; unfold starts
    simp only [List.mem_map, List.mem_filter, decide_eq_true_eq]
    constructor
    · rintro ⟨s, ⟨h1, h2⟩, h3⟩; exact ⟨s, h1, h2, h3.symm⟩
    · rintro ⟨s, h1, h2, h3⟩; exact ⟨s, ⟨h1, h2⟩, h3.symm⟩
  have mem_segs : ∀ s, s ∈ segs ↔ s ∈ S ∧ OnSeg s e := by
    intro s
    rw [hsegs, List.mem_map]
    constructor
    · rintro ⟨k, hk, rfl⟩
      rcases List.mem_append.1 hk with hk | hk
      · rw [mem_touch] at hk
        have hka := memT k hk
        exact ⟨(h.keys k hka).active.1, (on_iff k hka).2 (hT k hk)⟩
      · obtain ⟨s, h1, h2, rfl⟩ := (mem_st k).1 hk
        exact ⟨h1, h2 ▸ onSeg_low (hS s h1)⟩
    · rintro ⟨hs, ho⟩
      by_cases hlow : lowPt s = e
      · exact ⟨⟨s, e⟩, List.mem_append_right _ ((mem_st _).2 ⟨s, hs, hlow, rfl⟩), rfl⟩
      · have h1 : ek (lowPt s) < ek e :=
          lt_of_le_of_ne (low_le_of_onSeg (hS s hs) ho) fun hc => hlow (ek_inj.1 hc)
        have h2 : ek (lowPt s) ≤ ek p := by
          by_contra hc
          exact absurd (hno _ (event_low hs) (not_le.1 hc)) (not_le.2 h1)
        obtain ⟨k, hk, rfl⟩ := h.complete s ⟨hs, h2,
          lt_of_lt_of_le hpe (le_top_of_onSeg (hS s hs) ho)⟩
        refine ⟨k, List.mem_append_left _ ((mem_touch k).2 ?_), rfl⟩
        have hx := (on_iff k hk).1 ho
        rw [hl, List.mem_append, List.mem_append] at hk
        rcases hk with (hk | hk) | hk
        · exact absurd hx (hL k hk).ne
        · exact hk
        · exact absurd hx (hR k hk).ne'
  have segs_nd : segs.Nodup := by
    have a1 : (touches.map SweepKey.segment).Nodup := by
      have hp : touches.Perm T := by
        rw [htouch, ← hT12]
        exact (List.reverse_perm T1).append_right T2
      rw [(hp.map _).nodup_iff]
      have : (act.map SweepKey.segment).Nodup := by
        unfold List.Nodup
        rw [List.pairwise_map]
        refine h.sorted.imp ?_
        intro a b hab hc
        rw [hc] at hab; exact lt_irrefl _ hab
      rw [hl, List.map_append, List.map_append] at this
      exact (List.nodup_append.1 (List.nodup_append.1 this).1).2.1
    have a2 : (st.map SweepKey.segment).Nodup := by
      rw [hst]; unfold starts
      rw [List.map_map]
      have : (SweepKey.segment ∘ fun s => (⟨s, e⟩ : SweepKey)) = id := rfl
      rw [this, List.map_id]
      exact hnd.filter _
    rw [hsegs, List.map_append, List.nodup_append]
    refine ⟨a1, a2, ?_⟩
    intro a ha b hb hab
    subst hab
    obtain ⟨k, hk, e1⟩ := List.mem_map.1 ha
    obtain ⟨k', hk', e2⟩ := List.mem_map.1 hb
    obtain ⟨s, h1, h2, rfl⟩ := (mem_st k').1 hk'
    simp only at e2
    subst e2
    have := (h.keys k (memT k ((mem_touch k).1 hk))).active.2.1
    rw [e1, h2] at this
    exact absurd hpe (not_lt.2 this)
  -- new keys
  set kept := segs.filter fun s => !(decide (max s.1.2 s.2.2 ≤ e.2)) with hkept
  have mem_kept : ∀ s, s ∈ kept ↔ s ∈ S ∧ OnSeg s e ∧ e.2 < topY s := by
    intro s
    rw [hkept, List.mem_filter, mem_segs]
    unfold topY
    simp only [Bool.not_eq_true', decide_eq_false_iff_not, not_le, and_assoc]
  have keyN : ∀ s ∈ kept, KeyOK S e ⟨s, e⟩ := by
    intro s hs
    obtain ⟨h1, h2, h3⟩ := (mem_kept s).1 hs
    exact ⟨⟨h1, low_le_of_onSeg (hS s h1) h2, ek_lt.2 (Or.inl (by simp only [topPt_y]; exact h3))⟩, h2, le_rfl,
      fun z _ _ hz => hz⟩
  obtain ⟨N, hN, memN, sortN⟩ := sortKeys_spec (l := kept) (segs_nd.filter _) (e := e)
    fun s hs t ht => lt_active hS (keyN s hs) (keyN t ht)
  have okN : ∀ k ∈ N, KeyOK S e k := by
    intro k hk
    obtain ⟨s, hs, rfl⟩ := (memN k).1 hk
    exact keyN s hs
  have onN : ∀ k ∈ N, k.segment ∈ S ∧ OnSeg k.segment e := by
    intro k hk
    obtain ⟨s, hs, rfl⟩ := (memN k).1 hk
    exact ⟨((mem_kept s).1 hs).1, ((mem_kept s).1 hs).2.1⟩
  have okOther : ∀ k ∈ act, atY k.segment e.2 ≠ e.1 → KeyOK S e k := by
    intro k hk hne
    have hk' := h.keys k hk
    have hon : ¬ OnSeg k.segment e := fun hc => hne ((on_iff k hk).1 hc)
    refine ⟨⟨hk'.active.1, hk'.active.2.1.trans hpe.le, ?_⟩, hk'.on, hk'.le.trans hpe.le, ?_⟩
    · refine lt_of_le_of_ne (top_ge k hk) fun hc => hon ?_
      rw [ek_inj.1 hc]; exact onSeg_top (hS _ hk'.active.1)
    · intro z hz hzo hze
      by_contra hc
      have hpz : ek p < ek z := by
        by_contra hc'
        exact hc (hk'.last z hz hzo (not_lt.1 hc'))
      have := hno z hz hpz
      have : z = e := ek_inj.1 (le_antisymm hze this)
      exact hon (this ▸ hzo)
  have okL : ∀ k ∈ L, KeyOK S e k := fun k hk => okOther k (memL k hk) (hL k hk).ne
  have okR : ∀ k ∈ R, KeyOK S e k := fun k hk => okOther k (memR k hk) (hR k hk).ne'
  have xN : ∀ k ∈ N, atY k.segment e.2 = e.1 := fun k hk =>
    ((onSeg_iff_y (hS _ (onN k hk).1) _).1 (onN k hk).2).2.2.symm
  have ordLN : ∀ a ∈ L, ∀ b ∈ N, ordKey e a.segment < ordKey e b.segment := fun a ha b hb =>
    ordKey_lt.2 (Or.inl (by rw [xN b hb]; exact hL a ha))
  have ordNR : ∀ a ∈ N, ∀ b ∈ R, ordKey e a.segment < ordKey e b.segment := fun a ha b hb =>
    ordKey_lt.2 (Or.inl (by rw [xN a ha]; exact hR b hb))
  have ordLR : ∀ a ∈ L, ∀ b ∈ R, ordKey e a.segment < ordKey e b.segment := fun a ha b hb =>
    ordKey_lt.2 (Or.inl (lt_trans (hL a ha) (hR b hb)))
  have hfold : N.foldl (fun act k => activeAdd k act) (L ++ R) = L ++ N ++ R := by
    apply foldl_activeAdd
    · intro k hk a ha
      rw [← Bool.not_eq_true, lt_active hS (okN k hk) (okL a ha)]
      exact lt_asymm (ordLN a ha k hk)
    · intro k hk b hb
      rw [lt_active hS (okN k hk) (okR b hb)]
      exact ordNR k hk b hb
    · refine sortN.imp_of_mem ?_
      intro a b ha hb hab
      rw [← Bool.not_eq_true, lt_active hS (okN b hb) (okN a ha)]
      exact lt_asymm hab
  have sortL : L.Pairwise fun a b => ordKey e a.segment < ordKey e b.segment := by
    rw [hl, List.pairwise_append, List.pairwise_append] at hordB
    refine hordB.1.1.imp_of_mem ?_
    intro a b ha hb hab
    rwa [ordKey_eq_B (hL a ha).ne, ordKey_eq_B (hL b hb).ne]
  have sortR : R.Pairwise fun a b => ordKey e a.segment < ordKey e b.segment := by
    rw [hl, List.pairwise_append] at hordB
    refine hordB.2.1.imp_of_mem ?_
    intro a b ha hb hab
    rwa [ordKey_eq_B (hR a ha).ne', ordKey_eq_B (hR b hb).ne']
  -- assembling the invariant for a queue that has the new crossings
  have assemble : ∀ q', QOK S e q' → (∀ x, (qget q x).isSome → (qget q' x).isSome) →
      (∀ a ∈ L.getLast?, ∀ b ∈ N.head?, Sched e q' a b) →
      (∀ a ∈ N.getLast?, ∀ b ∈ R.head?, Sched e q' a b) →
      (N = [] → ∀ a ∈ L.getLast?, ∀ b ∈ R.head?, Sched e q' a b) →
      Inv S e q' (L ++ N ++ R) := by
    intro q' hq' hmono hLN hNR hLR
    have chainOld : ∀ l : List SweepKey, l.IsChain (Sched p ((e, st) :: q)) → l.IsChain (Sched e q') := by
      intro l hl
      refine hl.imp ?_
      intro a b hab z h1 h2 h3 h4
      exact hmono z (hqz z h4 (hab z h1 h2 h3 (hpe.trans h4)))
    have hs := h.sched
    rw [hl, List.isChain_append, List.isChain_append] at hs
    refine ⟨?_, ?_, ?_, hq', ?_⟩
    · intro k hk
      rw [List.mem_append, List.mem_append] at hk
      rcases hk with (hk | hk) | hk
      · exact okL k hk
      · exact okN k hk
      · exact okR k hk
    · rw [List.pairwise_append, List.pairwise_append]
      refine ⟨⟨sortL, sortN, ordLN⟩, sortR, ?_⟩
      intro a ha b hb
      rcases List.mem_append.1 ha with ha | ha
      · exact ordLR a ha b hb
      · exact ordNR a ha b hb
    · intro s ⟨hs1, hs2, hs3⟩
      by_cases ho : OnSeg s e
      · refine ⟨⟨s, e⟩, ?_, rfl⟩
        simp only [List.mem_append]
        refine Or.inl (Or.inr ((memN _).2 ⟨s, (mem_kept s).2 ⟨hs1, ho, ?_⟩, rfl⟩))
        have hle := ((onSeg_iff_y (hS s hs1) _).1 ho).2.1
        refine lt_of_le_of_ne hle fun hc => ?_
        have : e = topPt s := onSeg_ext (hS s hs1) ho (onSeg_top (hS s hs1)) (by rw [topPt_y]; exact hc)
        rw [← this] at hs3
        exact lt_irrefl _ hs3
      · have h1 : ek (lowPt s) < ek e := lt_of_le_of_ne hs2 fun hc => ho (by
          rw [← ek_inj.1 hc]; exact onSeg_low (hS s hs1))
        have h2 : ek (lowPt s) ≤ ek p := by
          by_contra hc
          exact absurd (hno _ (event_low hs1) (not_le.1 hc)) (not_le.2 h1)
        obtain ⟨k, hk, rfl⟩ := h.complete s ⟨hs1, h2, hpe.trans hs3⟩
        refine ⟨k, ?_, rfl⟩
        have hk2 := hk
        rw [hl] at hk2
        simp only [List.mem_append] at hk2 ⊢
        rcases hk2 with (hk2 | hk2) | hk2
        · exact Or.inl (Or.inl hk2)
        · exact absurd ((on_iff k hk).2 (hT k hk2)) ho
        · exact Or.inr hk2
    · have chN : N.IsChain (Sched e q') := by
        have : N.Pairwise (Sched e q') := by
          refine sortN.imp_of_mem ?_
          intro a b ha hb _ z h1 h2 h3 h4
          have := along_unique h1 h2 h3 (onN a ha).2 (onN b hb).2
          rw [this] at h4
          exact absurd h4 (lt_irrefl _)
        exact this.isChain
      rw [List.isChain_append, List.isChain_append]
      refine ⟨⟨chainOld _ hs.1.1, chN, hLN⟩, chainOld _ hs.2.1, ?_⟩
      intro a ha b hb
      by_cases hne : N = []
      · rw [hne, List.append_nil] at ha
        exact hLR hne a ha b hb
      · rw [List.getLast?_append_of_ne_nil _ hne] at ha
        exact hNR a ha b hb
  -- crossings of new neighbours lie strictly above
  have upN : ∀ k ∈ N, ∀ z, OnSeg k.segment z → ek e < ek z → e.2 < z.2 := by
    intro k hk z hz hez
    refine lt_of_le_of_ne (ek_le_y hez.le) fun hc => ?_
    have := onSeg_ext (hS _ (onN k hk).1) (onN k hk).2 hz hc
    rw [this] at hez; exact lt_irrefl _ hez
  have sched_comm : ∀ q' (a b : SweepKey), Sched e q' a b → Sched e q' b a := by
    intro q' a b hab z h1 h2 h3 h4
    refine hab z (fun hc => h1 ?_) h3 h2 h4
    unfold Parallel cross at *; linarith
  -- run the program
  have hyy : y ≤ (e.2 : WithBot ℚ) := hy.trans (WithBot.coe_le_coe.2 hpy)
  have lower_eq : (act.takeWhile g).reverse = T1.reverse ++ L.reverse := by rw [tw, List.reverse_append]
  have run : sweepStep y e st q act = (match N.head?, N.getLast? with
    | some first, some last =>
      let queue := match L.getLast? with
        | some n => addCrossing first.segment n.segment e q
        | none => q
      let queue := match R.head? with
        | some n => addCrossing last.segment n.segment e queue
        | none => queue
      .ok ⟨(if segs.length > 1 then [(e, segs)] else []), queue,
        N.foldl (fun act k => activeAdd k act) (L ++ R)⟩
    | _, _ =>
      match L.getLast?, R.head? with
      | some n0, some n1 => .ok ⟨(if segs.length > 1 then [(e, segs)] else []),
          addCrossing n0.segment n1.segment e q, L ++ R⟩
      | _, _ => .ok ⟨(if segs.length > 1 then [(e, segs)] else []), q, L ++ R⟩) := by
    unfold sweepStep
    rw [if_pos hyy]
    have hmk : mkSweepKey ((e.1, e.2), (e.1, e.2 + 1)) e = .ok (fakeKey e) := mkSweepKey_ok (fake_nonH e) e
    simp only [hmk]
    show (do
      let active ← activeRemoveAll (((act.takeWhile g).reverse).takeWhile hit ++
        (act.dropWhile g).takeWhile hit) act
      _ : Except PyErr SweepStep) = _
    rw [lower_eq, dw, lw1, hw1, hrem]
    show (do
      let sweep_keys ← kept.mapM fun s => mkSweepKey s e
      _ : Except PyErr SweepStep) = _
    rw [mapM_mkSweepKey (fun s hs => hS s ((mem_kept s).1 hs).1)]
    have lw2' : List.dropWhile (fun k : SweepKey => decide (atY k.segment e.2 = e.1))
        (T1.reverse ++ L.reverse) = L.reverse := lw2
    have hw2' : List.dropWhile (fun k : SweepKey => decide (atY k.segment e.2 = e.1)) (T2 ++ R) = R := hw2
    rw [lw2', hw2', List.head?_reverse]
    show (match (sortKeys _).head?, (sortKeys _).getLast? with
      | some first, some last => _
      | _, _ => _) = _
    rw [hN]
    rfl
  rw [run]
  cases hNl : N.head? with
  | none =>
    have hN0 : N = [] := List.head?_eq_none_iff.1 hNl
    have upLR : ∀ a ∈ L, ∀ b ∈ R, ∀ z, OnSeg a.segment z → OnSeg b.segment z → ek e < ek z → e.2 < z.2 := by
      intro a ha b hb z h1 h2 h3
      refine lt_of_le_of_ne (ek_le_y h3.le) fun hc => ?_
      have e1 := ((onSeg_iff_y (hS _ (okL a ha).active.1) _).1 h1).2.2
      have e2 := ((onSeg_iff_y (hS _ (okR b hb).active.1) _).1 h2).2.2
      have e3 := hL a ha
      have e4 := hR b hb
      rw [← hc] at e1 e2
      linarith
    cases hLl : L.getLast? with
    | none =>
      refine ⟨_, rfl, ?_, segs, rfl, segs_nd, mem_segs⟩
      have := assemble q hq (fun x hx => hx) (by simp [hLl]) (by simp [hN0]) (by simp [hLl])
      simpa [hN0] using this
    | some n0 =>
      cases hRl : R.head? with
      | none =>
        refine ⟨_, rfl, ?_, segs, rfl, segs_nd, mem_segs⟩
        have := assemble q hq (fun x hx => hx) (by simp [hN0]) (by simp [hN0]) (by simp [hRl])
        simpa [hN0] using this
      | some n1 =>
        have m0 : n0 ∈ L := List.mem_of_getLast? hLl
        have m1 : n1 ∈ R := List.mem_of_head? hRl
        obtain ⟨a1, a2, a3⟩ := addCrossing_spec (okL n0 m0).active.1 (okR n1 m1).active.1 hq
          (upLR n0 m0 n1 m1)
        refine ⟨_, rfl, ?_, segs, rfl, segs_nd, mem_segs⟩
        have := assemble _ a1 a2 (by simp [hN0]) (by simp [hN0]) (by
          intro _ a ha b hb
          rw [hLl] at ha; rw [hRl] at hb
          simp only [Option.mem_def, Option.some.injEq] at ha hb
          subst ha hb
          exact a3)
        simpa [hN0] using this
  | some first =>
    have hNne : N ≠ [] := by rintro rfl; simp at hNl
    obtain ⟨last, hlast⟩ : ∃ last, N.getLast? = some last := by
      cases hNx : N.getLast? with
      | none => exact absurd (List.getLast?_eq_none_iff.1 hNx) hNne
      | some last => exact ⟨last, rfl⟩
    rw [hlast]
    simp only
    rw [hfold]
    have mf : first ∈ N := List.mem_of_head? hNl
    have ml : last ∈ N := List.mem_of_getLast? hlast
    obtain ⟨q1, hq1, b1, b2, b3⟩ : ∃ q1, (match L.getLast? with
        | some n => addCrossing first.segment n.segment e q
        | none => q) = q1 ∧ QOK S e q1 ∧ (∀ x, (qget q x).isSome → (qget q1 x).isSome) ∧
        ∀ a ∈ L.getLast?, Sched e q1 first a := by
      cases hLl : L.getLast? with
      | none => exact ⟨q, rfl, hq, fun x hx => hx, by simp⟩
      | some n =>
        have m0 : n ∈ L := List.mem_of_getLast? hLl
        obtain ⟨a1, a2, a3⟩ := addCrossing_spec (onN first mf).1 (okL n m0).active.1 hq
          (fun z h1 _ h3 => upN first mf z h1 h3)
        refine ⟨_, rfl, a1, a2, ?_⟩
        intro a ha
        simp only [Option.mem_def, Option.some.injEq] at ha
        subst ha
        exact a3
    rw [hq1]
    obtain ⟨q2, hq2, c1, c2, c3⟩ : ∃ q2, (match R.head? with
        | some n => addCrossing last.segment n.segment e q1
        | none => q1) = q2 ∧ QOK S e q2 ∧ (∀ x, (qget q1 x).isSome → (qget q2 x).isSome) ∧
        ∀ a ∈ R.head?, Sched e q2 last a := by
      cases hRl : R.head? with
      | none => exact ⟨q1, rfl, b1, fun x hx => hx, by simp⟩
      | some n =>
        have m0 : n ∈ R := List.mem_of_head? hRl
        obtain ⟨a1, a2, a3⟩ := addCrossing_spec (onN last ml).1 (okR n m0).active.1 b1
          (fun z h1 _ h3 => upN last ml z h1 h3)
        refine ⟨_, rfl, a1, a2, ?_⟩
        intro a ha
        simp only [Option.mem_def, Option.some.injEq] at ha
        subst ha
        exact a3
    rw [hq2]
    refine ⟨_, rfl, ?_, segs, rfl, segs_nd, mem_segs⟩
    refine assemble q2 c1 (fun x hx => c2 x (b2 x hx)) ?_ ?_ ?_
    · intro a ha b hb
      rw [hNl] at hb
      simp only [Option.mem_def, Option.some.injEq] at hb
      subst hb
      refine sched_comm _ _ _ ?_
      intro z h1 h2 h3 h4
      exact c2 z (b3 a ha z h1 h2 h3 h4)
    · intro a ha b hb
      rw [hlast] at ha
      simp only [Option.mem_def, Option.some.injEq] at ha
      subst ha
      exact c3 b hb
    · exact fun hc => absurd hc hNne

end Ply
