import Verif.Proofs.ArrPoints

/-!
# The vertices and half-edges of an arrangement
-/

namespace Ply.Arr

local notation "𝔻" => frangleUnitSquareVector

theorem heFrangle_spec (he : Seg) (h : he.1 ≠ he.2) :
    ∃ f r : ℚ, heFrangle he = .ok f ∧ 0 ≤ f ∧ f < 8 ∧ 0 < r ∧ dir he = r • 𝔻 f := by
  have hv : (he.2.1 - he.1.1, he.2.2 - he.1.2) ≠ ((0, 0) : Pt) := by
    intro hc
    have h1 := congrArg Prod.fst hc
    have h2 := congrArg Prod.snd hc
    dsimp only at h1 h2
    exact h (Prod.ext (by linarith) (by linarith))
  obtain ⟨k, f, hk, h0, h8, h1, h2⟩ := polar _ hv
  exact ⟨f, k, h2, h0, h8, hk, h1⟩

/-- The half-edges that start at a vertex, sorted by direction. -/
structure FanOK (H : List Seg) (c : Pt) (fan : Fan) : Prop where
  sorted : fan.Pairwise fun x y => x.1 < y.1
  sound : ∀ x ∈ fan, x.2 ∈ H ∧ x.2.1 = c ∧ heFrangle x.2 = .ok x.1
  complete : ∀ he ∈ H, he.1 = c → ∃ k, (k, he) ∈ fan

theorem mem_fanInsert (x y : ℚ × Seg) (fan : Fan) : y ∈ fanInsert x fan ↔ y = x ∨ y ∈ fan := by
  induction fan with
  | nil => simp [fanInsert]
  | cons z fan ih =>
    unfold fanInsert
    split_ifs
    · simp
    · rw [List.mem_cons, ih, List.mem_cons]
      constructor
      · rintro (h | h | h)
        · exact Or.inr (Or.inl h)
        · exact Or.inl h
        · exact Or.inr (Or.inr h)
      · rintro (h | h | h)
        · exact Or.inr (Or.inl h)
        · exact Or.inl h
        · exact Or.inr (Or.inr h)

theorem sorted_fanInsert (x : ℚ × Seg) (fan : Fan) (h : fan.Pairwise fun x y => x.1 < y.1)
    (hx : ∀ y ∈ fan, y.1 ≠ x.1) : (fanInsert x fan).Pairwise fun x y => x.1 < y.1 := by
  induction fan with
  | nil => simp [fanInsert]
  | cons z fan ih =>
    rw [List.pairwise_cons] at h
    unfold fanInsert
    split_ifs with hlt
    · rw [List.pairwise_cons, List.pairwise_cons]
      refine ⟨?_, h⟩
      intro y hy
      rcases List.mem_cons.1 hy with rfl | hy
      · exact hlt
      · exact hlt.trans (h.1 y hy)
    · rw [List.pairwise_cons]
      refine ⟨?_, ih h.2 fun y hy => hx y (List.mem_cons_of_mem _ hy)⟩
      intro y hy
      rcases (mem_fanInsert _ _ _).1 hy with rfl | hy
      · exact lt_of_le_of_ne (not_lt.1 hlt) (hx z List.mem_cons_self)
      · exact h.1 y hy

/-- Adding a new half-edge to the fan of its vertex. -/
theorem addHalfEdge_spec {S H H' : List Seg} {c : Pt} {fan : Fan} (hf : FanOK H c fan) (he : Seg) (hc : he.1 = c)
    (hel : ∀ h ∈ H, Elem S h) (hE : Elem S he) (hnew : he ∉ H)
    (hH : ∀ e, e ∈ H' ↔ e ∈ H ∨ e = he ∨ (e = (he.2, he.1))) :
    ∃ fan', addHalfEdge c fan he = .ok fan' ∧ FanOK H' c fan' := by
  obtain ⟨f, r, hk, f0, f8, hr, hd⟩ := heFrangle_spec he hE.ne
  have hkey : vkey c he = .ok f := by unfold vkey; rw [if_pos hc, hk]
  have hno : ∀ y ∈ fan, y.1 ≠ f := by
    intro y hy hyf
    obtain ⟨a1, a2, a3⟩ := hf.sound y hy
    obtain ⟨g, r', hk', _, _, hr', hd'⟩ := heFrangle_spec y.2 (hel _ a1).ne
    rw [hk'] at a3
    cases a3
    rw [hyf] at hd'
    have := elem_same_dir (hel _ a1) hE (a2.trans hc.symm) hr' hr hd' hd
    exact hnew (this ▸ a1)
  refine ⟨fanInsert (f, he) fan, ?_, ?_, ?_, ?_⟩
  · unfold addHalfEdge
    rw [hkey]
    show (if _ then _ else _) = _
    rw [if_neg]
    · rfl
    · rw [List.any_eq_true]
      rintro ⟨y, hy, h⟩
      exact hno y hy (of_decide_eq_true h)
  · exact sorted_fanInsert _ _ hf.sorted hno
  · intro x hx
    rcases (mem_fanInsert _ _ _).1 hx with rfl | hx
    · exact ⟨(hH _).2 (Or.inr (Or.inl rfl)), hc, hk⟩
    · obtain ⟨a1, a2, a3⟩ := hf.sound x hx
      exact ⟨(hH _).2 (Or.inl a1), a2, a3⟩
  · intro e he' hec
    rcases (hH e).1 he' with h | rfl | rfl
    · obtain ⟨k, hk⟩ := hf.complete e h hec
      exact ⟨k, (mem_fanInsert _ _ _).2 (Or.inr hk)⟩
    · exact ⟨f, (mem_fanInsert _ _ _).2 (Or.inl rfl)⟩
    · exact absurd (hc.trans hec.symm) hE.ne

/-- What holds while edges are added. -/
structure NetOK (S : List Seg) (verts : List Pt) (net : Net) : Prop where
  nodup : net.halfEdges.Nodup
  rev : ∀ h ∈ net.halfEdges, (h.2, h.1) ∈ net.halfEdges
  elem : ∀ h ∈ net.halfEdges, Elem S h
  keys : net.vertices.map Prod.fst = verts
  fans : ∀ c fan, dget c net.vertices = .ok fan → FanOK net.halfEdges c fan

theorem addToEdge_spec {S : List Seg} {verts : List Pt} {net : Net} (hn : NetOK S verts net) (v0 v1 : Pt)
    (hE : Elem S (v0, v1)) (h0 : v0 ∈ verts) (h1 : v1 ∈ verts) :
    ∃ net', addToEdge net v0 v1 = .ok net' ∧ NetOK S verts net' ∧
      ∀ e, e ∈ net'.halfEdges ↔ e ∈ net.halfEdges ∨ e = (v0, v1) ∨ e = (v1, v0) := by
  by_cases hin : (v0, v1) ∈ net.halfEdges
  · refine ⟨net, by unfold addToEdge; rw [if_pos hin], hn, ?_⟩
    intro e
    constructor
    · exact Or.inl
    · rintro (h | rfl | rfl)
      · exact h
      · exact hin
      · exact hn.rev _ hin
  · have hin' : (v1, v0) ∉ net.halfEdges := fun hc => hin (hn.rev _ hc)
    have hne : v0 ≠ v1 := hE.ne
    have hE' : Elem S (v1, v0) := hE.rev
    obtain ⟨f, _, hf, _⟩ := heFrangle_spec (v0, v1) hne
    obtain ⟨f', _, hf', _⟩ := heFrangle_spec (v1, v0) hne.symm
    obtain ⟨fan0, d0⟩ := dget_ok (d := net.vertices) (k := v0) (by rw [hn.keys]; exact h0)
    obtain ⟨fan1, d1⟩ := dget_ok (d := net.vertices) (k := v1) (by rw [hn.keys]; exact h1)
    set H' := sadd (v1, v0) (net.halfEdges ++ [(v0, v1)]) with hH'
    have hmem : ∀ e, e ∈ H' ↔ e ∈ net.halfEdges ∨ e = (v0, v1) ∨ e = (v1, v0) := by
      intro e
      rw [hH', mem_sadd, List.mem_append, List.mem_singleton, or_assoc]
    have hmem' : ∀ e, e ∈ H' ↔ e ∈ net.halfEdges ∨ e = (v1, v0) ∨ e = (v0, v1) := by
      intro e
      rw [hmem, or_comm (a := e = (v0, v1))]
    obtain ⟨g0, a1, a2⟩ := addHalfEdge_spec (hn.fans _ _ d0) (v0, v1) rfl hn.elem hE hin hmem
    obtain ⟨g1, b1, b2⟩ := addHalfEdge_spec (hn.fans _ _ d1) (v1, v0) rfl hn.elem hE' hin' hmem'
    have hk0 : (dset v0 g0 net.vertices).map Prod.fst = verts := by
      rw [keys_dset _ _ _ (by rw [hn.keys]; exact h0), hn.keys]
    refine ⟨⟨H', dset v1 g1 (dset v0 g0 net.vertices)⟩, ?_, ?_, hmem⟩
    · unfold addToEdge
      rw [if_neg hin, hf]
      show (heFrangle (v1, v0) >>= _) = _
      rw [hf']
      show (dget v0 net.vertices >>= _) = _
      rw [d0]
      show (addHalfEdge v0 fan0 (v0, v1) >>= _) = _
      rw [a1]
      show (dget v1 (dset v0 g0 net.vertices) >>= _) = _
      rw [dget_dset, if_neg hne.symm, d1]
      show (addHalfEdge v1 fan1 (v1, v0) >>= _) = _
      rw [b1]
      rfl
    · refine ⟨?_, ?_, ?_, ?_, ?_⟩
      · refine nodup_sadd _ _ ?_
        rw [List.nodup_append]
        refine ⟨hn.nodup, by simp, ?_⟩
        intro a ha b hb
        simp only [List.mem_singleton] at hb
        rintro rfl
        exact hin (hb ▸ ha)
      · intro e he
        rcases (hmem e).1 he with h | rfl | rfl
        · exact (hmem _).2 (Or.inl (hn.rev e h))
        · exact (hmem _).2 (Or.inr (Or.inr rfl))
        · exact (hmem _).2 (Or.inr (Or.inl rfl))
      · intro e he
        rcases (hmem e).1 he with h | rfl | rfl
        · exact hn.elem e h
        · exact hE
        · exact hE'
      · show (dset v1 g1 (dset v0 g0 net.vertices)).map Prod.fst = verts
        rw [keys_dset _ _ _ (by rw [hk0]; exact h1), hk0]
      · intro c fan hc
        show FanOK H' c fan
        replace hc : dget c (dset v1 g1 (dset v0 g0 net.vertices)) = .ok fan := hc
        rw [dget_dset, dget_dset] at hc
        split_ifs at hc with c1 c0
        · cases hc; subst c1; exact b2
        · cases hc; subst c0; exact a2
        · have := hn.fans c fan hc
          refine ⟨this.sorted, fun x hx => ?_, fun e he hec => ?_⟩
          · obtain ⟨a1, a2, a3⟩ := this.sound x hx
            exact ⟨(hmem _).2 (Or.inl a1), a2, a3⟩
          · rcases (hmem e).1 he with h | rfl | rfl
            · exact this.complete e h hec
            · exact absurd hec.symm c0
            · exact absurd hec.symm c1

theorem addChain_spec {S : List Seg} {verts : List Pt} (vs : List Pt) (net : Net) (hn : NetOK S verts net)
    (hE : ∀ e ∈ consec vs, Elem S e ∧ e.1 ∈ verts ∧ e.2 ∈ verts) :
    ∃ net', addChain vs net = .ok net' ∧ NetOK S verts net' ∧
      ∀ e, e ∈ net'.halfEdges ↔ e ∈ net.halfEdges ∨ e ∈ consec vs ∨ (e.2, e.1) ∈ consec vs := by
  induction vs generalizing net with
  | nil => exact ⟨net, rfl, hn, by simp [consec]⟩
  | cons a vs ih =>
    cases vs with
    | nil => exact ⟨net, rfl, hn, by simp [consec]⟩
    | cons b rest =>
      obtain ⟨e1, e2, e3⟩ := hE (a, b) (by simp [consec])
      obtain ⟨net1, a1, a2, a3⟩ := addToEdge_spec hn a b e1 e2 e3
      obtain ⟨net2, b1, b2, b3⟩ := ih net1 a2 fun e he => hE e (by rw [consec]; exact List.mem_cons_of_mem _ he)
      refine ⟨net2, ?_, b2, ?_⟩
      · rw [addChain, a1]; exact b1
      · intro e
        rw [b3, a3, consec, List.mem_cons, List.mem_cons]
        constructor
        · rintro ((h | rfl | rfl) | h | h)
          · exact Or.inl h
          · exact Or.inr (Or.inl (Or.inl rfl))
          · exact Or.inr (Or.inr (Or.inl rfl))
          · exact Or.inr (Or.inl (Or.inr h))
          · exact Or.inr (Or.inr (Or.inr h))
        · rintro (h | (rfl | h) | (h | h))
          · exact Or.inl (Or.inl h)
          · exact Or.inl (Or.inr (Or.inl rfl))
          · exact Or.inr (Or.inl h)
          · refine Or.inl (Or.inr (Or.inr ?_))
            have h1 := congrArg Prod.fst h
            have h2 := congrArg Prod.snd h
            exact Prod.ext h2 h1
          · exact Or.inr (Or.inr h)

theorem segSorted_cases (s : Seg) : segSorted s = s ∨ segSorted s = (s.2, s.1) := by
  unfold segSorted
  split_ifs
  · exact Or.inr rfl
  · exact Or.inl rfl

theorem onSeg_sorted (s : Seg) (x : Pt) : OnSeg (segSorted s) x ↔ OnSeg s x := by
  rcases segSorted_cases s with h | h <;> rw [h]
  exact onSeg_rev s x

theorem addSegments_spec {S : List Seg} {verts : List Pt} (sv : List (Seg × List Pt)) (hsv : ∀ s, (dgetSet s sv).Nodup)
    (hS : ∀ s ∈ S, ∀ p, p ∈ dgetSet s sv ↔ EventPoint S p ∧ OnSeg s p)
    (hv : ∀ p, EventPoint S p → p ∈ verts) (segs : List Seg)
    (hs : ∀ s ∈ segs, s.1 ≠ s.2 ∧ segSorted s ∈ S) (net : Net) (hn : NetOK S verts net) :
    ∃ net', addSegments sv segs net = .ok net' ∧ NetOK S verts net' ∧
      ∀ x, OnAny net'.halfEdges x ↔ OnAny net.halfEdges x ∨ OnAny segs x := by
  induction segs generalizing net with
  | nil => exact ⟨net, rfl, hn, by simp [OnAny]⟩
  | cons s rest ih =>
    obtain ⟨hne, hsS⟩ := hs s List.mem_cons_self
    have hV := hS _ hsS
    set V := dgetSet (segSorted s) sv with hVdef
    have hev : EventPoint S s.1 ∧ EventPoint S s.2 := by
      constructor <;> refine Or.inl ⟨_, hsS, ?_⟩ <;> rcases segSorted_cases s with h | h <;> rw [h] <;> simp
    obtain ⟨p1, p2, p3⟩ := sorted_pieces s hne V (hsv _) (fun p hp => (onSeg_sorted s p).1 ((hV p).1 hp).2)
      ((hV _).2 ⟨hev.1, (onSeg_sorted s _).2 (onSeg_left s)⟩) ((hV _).2 ⟨hev.2, (onSeg_sorted s _).2 (onSeg_right s)⟩)
    have hElem : ∀ e ∈ consec (sortFrom s.1 V), Elem S e ∧ e.1 ∈ verts ∧ e.2 ∈ verts := by
      intro e he
      obtain ⟨q1, q2, q3, q4⟩ := p2 e he
      have r1 := (hV _).1 q1
      have r2 := (hV _).1 q2
      refine ⟨⟨q3, ⟨_, hsS, r1.2, r2.2⟩, r1.1, r2.1, ?_⟩, hv _ r1.1, hv _ r2.1⟩
      intro x hx hxe
      exact q4 x ((hV x).2 ⟨hx, onSeg_sub r1.2 r2.2 hxe⟩) hxe
    obtain ⟨net1, a1, a2, a3⟩ := addChain_spec (sortFrom s.1 V) net hn hElem
    obtain ⟨net2, b1, b2, b3⟩ := ih (fun s hs' => hs s (List.mem_cons_of_mem _ hs')) net1 a2
    refine ⟨net2, ?_, b2, ?_⟩
    · rw [addSegments]
      rw [ensure, if_pos p1]
      show (addChain (sortFrom s.1 V) net >>= _) = _
      rw [a1]
      exact b1
    · intro x
      rw [b3]
      constructor
      · rintro (⟨e, he, hx⟩ | ⟨t, ht, hx⟩)
        · rcases (a3 e).1 he with h | h | h
          · exact Or.inl ⟨e, h, hx⟩
          · obtain ⟨q1, q2, _, _⟩ := p2 e h
            exact Or.inr ⟨s, List.mem_cons_self, (onSeg_sorted s x).1
              (onSeg_sub ((hV _).1 q1).2 ((hV _).1 q2).2 hx)⟩
          · obtain ⟨q1, q2, _, _⟩ := p2 _ h
            exact Or.inr ⟨s, List.mem_cons_self, (onSeg_sorted s x).1
              (onSeg_sub ((hV _).1 q2).2 ((hV _).1 q1).2 hx)⟩
        · exact Or.inr ⟨t, List.mem_cons_of_mem _ ht, hx⟩
      · rintro (⟨e, he, hx⟩ | ⟨t, ht, hx⟩)
        · exact Or.inl ⟨e, (a3 e).2 (Or.inl he), hx⟩
        · rcases List.mem_cons.1 ht with rfl | ht
          · obtain ⟨e, he, hxe⟩ := p3 x hx
            exact Or.inl ⟨e, (a3 e).2 (Or.inr (Or.inl he)), hxe⟩
          · exact Or.inr ⟨t, ht, hx⟩

/-- The distinct segments with sorted end points. -/
def normSegs (segments : List Seg) : List Seg := (segments.map segSorted).dedup

theorem eventPoint_perm {S T : List Seg} (h : S.Perm T) (p : Pt) : EventPoint S p ↔ EventPoint T p := by
  unfold EventPoint
  simp only [h.mem_iff]

theorem parallel_sorted (s t : Seg) : Parallel (segSorted s) (segSorted t) ↔ Parallel s t := by
  have h1 : ∀ s t : Seg, Parallel (s.2, s.1) t ↔ Parallel s t := by
    intro s t; unfold Parallel cross dir; dsimp only
    constructor <;> intro h <;> linarith
  have h2 : ∀ s t : Seg, Parallel s (t.2, t.1) ↔ Parallel s t := by
    intro s t; unfold Parallel cross dir; dsimp only
    constructor <;> intro h <;> linarith
  rcases segSorted_cases s with h | h <;> rcases segSorted_cases t with h' | h' <;> rw [h, h']
  · rw [h2]
  · rw [h1]
  · rw [h1, h2]

theorem eventPoint_norm (segments : List Seg) (p : Pt) :
    EventPoint (normSegs segments) p ↔ EventPoint segments p := by
  have hm : ∀ s, s ∈ normSegs segments ↔ ∃ t ∈ segments, segSorted t = s := by
    intro s; unfold normSegs; rw [List.mem_dedup, List.mem_map]
  have hend : ∀ s : Seg, (p = (segSorted s).1 ∨ p = (segSorted s).2) ↔ (p = s.1 ∨ p = s.2) := by
    intro s
    rcases segSorted_cases s with h | h <;> rw [h]
    exact or_comm
  unfold EventPoint
  constructor
  · rintro (⟨s, hs, h⟩ | ⟨s, hs, t, ht, h⟩)
    · obtain ⟨s, hs', rfl⟩ := (hm s).1 hs
      exact Or.inl ⟨s, hs', (hend s).1 h⟩
    · obtain ⟨s, hs', rfl⟩ := (hm s).1 hs
      obtain ⟨t, ht', rfl⟩ := (hm t).1 ht
      rw [parallel_sorted, onSeg_sorted, onSeg_sorted] at h
      exact Or.inr ⟨s, hs', t, ht', h⟩
  · rintro (⟨s, hs, h⟩ | ⟨s, hs, t, ht, h⟩)
    · exact Or.inl ⟨_, (hm _).2 ⟨s, hs, rfl⟩, (hend s).2 h⟩
    · refine Or.inr ⟨_, (hm _).2 ⟨s, hs, rfl⟩, _, (hm _).2 ⟨t, ht, rfl⟩, ?_⟩
      rw [parallel_sorted, onSeg_sorted, onSeg_sorted]
      exact h

theorem segSorted_ne (s : Seg) : (segSorted s).1 ≠ (segSorted s).2 ↔ s.1 ≠ s.2 := by
  rcases segSorted_cases s with h | h <;> rw [h]
  exact ne_comm

/-- The edges of the arrangement of any non-degenerate segments are always built, and they are what they
should be. -/
theorem buildNet_spec (ch : Choices) (hch : ch.Valid) (segments : List Seg) (hd : ∀ s ∈ segments, s.1 ≠ s.2) :
    ∃ net aabb verts, buildNet ch segments = .ok (net, aabb) ∧ verts.Nodup ∧
      (∀ p, p ∈ verts ↔ EventPoint segments p) ∧ NetOK (ch.segs (normSegs segments)) verts net ∧
      (∀ x, OnAny net.halfEdges x ↔ OnAny segments x) ∧
      aabb = verts.foldl AABB.includePoint (AABB.make none none) := by
  set segs := ch.segs (normSegs segments) with hsegs
  have hperm : segs.Perm (normSegs segments) := hch.segs _
  have hmem : ∀ s, s ∈ segs ↔ ∃ t ∈ segments, segSorted t = s := by
    intro s
    rw [hperm.mem_iff]; unfold normSegs; rw [List.mem_dedup, List.mem_map]
  have hnd : segs.Nodup := hperm.nodup_iff.2 (List.nodup_dedup _)
  have hdd : ∀ s ∈ segs, s.1 ≠ s.2 := by
    intro s hs
    obtain ⟨t, ht, rfl⟩ := (hmem s).1 hs
    exact (segSorted_ne t).2 (hd t ht)
  obtain ⟨st, out, st', a1, a2, a3, a4, a5, a6⟩ := points_spec segs hdd hnd
  set verts := ch.verts st'.vertices with hverts
  have hvp : verts.Perm st'.vertices := hch.verts _
  have hvm : ∀ p, p ∈ verts ↔ EventPoint segs p := fun p => by rw [hvp.mem_iff, a5]
  have hn0 : NetOK segs verts ⟨[], verts.map fun v => (v, [])⟩ := by
    refine ⟨List.nodup_nil, fun h hh => absurd hh List.not_mem_nil, fun h hh => absurd hh List.not_mem_nil, ?_, ?_⟩
    · simp [Function.comp_def]
    · intro c fan hc
      have := dget_mem hc
      rw [List.mem_map] at this
      obtain ⟨v, _, hv⟩ := this
      cases hv
      exact ⟨List.Pairwise.nil, fun x hx => absurd hx List.not_mem_nil, fun x hx => absurd hx List.not_mem_nil⟩
  obtain ⟨net, b1, b2, b3⟩ := addSegments_spec st'.segVerts a4.2 a6 (fun p hp => (hvm p).2 hp) segments
    (fun s hs => ⟨hd s hs, (hmem _).2 ⟨s, hs, rfl⟩⟩) _ hn0
  refine ⟨net, verts.foldl AABB.includePoint (AABB.make none none), verts, ?_, hvp.nodup_iff.2 a4.1, ?_, b2, ?_, rfl⟩
  · unfold buildNet
    dsimp only
    rw [show ch.segs (segments.map segSorted).dedup = segs from rfl, a1]
    show (allSegmentIntersections _ segs >>= _) = _
    rw [a2]
    show (addInters out st >>= _) = _
    rw [a3]
    show (addSegments st'.segVerts segments _ >>= _) = _
    rw [b1]
    rfl
  · intro p
    rw [hvm, eventPoint_perm hperm, eventPoint_norm]
  · intro x
    rw [b3]
    simp [OnAny]

theorem NetOK.planar {S : List Seg} {verts : List Pt} {net : Net} (h : NetOK S verts net) : Planar net.halfEdges :=
  elem_planar h.rev h.elem

end Ply.Arr
