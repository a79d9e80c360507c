import Verif.Proofs.TotalPoly
import Verif.Proofs.ArrOutline
import Verif.Props.Fine

/-!
# When operations on geoms never raise
-/

namespace Ply

namespace Arr

open Filter Topology CellMerger

/-- Whether the point is selected. -/
def chosen (gs : List Geom2D) (op : List Bool → Bool) (p : Pt) : Bool :=
  op (gs.map fun g => decide (Geom2D.locate g p = .ok 1))

theorem flags_ok (gs : List Geom2D) (hg : ∀ g ∈ gs, Geom2D.WellMade g) (p : Pt) (hp : ∀ g ∈ gs, ¬ Geom2D.OnEdge g p) :
    flags p gs = .ok (gs.map fun g => decide (Geom2D.locate g p = .ok 1)) := by
  induction gs with
  | nil => rfl
  | cons g gs ih =>
    have h1 := ih (fun x hx => hg x (List.mem_cons_of_mem _ hx)) fun x hx => hp x (List.mem_cons_of_mem _ hx)
    rw [flags, h1]
    by_cases h : Geom2D.locate g p = .ok 1
    · rw [h, List.map_cons]
      show ((do ensure ((1 : Int) = -1 ∨ (1 : Int) = 1); _) : Except PyErr _) = _
      rw [ensure_pos (by decide)]
      simp only [h]
      rfl
    · have h' := locate_off (hg g List.mem_cons_self) (hp g List.mem_cons_self) h
      rw [h', List.map_cons]
      show ((do ensure ((-1 : Int) = -1 ∨ (-1 : Int) = 1); _) : Except PyErr _) = _
      rw [ensure_pos (by decide)]
      simp only [h']
      rfl

theorem selectCells_ok (gs : List Geom2D) (op : List Bool → Bool) (hg : ∀ g ∈ gs, Geom2D.WellMade g) (cs : List Cell1)
    (hp : ∀ c ∈ cs, ∀ g ∈ gs, ¬ Geom2D.OnEdge g c.point) :
    selectCells gs op cs = .ok ((cs.filter fun c => chosen gs op c.point).map Cell1.vertices) := by
  induction cs with
  | nil => rfl
  | cons c cs ih =>
    rw [selectCells, flags_ok gs hg c.point (hp c List.mem_cons_self), ih fun x hx => hp x (List.mem_cons_of_mem _ hx),
      List.filter_cons]
    show Except.ok _ = Except.ok _
    congr 1
    unfold chosen
    split_ifs <;> rfl

theorem checkResult_ok (gs : List Geom2D) (op : List Bool → Bool) (hg : ∀ g ∈ gs, Geom2D.WellMade g) (r : Geom2D)
    (cs : List Cell1) (hp : ∀ c ∈ cs, ∀ g ∈ gs, ¬ Geom2D.OnEdge g c.point)
    (hr : ∀ c ∈ cs, Geom2D.locate r c.point = .ok (if chosen gs op c.point then 1 else -1)) :
    checkResult gs op r cs = .ok () := by
  induction cs with
  | nil => rfl
  | cons c cs ih =>
    have h1 := ih (fun x hx => hp x (List.mem_cons_of_mem _ hx)) fun x hx => hr x (List.mem_cons_of_mem _ hx)
    rw [checkResult, flags_ok gs hg c.point (hp c List.mem_cons_self), hr c List.mem_cons_self]
    by_cases h : chosen gs op c.point = true
    · rw [if_pos h]
      show (if op _ = true then _ else _) = _
      rw [if_pos (show op _ = true from h), ensure_pos (by decide)]
      exact h1
    · rw [if_neg h]
      show (if op _ = true then _ else _) = _
      rw [if_neg (show ¬ op _ = true from h), ensure_pos (by decide)]
      exact h1

theorem chosen_face {gs : List Geom2D} (op : List Bool → Bool) (hg : ∀ g ∈ gs, Geom2D.WellMade g) {H : List Seg}
    (hin : ∀ g ∈ gs, ∀ x, Geom2D.OnEdge g x → OnAny H x) (p q : Pt) (h1 : ¬ OnAny H p) (h2 : ¬ OnAny H q)
    (h3 : SameFace H p q) : chosen gs op p = chosen gs op q := by
  refine congrArg op (List.map_congr_left fun g hg' => ?_)
  rw [decide_eq_decide]
  exact locate_face g (hg g hg') (hin g hg') h1 h2 h3

theorem chosen_far {gs : List Geom2D} {op : List Bool → Bool} (hop : op (gs.map fun _ => false) = false)
    (hg : ∀ g ∈ gs, Geom2D.WellMade g) : ∃ M : ℚ, ∀ q : Pt, M < q.1 → chosen gs op q = false := by
  obtain ⟨M, hM, -⟩ := far_bound gs []
  refine ⟨M, fun q hq => ?_⟩
  rw [← hop]
  refine congrArg op (List.map_congr_left fun g hg' => ?_)
  rw [decide_eq_false_iff_not]
  exact locate_far g (hg g hg') q fun s hs v hv => (hM g hg' s hs v hv).trans hq

/-- An operation whose selected cells are adjacent only to their reverse does not raise. -/
theorem arrangementOp_total (ch : Choices) (hch : ch.Valid) (gs : List Geom2D) (op : List Bool → Bool)
    (hop : op (gs.map fun _ => false) = false) (hg : ∀ g ∈ gs, Geom2D.Usable g)
    (hpair : ∀ A, build ch (gs.flatMap Geom2D.allSegments) = .ok A → BuildOK A → Full A →
      Paired ((A.cells.filter fun c => chosen gs op c.point).map Cell1.vertices)) :
    ∃ r, arrangementOp ch gs op = .ok r := by
  have hm : ∀ g ∈ gs, Geom2D.WellMade g := fun g h => (hg g h).made
  obtain ⟨A, hA, hF⟩ := build_ok hch (loops_geoms gs hm fun g h => (hg g h).cutting)
  obtain ⟨hB, hon⟩ := build_spec ch hch _ (segments_ne gs hm) A hA
  have hin : ∀ g ∈ gs, ∀ x, Geom2D.OnEdge g x → OnAny A.net.halfEdges x := fun g hg' x hx =>
    (hon x).2 ((onAny_flat gs x).2 ⟨g, hg', hx⟩)
  have hoff : ∀ c ∈ A.cells, ∀ g ∈ gs, ¬ Geom2D.OnEdge g c.point := fun c hc g hg' hx => hB.off c hc (hin g hg' _ hx)
  obtain ⟨r, hr, hl⟩ := polyCells_total ch hch hB hF (chosen gs op) (chosen_face op hm hin) (chosen_far hop hm) _ rfl
    (hpair A hA hB hF)
  refine ⟨r, ?_⟩
  unfold arrangementOp
  rw [hA]
  show (selectCells gs op A.cells >>= _) = _
  rw [selectCells_ok gs op hm A.cells hoff]
  show (polyCells ch A _ >>= _) = _
  rw [hr]
  show (checkResult gs op r A.cells >>= _) = _
  rw [checkResult_ok gs op hm r A.cells hoff hl]
  rfl

/-- The geom is on one side of each part of its edges. -/
theorem crisp_sides {H : List Seg} (hP : Planar H) {g : Geom2D} (hg : g.WellMade) (hc : g.Crisp)
    (hin : ∀ x, g.OnEdge x → OnAny H x) {h : Seg} (hh : h ∈ H) {s : Seg} (hs : s ∈ g.allSegments)
    (h1 : OnSeg s h.1) (h2 : OnSeg s h.2) {p q : Pt} (hp : Sees H h p) (hq : Sees H (h.2, h.1) q) :
    ¬ (Geom2D.locate g p = .ok 1 ↔ Geom2D.locate g q = .ok 1) := by
  obtain ⟨e, he1, he2, hpt⟩ : ∃ e : Seg, OnSeg e h.1 ∧ OnSeg e h.2 ∧ Parts g e := by
    obtain ⟨sp, hsp, hs'⟩ := List.mem_flatMap.1 hs
    unfold SPWH.segments at hs'
    rcases List.mem_append.1 hs' with h | h
    · rw [edgesIter_eq] at h
      exact ⟨s, h1, h2, (hc sp hsp).1 s h⟩
    · obtain ⟨k, hk, h⟩ := List.mem_flatMap.1 h
      rw [edgesIter_eq] at h
      exact ⟨(s.2, s.1), (onSeg_rev s _).2 h1, (onSeg_rev s _).2 h2, (hc sp hsp).2 k hk s h⟩
  have main : ∀ (h : Seg) (a b : ℚ), h ∈ H → h.1 = along e a → h.2 = along e b → 0 ≤ a → b ≤ 1 → a < b → ∀ p q, Sees H h p →
      Sees H (h.2, h.1) q → Geom2D.locate g p = .ok 1 ∧ Geom2D.locate g q ≠ .ok 1 := by
    intro h a b hh ea eb a0 b1 hab p q hp hq
    have hd : dir h = (b - a) • dir e := by
      unfold dir
      rw [ea, eb]
      unfold along
      ext <;> simp only [Prod.smul_fst, Prod.smul_snd, smul_eq_mul] <;> ring
    have hmid : along h (1 / 2) = along e ((a + b) / 2) := by
      rw [along, ea, eb]
      unfold along
      ext <;> ring
    obtain ⟨u, hu⟩ := right_exists (hP.ne h hh)
    have hu' : cross (dir e) u < 0 := by
      rw [hd] at hu
      have : cross ((b - a) • dir e) u = (b - a) * cross (dir e) u := by
        unfold cross; simp only [Prod.smul_fst, Prod.smul_snd, smul_eq_mul]; ring
      rw [this] at hu
      by_contra hn
      have := mul_nonneg (sub_pos.2 hab).le (not_lt.1 hn)
      linarith
    have r1 := sees_small hP hh (s := 1 / 2) (by norm_num) (by norm_num) hu
    have r2 := sees_small hP (hP.rev h hh) (s := 1 - 1 / 2) (by norm_num) (by norm_num) (u := -u) (by
      have : cross (dir (h.2, h.1)) (-u) = cross (dir h) u := by
        unfold cross dir; simp only [Prod.fst_neg, Prod.snd_neg]; ring
      rw [this]; exact hu)
    rw [along_rev, sub_sub_cancel, hmid] at r2
    rw [hmid] at r1
    have r3 := eventually_right.2 (hpt ((a + b) / 2) (by linarith) (by linarith) u hu')
    obtain ⟨ε, ⟨⟨q1, q2⟩, q3, q4⟩⟩ := ((r1.and r2).and r3).exists
    have e1 : along e ((a + b) / 2) + (ε * u.1, ε * u.2) = along e ((a + b) / 2) + ε • u := rfl
    have e2 : along e ((a + b) / 2) - (ε * u.1, ε * u.2) = along e ((a + b) / 2) + ε • -u := by
      ext <;> simp only [Prod.fst_sub, Prod.snd_sub, Prod.fst_add, Prod.snd_add, Prod.smul_fst, Prod.smul_snd, smul_eq_mul,
        Prod.fst_neg, Prod.snd_neg] <;> ring
    rw [e1] at q3
    rw [e2] at q4
    constructor
    · exact (locate_face g hg hin q1.off hp.off (sees_same hP hh q1 hp)).1 q3
    · intro hx
      have := (locate_face g hg hin q2.off hq.off (sees_same hP (hP.rev h hh) q2 hq)).2 hx
      rw [q4] at this
      cases this
  obtain ⟨a, a0, a1, ea⟩ := he1
  obtain ⟨b, b0, b1, eb⟩ := he2
  rcases lt_trichotomy a b with hab | hab | hab
  · obtain ⟨m1, m2⟩ := main h a b hh ea eb a0 b1 hab p q hp hq
    exact fun hx => m2 (hx.1 m1)
  · subst hab
    exact absurd (ea.trans eb.symm) (hP.ne h hh)
  · obtain ⟨m1, m2⟩ := main (h.2, h.1) b a (hP.rev h hh) eb ea b0 a1 hab q p hq hp
    exact fun hx => m2 (hx.2 m1)

/-- An operation that selects one combination of flags selects no two adjacent cells. -/
theorem choosy_paired {ch : Choices} (hch : ch.Valid) {gs : List Geom2D} {op : List Bool → Bool}
    (huniq : ∀ v w : List Bool, v.length = gs.length → w.length = gs.length → op v = true → op w = true → v = w)
    (hg : ∀ g ∈ gs, Geom2D.WellMade g) (hc : ∀ g ∈ gs, Geom2D.Crisp g) {A : Arrangement}
    (hA : build ch (gs.flatMap Geom2D.allSegments) = .ok A) (hB : BuildOK A) (hF : Full A) :
    Paired ((A.cells.filter fun c => chosen gs op c.point).map Cell1.vertices) := by
  set sel := (A.cells.filter fun c => chosen gs op c.point).map Cell1.vertices with hsel
  have hsub : sel.Sublist (A.cells.map Cell1.vertices) := List.filter_sublist.map _
  obtain ⟨-, hon⟩ := build_spec ch hch _ (segments_ne gs hg) A hA
  have hin : ∀ g ∈ gs, ∀ x, Geom2D.OnEdge g x → OnAny A.net.halfEdges x := fun g hg' x hx =>
    (hon x).2 ((onAny_flat gs x).2 ⟨g, hg', hx⟩)
  have hno : ∀ a ∈ sel, ∀ b ∈ sel, ¬ Adjacent a b := by
    rintro a ha b hb ⟨u, v, h1, h2⟩
    obtain ⟨c, hc1, rfl⟩ := List.mem_map.1 ha
    obtain ⟨d, hd1, rfl⟩ := List.mem_map.1 hb
    obtain ⟨hc1, hc2⟩ := List.mem_filter.1 hc1
    obtain ⟨hd1, hd2⟩ := List.mem_filter.1 hd1
    have hH : (u, v) ∈ A.net.halfEdges := hB.sub _ (List.mem_flatMap.2 ⟨_, List.mem_map_of_mem hc1, h1⟩)
    obtain ⟨p, p1, p2⟩ := hB.sees c hc1 _ h1
    obtain ⟨q, q1, q2⟩ := hB.sees d hd1 _ h2
    rw [← chosen_face op hg hin p c.point p1.off (hB.off c hc1) p2] at hc2
    rw [← chosen_face op hg hin q d.point q1.off (hB.off d hd1) q2] at hd2
    have heq := huniq _ _ (by simp) (by simp) hc2 hd2
    obtain ⟨s, hs, s1, s2⟩ := build_along ch hch _ (segments_ne gs hg) A hA _ hH
    obtain ⟨g, hg', hs⟩ := List.mem_flatMap.1 hs
    have := List.map_inj_left.1 heq g hg'
    rw [decide_eq_decide] at this
    exact crisp_sides hB.planar (hg g hg') (hc g hg') (hin g hg') hH hs s1 s2 p1 q1 this
  refine ⟨fun c hc => ?_, (allEdges_sublist hsub).nodup hB.nodup, fun c hc => hno c hc c hc, fun a ha b hb h => absurd h (hno a ha b hb)⟩
  rintro rfl
  obtain ⟨c, hc, e⟩ := List.mem_map.1 (hsub.subset hc)
  obtain ⟨k, hk, -⟩ := hF.sees c hc
  rw [e] at hk
  simp [polyEdges] at hk

/-- An operation on fine geoms that selects one combination of flags does not raise. -/
theorem choosy_total (ch : Choices) (hch : ch.Valid) (gs : List Geom2D) (op : List Bool → Bool)
    (hop : op (gs.map fun _ => false) = false)
    (huniq : ∀ v w : List Bool, v.length = gs.length → w.length = gs.length → op v = true → op w = true → v = w)
    (hg : ∀ g ∈ gs, Geom2D.Fine g) : ∃ r, arrangementOp ch gs op = .ok r := by
  refine arrangementOp_total ch hch gs op hop (fun g h => (hg g h).usable) fun A hA hB hF => ?_
  exact choosy_paired hch huniq (fun g h => (hg g h).proper.made) (fun g h => (hg g h).crisp) hA hB hF

end Arr

end Ply
