import Verif.Props.CellMerger

/-!
# Merging cells that are adjacent only to their reverse
-/

namespace Ply.CellMerger

variable {V : Type} [DecidableEq V]

/-- Each edge of the one is the reverse of an edge of the other. -/
def Opposite (a b : List V) : Prop := (∀ e ∈ polyEdges a, opp e ∈ polyEdges b) ∧ ∀ e ∈ polyEdges b, opp e ∈ polyEdges a

omit [DecidableEq V] in
theorem Opposite.symm {a b : List V} (h : Opposite a b) : Opposite b a := ⟨h.2, h.1⟩

omit [DecidableEq V] in
theorem adjacent_symm {a b : List V} (h : Adjacent a b) : Adjacent b a := by
  obtain ⟨u, v, h1, h2⟩ := h
  exact ⟨v, u, h2, h1⟩

omit [DecidableEq V] in
theorem Opposite.adjacent {a b : List V} (h : Opposite a b) (ha : a ≠ []) : Adjacent a b := by
  cases a with
  | nil => exact absurd rfl ha
  | cons v l =>
    have : polyEdges (v :: l) ≠ [] := by
      intro h0
      have := congrArg List.length h0
      simp [polyEdges] at this
    obtain ⟨e, he⟩ := List.exists_mem_of_ne_nil _ this
    exact ⟨e.1, e.2, he, h.1 e he⟩

/-- Cells with different edges, adjacent only to their reverse. -/
structure Paired (cs : List (List V)) : Prop where
  ne : ∀ c ∈ cs, c ≠ []
  nodup : (allEdges cs).Nodup
  self : ∀ c ∈ cs, ¬ Adjacent c c
  opp : ∀ a ∈ cs, ∀ b ∈ cs, Adjacent a b → Opposite a b

omit [DecidableEq V] in
theorem Paired.list {cs : List (List V)} (h : Paired cs) : cs.Nodup := by
  have h1 := h.ne
  have h2 := h.nodup
  clear h
  induction cs with
  | nil => simp
  | cons c L ih =>
    have hn' : (polyEdges c ++ allEdges L).Nodup := h2
    obtain ⟨_, b, d⟩ := List.nodup_append.1 hn'
    refine List.nodup_cons.2 ⟨?_, ih (fun c hc => h1 c (List.mem_cons_of_mem _ hc)) b⟩
    intro hc
    cases hcc : c with
    | nil => exact h1 c List.mem_cons_self hcc
    | cons v l =>
      have : polyEdges c ≠ [] := by
        intro h0
        have := congrArg List.length h0
        rw [hcc] at this
        simp [polyEdges] at this
      obtain ⟨e, he⟩ := List.exists_mem_of_ne_nil _ this
      exact d e he e (List.mem_flatMap.2 ⟨c, hc, he⟩) rfl

omit [DecidableEq V] in
theorem edges_eq {cs : List (List V)} (h : (allEdges cs).Nodup) {a b : List V} (ha : a ∈ cs) (hb : b ∈ cs) {e : V × V}
    (h1 : e ∈ polyEdges a) (h2 : e ∈ polyEdges b) : a = b := by
  induction cs with
  | nil => cases ha
  | cons c L ih =>
    have hn' : (polyEdges c ++ allEdges L).Nodup := h
    obtain ⟨_, n, d⟩ := List.nodup_append.1 hn'
    rcases List.mem_cons.1 ha with rfl | ha' <;> rcases List.mem_cons.1 hb with rfl | hb'
    · rfl
    · exact absurd rfl (d e h1 e (List.mem_flatMap.2 ⟨b, hb', h2⟩))
    · exact absurd rfl (d e h2 e (List.mem_flatMap.2 ⟨a, ha', h1⟩))
    · exact ih n ha' hb'

omit [DecidableEq V] in
theorem Paired.unique {cs : List (List V)} (h : Paired cs) {a b c : List V} (ha : a ∈ cs) (hb : b ∈ cs) (hc : c ∈ cs)
    (h1 : Adjacent a b) (h2 : Adjacent a c) : b = c := by
  obtain ⟨u, v, e1, e2⟩ := h1
  exact edges_eq h.nodup hb hc e2 ((h.opp a ha c hc h2).1 _ e1)

omit [DecidableEq V] in
theorem pair_nodup {cs : List (List V)} (h : (allEdges cs).Nodup) {a b : List V} (ha : a ∈ cs) (hb : b ∈ cs) (hab : a ≠ b) :
    (allEdges [a, b]).Nodup := by
  have one : ∀ a ∈ cs, (polyEdges a).Nodup := by
    intro a ha
    exact (List.sublist_flatten_of_mem (List.mem_map_of_mem (f := polyEdges) ha)).nodup
      (by rw [← List.flatMap_def]; exact h)
  have : allEdges [a, b] = polyEdges a ++ polyEdges b := by simp [allEdges]
  rw [this, List.nodup_append]
  refine ⟨one a ha, one b hb, ?_⟩
  rintro e he f hf rfl
  exact hab (edges_eq h ha hb he hf)

theorem merged_none {pick : ℕ → List V → V} (hpick : ∀ n vs, vs ≠ [] → pick n vs ∈ vs) {cs : List (List V)}
    (h : Paired cs) {a b : List V} (ha : a ∈ cs) (hb : b ∈ cs) (hab : a ≠ b) (hn : ¬ Adjacent a b) (oa ob : List (List V)) :
    merged pick ⟨a, oa⟩ ⟨b, ob⟩ = .ok none := by
  rcases c30_merged hpick ⟨a, oa⟩ ⟨b, ob⟩ (pair_nodup h.nodup ha hb hab) with h | ⟨ms, _, h, _⟩
  · exact h.1
  · exact absurd h hn

theorem merged_some {pick : ℕ → List V → V} (hpick : ∀ n vs, vs ≠ [] → pick n vs ∈ vs) {cs : List (List V)}
    (h : Paired cs) {a b : List V} (ha : a ∈ cs) (hb : b ∈ cs) (hn : Adjacent a b) (oa ob : List (List V)) :
    merged pick ⟨a, oa⟩ ⟨b, ob⟩ = .ok (some []) := by
  have hab : a ≠ b := fun e => h.self a ha (by rw [← e] at hn; exact hn)
  rcases c30_merged hpick ⟨a, oa⟩ ⟨b, ob⟩ (pair_nodup h.nodup ha hb hab) with h' | ⟨ms, h1, _, h3, h4⟩
  · exact absurd hn h'.2
  · rw [h1]
    have ho := h.opp a ha b hb hn
    have e1 : (polyEdges a).filter (fun e => decide ((e.2, e.1) ∉ polyEdges b)) = [] := by
      rw [List.filter_eq_nil_iff]
      intro e he
      simpa [opp] using ho.1 e he
    have e2 : (polyEdges b).filter (fun e => decide ((e.2, e.1) ∉ polyEdges a)) = [] := by
      rw [List.filter_eq_nil_iff]
      intro e he
      simpa [opp] using ho.2 e he
    rw [e1, e2] at h3
    cases ms with
    | nil => rfl
    | cons m ms =>
      have h5 := (h4 m List.mem_cons_self).1
      have := h3.eq_nil
      simp only [List.map_cons, allEdges, List.flatMap_cons, List.append_eq_nil_iff] at this
      cases hm : m.vertices with
      | nil => exact absurd hm h5
      | cons v l =>
        have := congrArg List.length this.1
        rw [hm] at this
        simp [polyEdges] at this

def lone (c : List V) : Cell V := ⟨c, [c]⟩

omit [DecidableEq V] in
theorem lone_inj {a b : List V} (h : lone a = lone b) : a = b := congrArg Cell.vertices h

theorem mergeLoop_none {pick : ℕ → ℕ → List V → V} (hpick : ∀ j n vs, vs ≠ [] → pick j n vs ∈ vs) {cs : List (List V)}
    (h : Paired cs) {a : List V} (ha : a ∈ cs) (l : List (List V)) (hl : ∀ b ∈ l, b ∈ cs ∧ b ≠ a ∧ ¬ Adjacent a b)
    (cells : List (Cell V)) (ann : List (List V)) (toAdd : List (Cell V)) :
    mergeLoop pick (l.map lone) (lone a) cells ann toAdd = .ok (some (lone a), cells, ann, toAdd) := by
  induction l with
  | nil => rfl
  | cons b l ih =>
    obtain ⟨h1, h2, h3⟩ := hl b List.mem_cons_self
    rw [List.map_cons, mergeLoop]
    have := merged_none (hpick (l.map lone).length) h ha h1 (Ne.symm h2) h3 [a] [b]
    show (merged (pick (l.map lone).length) ⟨a, [a]⟩ ⟨b, [b]⟩ >>= _) = _
    rw [this]
    exact ih fun b hb => hl b (List.mem_cons_of_mem _ hb)

theorem mergeLoop_some {pick : ℕ → ℕ → List V → V} (hpick : ∀ j n vs, vs ≠ [] → pick j n vs ∈ vs) {cs : List (List V)}
    (h : Paired cs) {a : List V} (ha : a ∈ cs) (l : List (List V)) (hl : ∀ b ∈ l, b ∈ cs ∧ b ≠ a) {b : List V} (hb : b ∈ l)
    (hab : Adjacent a b) (cells : List (Cell V)) (ann : List (List V)) (toAdd : List (Cell V)) :
    mergeLoop pick (l.map lone) (lone a) cells ann toAdd =
      .ok (none, (annihilate [a, b] (cells.erase (lone b)) ann).1, (annihilate [a, b] (cells.erase (lone b)) ann).2, toAdd) := by
  induction l with
  | nil => cases hb
  | cons d l ih =>
    obtain ⟨h1, h2⟩ := hl d List.mem_cons_self
    rw [List.map_cons, mergeLoop]
    by_cases had : Adjacent a d
    · have hbc := (hl b hb).1
      have := h.unique ha hbc h1 hab had
      subst this
      have := merged_some (hpick (l.map lone).length) h ha h1 had [a] [b]
      show (merged (pick (l.map lone).length) ⟨a, [a]⟩ ⟨b, [b]⟩ >>= _) = _
      rw [this]
      show (if meets [a] [b] = true then (Except.error PyErr.assertion : Except PyErr _) else _) = _
      rw [if_neg]
      · rfl
      · rw [meets_iff]
        rintro ⟨x, hx, hx'⟩
        simp only [List.mem_singleton] at hx hx'
        exact h2 (hx'.symm.trans hx)
    · have := merged_none (hpick (l.map lone).length) h ha h1 (Ne.symm h2) had [a] [d]
      show (merged (pick (l.map lone).length) ⟨a, [a]⟩ ⟨d, [d]⟩ >>= _) = _
      rw [this]
      refine ih (fun b hb => hl b (List.mem_cons_of_mem _ hb)) ?_
      rcases List.mem_cons.1 hb with rfl | hb
      · exact absurd hab had
      · exact hb

/-- The state after the cells `done`: those without a reverse are kept. -/
structure Kept (done : List (List V)) (s : Merger V) (live : List (List V)) : Prop where
  cells : s.cells = live.map lone
  nodup : live.Nodup
  original : s.original = done
  live : ∀ c, c ∈ live ↔ c ∈ done ∧ ∀ b ∈ done, ¬ Adjacent c b
  ann : ∀ c, c ∈ s.annihilated ↔ c ∈ done ∧ ∃ b ∈ done, Adjacent c b

omit [DecidableEq V] in
theorem map_lone_of {l : List (Cell V)} {live : List (List V)} (h : l.Perm (live.map lone)) :
    ∃ live' : List (List V), live'.Perm live ∧ l = live'.map lone := by
  refine ⟨l.map Cell.vertices, ?_, ?_⟩
  · have := h.map Cell.vertices
    rw [List.map_map] at this
    have e : (Cell.vertices ∘ lone : List V → List V) = id := rfl
    rwa [e, List.map_id] at this
  · rw [List.map_map]
    conv_lhs => rw [← List.map_id l]
    refine List.map_congr_left fun c hc => ?_
    obtain ⟨x, _, rfl⟩ := List.mem_map.1 (h.mem_iff.1 hc)
    rfl

theorem addCell_kept {o : Orders V} (ho : o.Valid) {fuel : ℕ} (hf : 0 < fuel) {cs : List (List V)} (h : Paired cs)
    {done : List (List V)} (hdone : ∀ c ∈ done, c ∈ cs) {a : List V} (ha : a ∈ cs) (hnew : a ∉ done) {s : Merger V}
    {live : List (List V)} (hs : Kept done s live) :
    ∃ s' live', addCell o fuel s a = .ok s' ∧ Kept (done ++ [a]) s' live' := by
  obtain ⟨n, rfl⟩ := Nat.exists_eq_succ_of_ne_zero hf.ne'
  have hself := h.self a ha
  obtain ⟨order, hperm, horder'⟩ := map_lone_of (l := o.order n s.cells) (live := live) (by
    have := ho.order n s.cells
    rwa [hs.cells] at this ⊢)
  have hlm : ∀ b ∈ order, b ∈ done := fun b hb => ((hs.live b).1 (hperm.mem_iff.1 hb)).1
  have hnone : a ∉ s.original := by rw [hs.original]; exact hnew
  have hstep : ∀ r cells' ann', mergeLoop (o.pick n) (o.order n s.cells) (lone a) s.cells s.annihilated [] =
      .ok (r, cells', ann', []) →
      addCell o (n + 1) s a = .ok ⟨cells' ++ r.toList, s.original ++ [a], ann'⟩ := by
    intro r cells' ann' hm
    unfold addCell
    rw [if_neg hnone]
    have : addLoop o (n + 1) [⟨a, [a]⟩] s.cells s.annihilated =
        .ok (cells' ++ r.toList, ann') := by
      rw [addLoop, dif_neg (by simp)]
      show (mergeLoop (o.pick n) (o.order n s.cells) (lone a) s.cells s.annihilated [] >>= _) = _
      rw [hm]
      cases r with
      | none => rw [Option.toList_none, List.append_nil]; exact addLoop_nil _ _ _ _
      | some c => exact addLoop_nil _ _ _ _
    rw [this]
    rfl
  by_cases hex : ∃ b ∈ done, Adjacent a b
  · obtain ⟨b, hb, hab⟩ := hex
    have hbcs := hdone b hb
    have hblive : b ∈ live := by
      refine (hs.live b).2 ⟨hb, fun d hd hbd => ?_⟩
      have := h.unique hbcs (hdone d hd) ha hbd (adjacent_symm hab)
      exact hnew (this ▸ hd)
    have hbo := hperm.mem_iff.2 hblive
    have hm := mergeLoop_some (fun j n vs h => ho.pick _ j n vs h) h ha order
      (fun d hd => ⟨hdone d (hlm d hd), fun e => hnew (e ▸ hlm d hd)⟩) hbo hab s.cells s.annihilated []
      (pick := o.pick n)
    rw [← horder'] at hm
    have her : s.cells.erase (lone b) = (live.erase b).map lone := by
      rw [hs.cells]
      exact (List.map_erase (f := lone) (fun x y h => lone_inj h) live).symm
    have hnomeet : ∀ c ∈ (live.erase b).map lone, meets c.origs [a, b] = false := by
      intro c hc
      obtain ⟨x, hx, rfl⟩ := List.mem_map.1 hc
      rw [Bool.eq_false_iff, ne_eq, meets_iff]
      rintro ⟨y, hy, hy'⟩
      have hy2 : y = x := by simpa [lone] using hy
      subst hy2
      rw [hs.nodup.mem_erase_iff] at hx
      simp only [List.mem_cons, List.not_mem_nil, or_false] at hy'
      rcases hy' with rfl | rfl
      · exact hnew ((hs.live y).1 hx.2).1
      · exact hx.1 rfl
    have hann : annihilate [a, b] (s.cells.erase (lone b)) s.annihilated = ((live.erase b).map lone, s.annihilated ++ [a, b]) := by
      unfold annihilate
      rw [her]
      refine Prod.ext ?_ ?_
      · dsimp only
        conv_rhs => rw [← List.map_id ((live.erase b).map lone)]
        refine List.map_congr_left fun c hc => ?_
        rw [hnomeet c hc]
        rfl
      · dsimp only
        rw [if_neg]
        rw [List.any_eq_true]
        rintro ⟨c, hc, hc'⟩
        rw [hnomeet c hc] at hc'
        cases hc'
    rw [hann] at hm
    refine ⟨_, live.erase b, hstep _ _ _ hm, by simp, hs.nodup.erase b, by rw [← hs.original], ?_, ?_⟩
    · intro c
      rw [hs.nodup.mem_erase_iff, hs.live c]
      simp only [List.mem_append, List.mem_singleton]
      constructor
      · rintro ⟨h1, h2, h3⟩
        refine ⟨Or.inl h2, ?_⟩
        rintro d (hd | rfl)
        · exact h3 d hd
        · intro hcd
          exact h1 (h.unique ha (hdone c h2) hbcs (adjacent_symm hcd) hab)
      · rintro ⟨h1 | rfl, h2⟩
        · refine ⟨?_, h1, fun d hd => h2 d (Or.inl hd)⟩
          rintro rfl
          exact h2 a (Or.inr rfl) (adjacent_symm hab)
        · exact absurd hab (h2 b (Or.inl hb))
    · intro c
      dsimp only
      simp only [List.mem_append, List.mem_cons, List.not_mem_nil, or_false, hs.ann c]
      constructor
      · rintro (⟨h1, d, hd, h2⟩ | rfl | rfl)
        · exact ⟨Or.inl h1, d, Or.inl hd, h2⟩
        · exact ⟨Or.inr rfl, b, Or.inl hb, hab⟩
        · exact ⟨Or.inl hb, a, Or.inr rfl, adjacent_symm hab⟩
      · rintro ⟨h1 | rfl, d, hd | rfl, h2⟩
        · exact Or.inl ⟨h1, d, hd, h2⟩
        · right; right
          exact h.unique ha (hdone c h1) hbcs (adjacent_symm h2) hab
        · exact Or.inr (Or.inl rfl)
        · exact Or.inr (Or.inl rfl)
  · push Not at hex
    have hm := mergeLoop_none (fun j n vs h => ho.pick _ j n vs h) h ha order
      (fun d hd => ⟨hdone d (hlm d hd), fun e => hnew (e ▸ hlm d hd), hex d (hlm d hd)⟩) s.cells s.annihilated []
      (pick := o.pick n)
    rw [← horder'] at hm
    refine ⟨_, live ++ [a], hstep _ _ _ hm, ?_, ?_, by rw [← hs.original], ?_, ?_⟩
    · show s.cells ++ [lone a] = _
      rw [hs.cells, List.map_append]; rfl
    · rw [List.nodup_append]
      refine ⟨hs.nodup, by simp, ?_⟩
      rintro x hx y hy rfl
      simp only [List.mem_singleton] at hy
      exact hnew (hy ▸ ((hs.live x).1 hx).1)
    · intro c
      simp only [List.mem_append, List.mem_singleton, hs.live c]
      constructor
      · rintro (⟨h1, h2⟩ | rfl)
        · refine ⟨Or.inl h1, ?_⟩
          rintro d (hd | rfl)
          · exact h2 d hd
          · exact fun hc => hex c h1 (adjacent_symm hc)
        · refine ⟨Or.inr rfl, ?_⟩
          rintro d (hd | rfl)
          · exact hex d hd
          · exact hself
      · rintro ⟨h1 | rfl, h2⟩
        · exact Or.inl ⟨h1, fun d hd => h2 d (Or.inl hd)⟩
        · exact Or.inr rfl
    · intro c
      dsimp only
      simp only [List.mem_append, List.mem_singleton, hs.ann c]
      constructor
      · rintro ⟨h1, d, hd, h2⟩
        exact ⟨Or.inl h1, d, Or.inl hd, h2⟩
      · rintro ⟨h1 | rfl, d, hd | rfl, h2⟩
        · exact ⟨h1, d, hd, h2⟩
        · exact absurd (adjacent_symm h2) (hex c h1)
        · exact absurd h2 (hex d hd)
        · exact absurd h2 hself

theorem addCells_kept {cs : List (List V)} (h : Paired cs) (runs : List (Orders V × ℕ × List V)) :
    ∀ (done : List (List V)) (s : Merger V) (live : List (List V)), (∀ r ∈ runs, r.1.Valid ∧ 0 < r.2.1) →
      (done ++ runs.map fun r => r.2.2) = cs → Kept done s live →
      ∃ s' live', addCells s runs = .ok s' ∧ Kept cs s' live' := by
  induction runs with
  | nil =>
    intro done s live _ hd hs
    simp only [List.map_nil, List.append_nil] at hd
    exact ⟨s, live, rfl, hd ▸ hs⟩
  | cons r runs ih =>
    intro done s live hr hd hs
    obtain ⟨o, fuel, a⟩ := r
    obtain ⟨hv, hf⟩ := hr _ List.mem_cons_self
    have hnd := h.list
    rw [← hd] at hnd
    have hac : a ∈ cs := by rw [← hd]; simp
    obtain ⟨s1, live1, e1, k1⟩ := addCell_kept hv hf h (fun c hc => by rw [← hd]; exact List.mem_append_left _ hc) hac
      (fun hc => (List.nodup_append.1 hnd).2.2 a hc a (by simp) rfl) hs
    obtain ⟨s2, live2, e2, k2⟩ := ih (done ++ [a]) s1 live1 (fun r hr' => hr r (List.mem_cons_of_mem _ hr'))
      (by rw [← hd]; simp) k1
    refine ⟨s2, live2, ?_, k2⟩
    rw [addCells]
    show (addCell o fuel s a >>= _) = _
    rw [e1]
    exact e2

/-- All cells can be added; those without a reverse are kept as they are. -/
theorem merger_ok (runs : List (Orders V × ℕ × List V)) (h : Paired (runs.map fun r => r.2.2))
    (hr : ∀ r ∈ runs, r.1.Valid ∧ 0 < r.2.1) :
    ∃ (s : Merger V) (live : List (List V)), addCells Merger.empty runs = .ok s ∧ live.Nodup ∧ getCellsOriginals s = .ok (live.map fun c => (c, [c])) ∧
      ∀ c, c ∈ live ↔ c ∈ (runs.map fun r => r.2.2) ∧ ∀ b ∈ (runs.map fun r => r.2.2), ¬ Adjacent c b := by
  obtain ⟨s, live, e, k⟩ := addCells_kept h runs [] Merger.empty [] hr (by simp)
    ⟨rfl, by simp, rfl, by simp, by simp [Merger.empty]⟩
  refine ⟨s, live, e, k.nodup, ?_, k.live⟩
  have hck : check s = .ok () := by
    unfold check
    have ho : s.cells.flatMap Cell.origs = live := by
      rw [k.cells, List.flatMap_map]
      simp [lone]
    simp only [ho]
    rw [if_neg, if_pos]
    · rw [k.original]
      constructor
      · intro c hc
        rcases List.mem_append.1 hc with hc | hc
        · exact ((k.live c).1 hc).1
        · exact ((k.ann c).1 hc).1
      · intro c hc
        rw [List.mem_append, k.live c, k.ann c]
        by_cases hx : ∃ b ∈ (runs.map fun r => r.2.2), Adjacent c b
        · exact Or.inr ⟨hc, hx⟩
        · push Not at hx
          exact Or.inl ⟨hc, hx⟩
    · rw [meets_iff]
      rintro ⟨x, hx, hx'⟩
      obtain ⟨_, b, hb, hab⟩ := (k.ann x).1 hx'
      exact ((k.live x).1 hx).2 b hb hab
  unfold getCellsOriginals
  rw [hck, k.cells, List.map_map]
  rfl

end Ply.CellMerger
