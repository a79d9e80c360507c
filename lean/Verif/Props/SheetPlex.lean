import Verif.Model.SheetPlex
import Verif.Proofs.PMap
import Verif.Props.Geom2D
import Mathlib.Tactic.Tauto

/-! # C38–C40: sheetplexes -/

namespace Ply

/-! ### Pairs of sheets -/

/-- All pairs of an earlier and a later element. -/
def pairs {α : Type} : List α → List (α × α)
  | [] => []
  | a :: l => l.map (fun b => (a, b)) ++ pairs l

theorem createInner_eq (geo : Sheet → Sheet → Option JointNums) (s : Sheet) (l : List Sheet) (sp : SheetPlex) :
    createInner geo s l sp = (l.map fun b => (s, b)).foldl (fun sp e => createIntersection geo sp e.1 e.2) sp := by
  induction l generalizing sp with
  | nil => rfl
  | cons b l ih => rw [createInner, ih]; rfl

theorem createOuter_eq (geo : Sheet → Sheet → Option JointNums) (l : List Sheet) (sp : SheetPlex) :
    createOuter geo l sp = (pairs l).foldl (fun sp e => createIntersection geo sp e.1 e.2) sp := by
  induction l generalizing sp with
  | nil => rfl
  | cons b l ih => rw [createOuter, ih, createInner_eq, pairs, List.foldl_append]

theorem mem_pairs {α : Type} (l : List α) (h : l.Nodup) (e : α × α) (he : e ∈ pairs l) :
    e.1 ∈ l ∧ e.2 ∈ l ∧ e.1 ≠ e.2 := by
  induction l with
  | nil => simp [pairs] at he
  | cons a l ih =>
    rw [List.nodup_cons] at h
    rw [pairs, List.mem_append] at he
    rcases he with he | he
    · obtain ⟨b, hb, rfl⟩ := List.mem_map.1 he
      exact ⟨by simp, by simp [hb], fun (e : a = b) => h.1 (by rw [e]; exact hb)⟩
    · obtain ⟨h1, h2, h3⟩ := ih h.2 he
      exact ⟨by simp [h1], by simp [h2], h3⟩

theorem pairs_cover {α : Type} (l : List α) (a b : α) (ha : a ∈ l) (hb : b ∈ l) (hab : a ≠ b) :
    (a, b) ∈ pairs l ∨ (b, a) ∈ pairs l := by
  induction l with
  | nil => simp at ha
  | cons c l ih =>
    rw [pairs, List.mem_append, List.mem_append, List.mem_map, List.mem_map]
    rcases List.mem_cons.1 ha with rfl | ha'
    · rcases List.mem_cons.1 hb with rfl | hb'
      · exact absurd rfl hab
      · exact Or.inl (Or.inl ⟨b, hb', rfl⟩)
    · rcases List.mem_cons.1 hb with rfl | hb'
      · exact Or.inr (Or.inl ⟨a, ha', rfl⟩)
      · rcases ih ha' hb' with h | h
        · exact Or.inl (Or.inr h)
        · exact Or.inr (Or.inr h)

theorem pairs_once {α : Type} (l : List α) (h : l.Nodup) :
    (pairs l).Pairwise fun e f => e ≠ f ∧ e ≠ (f.2, f.1) := by
  induction l with
  | nil => simp [pairs]
  | cons a l ih =>
    rw [List.nodup_cons] at h
    rw [pairs, List.pairwise_append]
    refine ⟨?_, ih h.2, ?_⟩
    · rw [List.pairwise_map]
      refine h.2.imp_of_mem ?_
      intro b c hb hc hbc
      refine ⟨by simpa using hbc, ?_⟩
      intro e
      have : a = c := congrArg Prod.fst e
      exact h.1 (by rw [this]; exact hc)
    · intro e he f hf
      obtain ⟨b, hb, rfl⟩ := List.mem_map.1 he
      obtain ⟨h1, h2, _⟩ := mem_pairs l h.2 f hf
      refine ⟨?_, ?_⟩
      · intro e
        have : a = f.1 := congrArg Prod.fst e
        exact h.1 (by rw [this]; exact h1)
      · intro e
        have : a = f.2 := congrArg Prod.fst e
        exact h.1 (by rw [this]; exact h2)

/-! ### C38 -/

/-- An intersection as `create_intersection` makes it. -/
def PairedUp (e : Name × Intersection) : Prop :=
  e.2.id = e.1 ∧ ∃ s0 s1, e.2.sides = [s0, s1] ∧ s0.idx = 0 ∧ s1.idx = 1 ∧ s0.sheet ≠ s1.sheet ∧
    (∀ s ∈ [s0, s1], s.intersection = e.1 ∧ s.id = (e.1, s.sheet))

theorem fold_paired (geo : Sheet → Sheet → Option JointNums) (ps : List (Sheet × Sheet))
    (hps : ∀ e ∈ ps, e.1.id ≠ e.2.id) (sp : SheetPlex) (h : (sp.intersections.map Prod.fst).Nodup)
    (hp : ∀ e ∈ sp.intersections, PairedUp e) :
    let sp' := ps.foldl (fun sp e => createIntersection geo sp e.1 e.2) sp
    sp'.sheets = sp.sheets ∧ (sp'.intersections.map Prod.fst).Nodup ∧ ∀ e ∈ sp'.intersections, PairedUp e := by
  induction ps generalizing sp with
  | nil => exact ⟨rfl, h, hp⟩
  | cons a ps ih =>
    rw [List.foldl_cons]
    have key : (createIntersection geo sp a.1 a.2).sheets = sp.sheets ∧
        ((createIntersection geo sp a.1 a.2).intersections.map Prod.fst).Nodup ∧
        ∀ e ∈ (createIntersection geo sp a.1 a.2).intersections, PairedUp e := by
      unfold createIntersection
      cases geo a.1 a.2 with
      | none => exact ⟨rfl, h, hp⟩
      | some nums =>
        refine ⟨rfl, PMap.nodup_set _ _ _ h, fun e he => ?_⟩
        rcases PMap.mem_set _ _ _ _ he with rfl | he
        · refine ⟨rfl, _, _, rfl, rfl, rfl, hps a (by simp), ?_⟩
          intro s hs
          simp only [List.mem_cons, List.not_mem_nil, or_false] at hs
          rcases hs with rfl | rfl <;> exact ⟨rfl, rfl⟩
        · exact hp e he
    obtain ⟨k1, k2, k3⟩ := key
    obtain ⟨i1, i2, i3⟩ := ih (fun e he => hps e (by simp [he])) _ k2 k3
    exact ⟨i1.trans k1, i2, i3⟩

theorem create_paired (geo : Sheet → Sheet → Option JointNums) (sheets : List Sheet)
    (hd : (sheets.map Sheet.id).Nodup) :
    (createSheetplex geo sheets).sheets = sheets.map (fun s => (s.id, s)) ∧
    ((createSheetplex geo sheets).intersections.map Prod.fst).Nodup ∧
    ∀ e ∈ (createSheetplex geo sheets).intersections, PairedUp e := by
  unfold createSheetplex
  rw [createOuter_eq]
  apply fold_paired
  · intro e he hid
    have hn : sheets.Nodup := hd.of_map _
    obtain ⟨h1, h2, h3⟩ := mem_pairs sheets hn e he
    exact h3 (List.inj_on_of_nodup_map hd h1 h2 hid)
  · simp
  · simp

theorem pyIndex_two (s0 s1 : InterSide) :
    pyIndex [s0, s1] 0 = .ok s0 ∧ pyIndex [s0, s1] 1 = .ok s1 := ⟨rfl, rfl⟩

/-- A sheetplex whose intersections are as `create_intersections` makes them. -/
def SheetPlex.Paired (sp : SheetPlex) : Prop :=
  (sp.intersections.map Prod.fst).Nodup ∧ ∀ e ∈ sp.intersections, PairedUp e

theorem paired_opposite (sp : SheetPlex) (hsp : sp.Paired) (k : Name) (inter : Intersection) (s : InterSide)
    (hi : sp.intersections.get k = .ok inter) (hs : s ∈ inter.sides) :
    (∃ t, s.opposite sp = .ok t ∧ t ∈ inter.sides ∧ t.sheet ≠ s.sheet ∧
      t.intersection = s.intersection ∧ t.opposite sp = .ok s) ∧
    sp.interside s.id = .ok s ∧ s.id = (k, s.sheet) ∧ inter.id = k ∧
    sideBySheet inter.sides s.sheet = some s := by
  have hp := hsp.2
  obtain ⟨h1, s0, s1, h2, h3, h4, h5, h6⟩ := hp _ (PMap.mem_of_get _ _ _ hi)
  dsimp only at h1 h2 h6
  rw [h2] at hs
  have hs' : s = s0 ∨ s = s1 := by simpa using hs
  obtain ⟨e0, f0⟩ := h6 s0 (by simp)
  obtain ⟨e1, f1⟩ := h6 s1 (by simp)
  have o0 : s0.opposite sp = .ok s1 := by
    unfold InterSide.opposite
    rw [e0, hi]
    show pyIndex inter.sides _ = _
    rw [h2, h3]
    rfl
  have o1 : s1.opposite sp = .ok s0 := by
    unfold InterSide.opposite
    rw [e1, hi]
    show pyIndex inter.sides _ = _
    rw [h2, h4]
    rfl
  have i0 : sp.interside s0.id = .ok s0 := by
    unfold SheetPlex.interside
    rw [f0]
    show (do
      let inter ← sp.intersections.get k
      let t0 ← pyIndex inter.sides 0
      if t0.sheet = s0.sheet then .ok t0
      else do
        let t1 ← pyIndex inter.sides 1
        if t1.sheet = s0.sheet then .ok t1 else .error .assertion : Except PyErr InterSide) = _
    rw [hi]
    show (do
      let t0 ← pyIndex inter.sides 0
      if t0.sheet = s0.sheet then .ok t0
      else do
        let t1 ← pyIndex inter.sides 1
        if t1.sheet = s0.sheet then .ok t1 else .error .assertion : Except PyErr InterSide) = _
    rw [h2, (pyIndex_two s0 s1).1]
    show (if s0.sheet = s0.sheet then _ else _) = _
    rw [if_pos rfl]
  have i1 : sp.interside s1.id = .ok s1 := by
    unfold SheetPlex.interside
    rw [f1]
    show (do
      let inter ← sp.intersections.get k
      let t0 ← pyIndex inter.sides 0
      if t0.sheet = s1.sheet then .ok t0
      else do
        let t1 ← pyIndex inter.sides 1
        if t1.sheet = s1.sheet then .ok t1 else .error .assertion : Except PyErr InterSide) = _
    rw [hi]
    show (do
      let t0 ← pyIndex inter.sides 0
      if t0.sheet = s1.sheet then .ok t0
      else do
        let t1 ← pyIndex inter.sides 1
        if t1.sheet = s1.sheet then .ok t1 else .error .assertion : Except PyErr InterSide) = _
    rw [h2, (pyIndex_two s0 s1).1, (pyIndex_two s0 s1).2]
    show (if s0.sheet = s1.sheet then _ else _) = _
    rw [if_neg h5]
    show (if s1.sheet = s1.sheet then _ else _) = _
    rw [if_pos rfl]
  rcases hs' with rfl | rfl
  · refine ⟨⟨s1, o0, by rw [h2]; simp, Ne.symm h5, by rw [e0, e1], o1⟩, i0, f0, h1, ?_⟩
    rw [h2, sideBySheet, if_pos rfl]
  · refine ⟨⟨s0, o1, by rw [h2]; simp, h5, by rw [e0, e1], o0⟩, i1, f1, h1, ?_⟩
    rw [h2, sideBySheet, if_neg h5, sideBySheet, if_pos rfl]

/-- C38: for every joint side `s` of a created sheetplex: `opposite` gives another side of the same
intersection on another sheet, the opposite of the opposite is `s`, `interside` finds `s` under its id,
and `side_by_sheet` finds it under its sheet. -/
theorem c38_opposite (geo : Sheet → Sheet → Option JointNums) (sheets : List Sheet)
    (hd : (sheets.map Sheet.id).Nodup) (k : Name) (inter : Intersection) (s : InterSide)
    (hi : (createSheetplex geo sheets).intersections.get k = .ok inter) (hs : s ∈ inter.sides) :
    (∃ t, s.opposite (createSheetplex geo sheets) = .ok t ∧ t ∈ inter.sides ∧ t.sheet ≠ s.sheet ∧
      t.intersection = s.intersection ∧ t.opposite (createSheetplex geo sheets) = .ok s) ∧
    (createSheetplex geo sheets).interside s.id = .ok s ∧ s.id = (k, s.sheet) ∧ inter.id = k ∧
    sideBySheet inter.sides s.sheet = some s := by
  exact paired_opposite _ (create_paired geo sheets hd).2 k inter s hi hs

theorem paired_intersides (sp : SheetPlex) (hsp : sp.Paired) (vals : List Intersection)
    (hv : vals.Perm (sp.intersections.map Prod.snd)) (name : Name) :
    (∀ s, s ∈ intersides vals (some name) ↔ s.sheet = name ∧ sp.interside s.id = .ok s) ∧
    (∀ s, s ∈ intersides vals none ↔ sp.interside s.id = .ok s) ∧
    ((intersides vals (some name)).map InterSide.id).Nodup ∧
    ((intersides vals none).map InterSide.id).Nodup := by
  obtain ⟨hn, hp⟩ := hsp
  have mem : ∀ s, (∃ inter ∈ vals, s ∈ inter.sides) ↔
      sp.interside s.id = .ok s := by
    intro s
    constructor
    · rintro ⟨inter, hi, hs⟩
      obtain ⟨e, he, rfl⟩ := List.mem_map.1 (hv.mem_iff.1 hi)
      exact (paired_opposite sp ⟨hn, hp⟩ e.1 e.2 s (PMap.get_of_mem _ hn e he) hs).2.1
    · intro h
      unfold SheetPlex.interside at h
      cases hg : sp.intersections.get s.id.1 with
      | error e => rw [hg] at h; cases h
      | ok inter =>
        have hm := PMap.mem_of_get _ _ _ hg
        obtain ⟨h1, s0, s1, h2, _⟩ := hp _ hm
        refine ⟨inter, hv.mem_iff.2 (List.mem_map.2 ⟨_, hm, rfl⟩), ?_⟩
        dsimp only at h2
        rw [hg] at h
        replace h : (do
          let t0 ← pyIndex inter.sides 0
          if t0.sheet = s.id.2 then .ok t0
          else do
            let t1 ← pyIndex inter.sides 1
            if t1.sheet = s.id.2 then .ok t1 else .error .assertion : Except PyErr InterSide) = .ok s := h
        rw [h2, (pyIndex_two s0 s1).1, (pyIndex_two s0 s1).2] at h
        replace h : (if s0.sheet = s.id.2 then .ok s0
          else (if s1.sheet = s.id.2 then .ok s1 else .error .assertion) : Except PyErr InterSide) = .ok s := h
        rw [h2]
        split_ifs at h <;> cases h <;> simp
  have e1 : ∀ s, s ∈ intersides vals (some name) ↔ (∃ inter ∈ vals, s ∈ inter.sides) ∧ s.sheet = name := by
    intro s
    unfold intersides
    simp only [List.mem_flatMap, List.mem_filter, decide_eq_true_eq]
    constructor
    · rintro ⟨i, hi, h1, h2⟩
      exact ⟨⟨i, hi, h1⟩, h2⟩
    · rintro ⟨⟨i, hi, h1⟩, h2⟩
      exact ⟨i, hi, h1, h2⟩
  have e2 : ∀ s, s ∈ intersides vals none ↔ (∃ inter ∈ vals, s ∈ inter.sides) := by
    intro s
    unfold intersides
    simp
  have hvn : (vals.map Intersection.id).Nodup := by
    have : (sp.intersections.map Prod.snd).map Intersection.id =
        sp.intersections.map Prod.fst := by
      rw [List.map_map]
      exact List.map_congr_left fun e he => (hp e he).1
    exact (hv.map Intersection.id).nodup_iff.2 (this ▸ hn)
  have hvp : ∀ inter ∈ vals, PairedUp (inter.id, inter) := by
    intro inter hi
    obtain ⟨e, he, rfl⟩ := List.mem_map.1 (hv.mem_iff.1 hi)
    have := hp e he
    rwa [show (e.2.id, e.2) = e from Prod.ext this.1 rfl]
  have nd : ((intersides vals none).map InterSide.id).Nodup := by
    clear mem e1 e2 hv hn hp
    unfold intersides
    simp only [List.filter_true]
    induction vals with
    | nil => simp
    | cons i vals ih =>
      rw [List.map_cons, List.nodup_cons] at hvn
      rw [List.flatMap_cons, List.map_append, List.nodup_append]
      refine ⟨?_, ih hvn.2 fun j hj => hvp j (by simp [hj]), ?_⟩
      · obtain ⟨_, s0, s1, h2, _, _, h5, h6⟩ := hvp i (by simp)
        dsimp only at h2
        rw [h2]
        have a0 := (h6 s0 (by simp)).2
        have a1 := (h6 s1 (by simp)).2
        simp [a0, a1, h5]
      · intro a ha b hb hab
        subst hab
        obtain ⟨s, hs, rfl⟩ := List.mem_map.1 ha
        obtain ⟨t, ht, hst⟩ := List.mem_map.1 hb
        obtain ⟨j, hj, htj⟩ := List.mem_flatMap.1 ht
        obtain ⟨_, s0, s1, h2, _, _, _, h6⟩ := hvp i (by simp)
        obtain ⟨_, t0, t1, k2, _, _, _, k6⟩ := hvp j (by simp [hj])
        dsimp only at h2 k2 h6 k6
        have a := (h6 s (h2 ▸ hs)).2
        have b := (k6 t (k2 ▸ htj)).2
        rw [a, b] at hst
        exact hvn.1 (List.mem_map.2 ⟨j, hj, (congrArg Prod.fst hst)⟩)
  have sub : (intersides vals (some name)).Sublist (intersides vals none) := by
    unfold intersides
    simp only [List.filter_true]
    clear mem e1 e2 hv hn hp nd hvn hvp
    induction vals with
    | nil => simp
    | cons i vals ih =>
      rw [List.flatMap_cons, List.flatMap_cons]
      exact List.Sublist.append List.filter_sublist ih
  refine ⟨fun s => ?_, fun s => ?_, ?_, nd⟩
  · rw [e1, mem, and_comm]
  · rw [e2, mem]
  · exact nd.sublist (sub.map _)

/-- C38: `intersides(sheet)` lists exactly the joint sides on that sheet, each once, in whatever order
the intersections are enumerated; `intersides()` lists all. -/
theorem c38_intersides (geo : Sheet → Sheet → Option JointNums) (sheets : List Sheet)
    (hd : (sheets.map Sheet.id).Nodup) (vals : List Intersection)
    (hv : vals.Perm ((createSheetplex geo sheets).intersections.map Prod.snd)) (name : Name) :
    (∀ s, s ∈ intersides vals (some name) ↔
      s.sheet = name ∧ (createSheetplex geo sheets).interside s.id = .ok s) ∧
    (∀ s, s ∈ intersides vals none ↔ (createSheetplex geo sheets).interside s.id = .ok s) ∧
    ((intersides vals (some name)).map InterSide.id).Nodup ∧
    ((intersides vals none).map InterSide.id).Nodup := by
  exact paired_intersides _ (create_paired geo sheets hd).2 vals hv name

/-! ### C39 -/

/-- C39 as stated is false: `limit` raises `AttributeError` exactly when the first sheet of some
intersection is kept. -/
theorem c39_raises (sp : SheetPlex) (h2 : ∀ e ∈ sp.intersections, PairedUp e) (ids : List Name) :
    sp.limit ids = .error .attributeError ↔
      ∃ e ∈ sp.intersections, ∃ s0 s1, e.2.sides = [s0, s1] ∧ s0.sheet ∈ ids := by
  have key : ∀ m : PMap Name Intersection, (∀ e ∈ m, PairedUp e) →
      (limitInters ids m = .error .attributeError ∧
        ∃ e ∈ m, ∃ s0 s1, e.2.sides = [s0, s1] ∧ s0.sheet ∈ ids) ∨
      (limitInters ids m = .ok [] ∧ ¬ ∃ e ∈ m, ∃ s0 s1, e.2.sides = [s0, s1] ∧ s0.sheet ∈ ids) := by
    intro m hm
    induction m with
    | nil => right; exact ⟨rfl, by simp⟩
    | cons e m ih =>
      obtain ⟨k, inter⟩ := e
      obtain ⟨_, s0, s1, h, _⟩ := hm (k, inter) (by simp)
      dsimp only at h
      have hc : limitCond ids inter = if s0.sheet ∈ ids then .error .attributeError else .ok false := by
        unfold limitCond
        rw [h]
        rfl
      rw [limitInters, hc]
      by_cases hs : s0.sheet ∈ ids
      · left
        rw [if_pos hs]
        exact ⟨rfl, (k, inter), by simp, s0, s1, h, hs⟩
      · rw [if_neg hs]
        rcases ih (fun e he => hm e (by simp [he])) with ⟨a, e, he, b⟩ | ⟨a, b⟩
        · left
          refine ⟨?_, e, by simp [he], b⟩
          rw [a]; rfl
        · right
          refine ⟨by rw [a]; rfl, ?_⟩
          rintro ⟨e, he, t0, t1, ht, hts⟩
          rcases List.mem_cons.1 he with rfl | he
          · rw [h] at ht
            cases ht
            exact hs hts
          · exact b ⟨e, he, t0, t1, ht, hts⟩
  unfold SheetPlex.limit
  rcases key sp.intersections h2 with ⟨a, b⟩ | ⟨a, b⟩
  · simp only [b, iff_true]
    rw [a]; rfl
  · simp only [b, iff_false]
    rw [a]
    intro h
    cases h

/-- C39, as far as it is true: `limit` returns exactly the sheets with the given ids and exactly the
intersections both of whose sheets are among them, whenever no intersection has its first sheet among
the ids (so no intersection remains).  Missing: all other cases, where the code raises; see
`c39_raises`. -/
theorem c39_limit_partial (sp : SheetPlex) (h2 : ∀ e ∈ sp.intersections, PairedUp e) (ids : List Name)
    (h : ∀ e ∈ sp.intersections, ∀ s0 s1, e.2.sides = [s0, s1] → s0.sheet ∉ ids) :
    ∃ r, sp.limit ids = .ok r ∧ (∀ e, e ∈ r.sheets ↔ e ∈ sp.sheets ∧ e.1 ∈ ids) ∧
      ∀ e, e ∈ r.intersections ↔ e ∈ sp.intersections ∧ ∀ s ∈ e.2.sides, s.sheet ∈ ids := by
  have key : ∀ m : PMap Name Intersection, (∀ e ∈ m, PairedUp e) →
      (∀ e ∈ m, ∀ s0 s1, e.2.sides = [s0, s1] → s0.sheet ∉ ids) → limitInters ids m = .ok [] := by
    intro m hm hh
    induction m with
    | nil => rfl
    | cons e m ih =>
      obtain ⟨k, inter⟩ := e
      obtain ⟨_, s0, s1, h, _⟩ := hm (k, inter) (by simp)
      dsimp only at h
      have hc : limitCond ids inter = if s0.sheet ∈ ids then .error .attributeError else .ok false := by
        unfold limitCond
        rw [h]
        rfl
      rw [limitInters, hc, if_neg (hh (k, inter) (by simp) s0 s1 h),
        ih (fun e he => hm e (by simp [he])) (fun e he => hh e (by simp [he]))]
      rfl
  unfold SheetPlex.limit
  rw [key _ h2 h]
  refine ⟨_, rfl, by simp [List.mem_filter], ?_⟩
  intro e
  simp only [List.not_mem_nil, false_iff, not_and]
  intro he hs
  obtain ⟨_, s0, s1, h', _⟩ := h2 e he
  exact h e he s0 s1 h' (hs s0 (by rw [h']; simp))

/-! ### C40 -/

theorem intersectionId_comm (a b : Name) : intersectionId a b = intersectionId b a := by
  unfold intersectionId
  rcases lt_trichotomy a b with h | rfl | h
  · rw [if_neg (not_lt.2 h.le), if_pos h]
  · rfl
  · rw [if_pos h, if_neg (not_lt.2 h.le)]

theorem join_inj {a b c d : Name} (ha : ',' ∉ a) (hc : ',' ∉ c) (h : a ++ ',' :: b = c ++ ',' :: d) :
    a = c ∧ b = d := by
  induction a generalizing c with
  | nil =>
    cases c with
    | nil => simpa using h
    | cons x c =>
      simp only [List.nil_append, List.cons_append, List.cons.injEq] at h
      exact absurd (by rw [h.1]; simp) hc
  | cons x a ih =>
    cases c with
    | nil =>
      simp only [List.nil_append, List.cons_append, List.cons.injEq] at h
      exact absurd (by rw [h.1]; simp) ha
    | cons y c =>
      simp only [List.cons_append, List.cons.injEq] at h
      simp only [List.mem_cons, not_or] at ha hc
      obtain ⟨e1, e2⟩ := ih ha.2 hc.2 h.2
      exact ⟨by rw [h.1, e1], e2⟩

/-- C40: the id does not depend on the order of the pair, and different pairs of comma-free names have
different ids. -/
theorem c40_id (a b c d : Name) (ha : ',' ∉ a) (hb : ',' ∉ b) (hc : ',' ∉ c) (hd : ',' ∉ d) :
    intersectionId a b = intersectionId b a ∧
    (intersectionId a b = intersectionId c d ↔ (a = c ∧ b = d) ∨ (a = d ∧ b = c)) := by
  refine ⟨intersectionId_comm a b, ?_, ?_⟩
  · intro h
    unfold intersectionId at h
    split_ifs at h
    · obtain ⟨rfl, rfl⟩ := join_inj hb hd h
      exact Or.inl ⟨rfl, rfl⟩
    · obtain ⟨rfl, rfl⟩ := join_inj hb hc h
      exact Or.inr ⟨rfl, rfl⟩
    · obtain ⟨rfl, rfl⟩ := join_inj ha hd h
      exact Or.inr ⟨rfl, rfl⟩
    · obtain ⟨rfl, rfl⟩ := join_inj ha hc h
      exact Or.inl ⟨rfl, rfl⟩
  · rintro (⟨rfl, rfl⟩ | ⟨rfl, rfl⟩)
    · rfl
    · exact intersectionId_comm _ _

/-- Names with commas could collide; `create_sheets` makes none (ids are `s0`, `s1`, ...). -/
theorem c40_commas_collide :
    intersectionId "a,b".toList "c".toList = intersectionId "a".toList "b,c".toList := by
  decide

theorem fold_inters (geo : Sheet → Sheet → Option JointNums) (ps : List (Sheet × Sheet))
    (sp : SheetPlex)
    (hne : ps.Pairwise fun e f => intersectionId e.1.id e.2.id ≠ intersectionId f.1.id f.2.id)
    (hnew : ∀ e ∈ ps, intersectionId e.1.id e.2.id ∉ sp.intersections.map Prod.fst) :
    (ps.foldl (fun sp e => createIntersection geo sp e.1 e.2) sp).intersections =
      sp.intersections ++ (ps.filterMap fun e => (geo e.1 e.2).map fun nums =>
        (intersectionId e.1.id e.2.id, (⟨intersectionId e.1.id e.2.id,
          [createInterSide nums (intersectionId e.1.id e.2.id) e.1 0,
           createInterSide nums (intersectionId e.1.id e.2.id) e.2 1]⟩ : Intersection))) := by
  induction ps generalizing sp with
  | nil => simp
  | cons a ps ih =>
    rw [List.pairwise_cons] at hne
    rw [List.foldl_cons, List.filterMap_cons]
    cases hg : geo a.1 a.2 with
    | none =>
      have : createIntersection geo sp a.1 a.2 = sp := by
        unfold createIntersection
        rw [hg]
      rw [this, ih sp hne.2 fun e he => hnew e (by simp [he])]
      rfl
    | some nums =>
      have hi : (createIntersection geo sp a.1 a.2).intersections = sp.intersections ++
          [(intersectionId a.1.id a.2.id, ⟨intersectionId a.1.id a.2.id,
          [createInterSide nums (intersectionId a.1.id a.2.id) a.1 0,
           createInterSide nums (intersectionId a.1.id a.2.id) a.2 1]⟩)] := by
        unfold createIntersection
        rw [hg]
        exact PMap.set_new _ _ _ (hnew a (by simp))
      rw [ih _ hne.2, hi]
      · simp
      · intro e he
        rw [hi]
        simp only [List.map_append, List.mem_append, List.map_cons, List.map_nil, List.mem_singleton, not_or]
        exact ⟨hnew e (by simp [he]), Ne.symm (hne.1 e he)⟩

/-- C40: for distinctly named sheets, without commas in the names, `create_intersections` makes one
intersection per pair of non-parallel sheets: there are as many as such pairs, all with different ids,
and each pair, in whichever order, finds its own under its id. -/
theorem c40_pairs (geo : Sheet → Sheet → Option JointNums) (sheets : List Sheet)
    (hd : (sheets.map Sheet.id).Nodup) (hc : ∀ s ∈ sheets, ',' ∉ s.id)
    (hsym : ∀ s ∈ sheets, ∀ t ∈ sheets, (geo s t).isSome = (geo t s).isSome) :
    ((createSheetplex geo sheets).intersections.map Prod.fst).Nodup ∧
    (createSheetplex geo sheets).intersections.length =
      ((pairs sheets).filter fun e => (geo e.1 e.2).isSome).length ∧
    (∀ s ∈ sheets, ∀ t ∈ sheets, s ≠ t → (geo s t).isSome →
      ∃ inter, (createSheetplex geo sheets).intersections.get (intersectionId s.id t.id) = .ok inter ∧
        (inter.sides.map InterSide.sheet).Perm [s.id, t.id]) ∧
    (∀ k inter, (createSheetplex geo sheets).intersections.get k = .ok inter →
      ∃ s ∈ sheets, ∃ t ∈ sheets, s ≠ t ∧ (geo s t).isSome ∧ k = intersectionId s.id t.id ∧
        inter.sides.map InterSide.sheet = [s.id, t.id]) := by
  have hn : sheets.Nodup := hd.of_map _
  have hinj : ∀ s ∈ sheets, ∀ t ∈ sheets, s.id = t.id → s = t := fun s hs t ht h =>
    List.inj_on_of_nodup_map hd hs ht h
  have hpw : (pairs sheets).Pairwise fun e f => intersectionId e.1.id e.2.id ≠ intersectionId f.1.id f.2.id := by
    refine (pairs_once sheets hn).imp_of_mem ?_
    intro e f he hf ⟨h1, h2⟩ h
    obtain ⟨e1, e2, _⟩ := mem_pairs sheets hn e he
    obtain ⟨f1, f2, _⟩ := mem_pairs sheets hn f hf
    rcases (c40_id _ _ _ _ (hc _ e1) (hc _ e2) (hc _ f1) (hc _ f2)).2.1 h with ⟨a, b⟩ | ⟨a, b⟩
    · exact h1 (Prod.ext (hinj _ e1 _ f1 a) (hinj _ e2 _ f2 b))
    · exact h2 (Prod.ext (hinj _ e1 _ f2 a) (hinj _ e2 _ f1 b))
  have hi := fold_inters geo (pairs sheets) ⟨sheets.map fun s => (s.id, s), []⟩ hpw (by simp)
  rw [← createOuter_eq] at hi
  change (createSheetplex geo sheets).intersections = _ at hi
  obtain ⟨_, hnd, _⟩ := create_paired geo sheets hd
  have get : ∀ e ∈ pairs sheets, ∀ nums, geo e.1 e.2 = some nums →
      (createSheetplex geo sheets).intersections.get (intersectionId e.1.id e.2.id) =
        .ok ⟨intersectionId e.1.id e.2.id,
          [createInterSide nums (intersectionId e.1.id e.2.id) e.1 0,
           createInterSide nums (intersectionId e.1.id e.2.id) e.2 1]⟩ := by
    intro e he nums hg
    refine PMap.get_of_mem _ hnd (intersectionId e.1.id e.2.id, _) ?_
    rw [hi]
    exact List.mem_append_right _ (List.mem_filterMap.2 ⟨e, he, by rw [hg]; rfl⟩)
  refine ⟨hnd, ?_, ?_, ?_⟩
  · rw [hi]
    simp only [List.nil_append]
    clear hi hnd hpw get
    induction pairs sheets with
    | nil => rfl
    | cons e l ih =>
      rw [List.filterMap_cons, List.filter_cons]
      cases hg : geo e.1 e.2 with
      | none => simpa using ih
      | some nums => simpa using ih
  · intro s hs t ht hst hg
    rcases pairs_cover sheets s t hs ht hst with h | h
    · obtain ⟨nums, hg⟩ := Option.isSome_iff_exists.1 hg
      exact ⟨_, get _ h nums hg, List.Perm.refl _⟩
    · rw [hsym s hs t ht] at hg
      obtain ⟨nums, hg⟩ := Option.isSome_iff_exists.1 hg
      rw [intersectionId_comm]
      exact ⟨_, get _ h nums hg, List.Perm.swap _ _ _⟩
  · intro k inter hk
    have := PMap.mem_of_get _ _ _ hk
    rw [hi, List.nil_append, List.mem_filterMap] at this
    obtain ⟨e, he, h⟩ := this
    obtain ⟨e1, e2, e3⟩ := mem_pairs sheets hn e he
    cases hg : geo e.1 e.2 with
    | none => rw [hg] at h; simp at h
    | some nums =>
      rw [hg] at h
      simp only [Option.map_some, Option.some.injEq, Prod.mk.injEq] at h
      obtain ⟨rfl, rfl⟩ := h
      exact ⟨e.1, e1, e.2, e2, e3, by rw [hg]; rfl, rfl, rfl⟩

/-- Three sheets, two of them parallel. -/
def geo3 : Sheet → Sheet → Option JointNums := fun a b =>
  if (a.id = "s0".toList ∧ b.id = "s1".toList) ∨ (b.id = "s0".toList ∧ a.id = "s1".toList) then none
  else some ⟨fun _ => (1, 0), fun _ => ((0, 0), (0, 3), (0, 3), (0, 0))⟩

example : (createSheetplex geo3 [⟨"s0".toList⟩, ⟨"s1".toList⟩, ⟨"s2".toList⟩]).intersections.map Prod.fst =
    ["s0,s2".toList, "s1,s2".toList] := by decide

example := c40_pairs geo3 [⟨"s0".toList⟩, ⟨"s1".toList⟩, ⟨"s2".toList⟩] (by decide) (by decide) (by decide)

/-- `limit` to `s0` and `s2` raises, although it should return two sheets and one intersection. -/
theorem c39_fails : (createSheetplex geo3 [⟨"s0".toList⟩, ⟨"s1".toList⟩, ⟨"s2".toList⟩]).limit
    ["s0".toList, "s2".toList] = .error .attributeError := by rfl

/-- `limit` to `s2` alone works: no intersection has `s2` as its first sheet. -/
example : ∃ r, (createSheetplex geo3 [⟨"s0".toList⟩, ⟨"s1".toList⟩, ⟨"s2".toList⟩]).limit ["s2".toList] = .ok r ∧
    r.sheets.map Prod.fst = ["s2".toList] ∧ r.intersections.map Prod.fst = [] := by
  exact ⟨_, rfl, by decide, by decide⟩

end Ply
