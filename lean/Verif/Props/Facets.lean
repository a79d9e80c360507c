import Verif.Model.Facets
import Verif.Props.Text
import Verif.Props.SheetPlex

/-! # C41, C42: facets and sheets -/

namespace Ply

/-! ### C41 -/

theorem mem_trianglesLeft (fs : List (List ℕ)) (left : List ℕ) (t : ℕ) :
    t ∈ trianglesLeft fs left ↔ t ∈ left ∧ ∀ f ∈ fs, t ∉ f := by
  induction fs generalizing left with
  | nil => simp [trianglesLeft]
  | cons f fs ih =>
    rw [trianglesLeft, ih, List.mem_filter]
    simp only [decide_eq_true_eq, List.mem_cons, forall_eq_or_imp]
    tauto

theorem nodup_trianglesLeft (fs : List (List ℕ)) (left : List ℕ) (h : left.Nodup) :
    (trianglesLeft fs left).Nodup := by
  induction fs generalizing left with
  | nil => exact h
  | cons f fs ih => exact ih _ (h.filter _)

theorem addTriangles_spec {V A : Type} (m : Mesh V A) (ts : List ℕ) (r : AllFacets V A) :
    (addTriangles m ts r).facets = r.facets ++ ts.map (fun t => [t]) ∧
    (addTriangles m ts r).normals = r.normals ++ ts.map m.faceNormals ∧
    (addTriangles m ts r).areas = r.areas ++ ts.map m.areaFaces ∧
    (addTriangles m ts r).origins = r.origins ++ ts.map m.firstVertex ∧
    (addTriangles m ts r).boundaries.length = r.boundaries.length + ts.length := by
  induction ts generalizing r with
  | nil => simp [addTriangles]
  | cons t ts ih =>
    rw [addTriangles]
    obtain ⟨h1, h2, h3, h4, h5⟩ := ih
      { facets := r.facets ++ [[t]]
        normals := r.normals ++ [m.faceNormals t]
        areas := r.areas ++ [m.areaFaces t]
        origins := r.origins ++ [m.firstVertex t]
        boundaries := r.boundaries ++ [[((m.faces t).1, (m.faces t).2.1), ((m.faces t).2.1, (m.faces t).2.2),
          ((m.faces t).2.2, (m.faces t).1)]] }
    refine ⟨by rw [h1]; simp, by rw [h2]; simp, by rw [h3]; simp, by rw [h4]; simp, ?_⟩
    rw [h5]
    simp only [List.length_append, List.length_cons, List.length_nil]
    omega

/-- C41: the facets of the mesh and the triangles in none of them, every triangle exactly once; all lists
have the same length, entries of added facets are those of their triangle. -/
theorem c41_facets {V A : Type} (enum : List ℕ → List ℕ) (henum : ∀ l, (enum l).Perm l) (m : Mesh V A)
    (hn : m.nFaces = m.nTriangles)
    (hdisj : m.facets.flatten.Nodup) (hrange : ∀ f ∈ m.facets, ∀ t ∈ f, t < m.nTriangles)
    (h1 : m.facetsNormal.length = m.facets.length) (h2 : m.facetsArea.length = m.facets.length)
    (h3 : m.facetsBoundary.length = m.facets.length)
    (h4 : ∀ o, m.facetsOrigin = some o → o.length = m.facets.length)
    (h5 : m.facetsOrigin = none → m.facets = []) :
    ∃ r, findAllFacets enum m = .ok r ∧ r.facets.flatten.Perm (List.range m.nTriangles) ∧
      r.normals.length = r.facets.length ∧ r.origins.length = r.facets.length ∧
      r.areas.length = r.facets.length ∧ r.boundaries.length = r.facets.length ∧
      (∀ i t, m.facets.length ≤ i → r.facets[i]? = some [t] →
        r.normals[i]? = some (m.faceNormals t) ∧ r.areas[i]? = some (m.areaFaces t) ∧
        r.origins[i]? = some (m.firstVertex t)) ∧
      m.facets <+: r.facets := by
  have ho : (originList m).length = m.facets.length := by
    unfold originList
    cases h : m.facetsOrigin with
    | none => simp [h5 h]
    | some o => exact h4 o h
  unfold findAllFacets
  rw [if_pos hn]
  dsimp only
  generalize hts : enum (trianglesLeft m.facets (List.range m.nTriangles)) = ts
  generalize originList m = origs at ho
  have hperm : ts.Perm (trianglesLeft m.facets (List.range m.nTriangles)) := hts ▸ henum _
  obtain ⟨a1, a2, a3, a4, a5⟩ := addTriangles_spec m ts
    ⟨m.facets, m.facetsNormal, origs, m.facetsArea, m.facetsBoundary⟩
  have hlen : (addTriangles m ts ⟨m.facets, m.facetsNormal, origs, m.facetsArea, m.facetsBoundary⟩).facets.length
      = m.facets.length + ts.length := by rw [a1]; simp
  refine ⟨_, rfl, ?_, ?_, ?_, ?_, ?_, ?_, ?_⟩
  · rw [a1]
    have hflat : (m.facets ++ ts.map (fun t => [t])).flatten = m.facets.flatten ++ ts := by
      rw [List.flatten_append]
      rw [← List.flatMap_def, List.flatMap_singleton' ts]
    rw [hflat]
    have hmem : ∀ t, t ∈ ts ↔ t < m.nTriangles ∧ ∀ f ∈ m.facets, t ∉ f := by
      intro t
      rw [hperm.mem_iff, mem_trianglesLeft, List.mem_range]
    refine (List.perm_ext_iff_of_nodup ?_ List.nodup_range).2 fun t => ?_
    · rw [List.nodup_append]
      refine ⟨hdisj, hperm.nodup_iff.2 (nodup_trianglesLeft _ _ List.nodup_range), ?_⟩
      rintro a ha b hb rfl
      obtain ⟨f, hf, haf⟩ := List.mem_flatten.1 ha
      exact ((hmem a).1 hb).2 f hf haf
    · rw [List.mem_append, hmem, List.mem_flatten, List.mem_range]
      constructor
      · rintro (⟨f, hf, h⟩ | h)
        · exact hrange f hf t h
        · exact h.1
      · intro ht
        by_cases hc : ∃ f ∈ m.facets, t ∈ f
        · exact Or.inl hc
        · right
          push Not at hc
          exact ⟨ht, hc⟩
  · rw [hlen, a2]; simp [h1]
  · rw [hlen, a4]; simp [ho]
  · rw [hlen, a3]; simp [h2]
  · rw [hlen, a5, h3]
  · intro i t hi hf
    rw [a1, List.getElem?_append_right hi, List.getElem?_map] at hf
    cases hti : ts[i - m.facets.length]? with
    | none => rw [hti] at hf; simp at hf
    | some t' =>
      rw [hti] at hf
      simp only [Option.map_some, Option.some.injEq, List.cons.injEq, and_true] at hf
      subst hf
      refine ⟨?_, ?_, ?_⟩
      · rw [a2, List.getElem?_append_right (h1 ▸ hi), List.getElem?_map, h1, hti]; rfl
      · rw [a3, List.getElem?_append_right (h2 ▸ hi), List.getElem?_map, h2, hti]; rfl
      · rw [a4, List.getElem?_append_right (ho ▸ hi), List.getElem?_map, ho, hti]; rfl
  · rw [a1]; exact List.prefix_append _ _

/-- A cube-like mesh: two facets of two triangles and two single triangles. -/
example : ∃ r, findAllFacets (fun l => l.reverse) (⟨6, 6, [[0, 1], [4, 5]], [0, 0], some [0, 0], [2, 2],
    [[], []], fun t => t, fun t => t, fun t => t, fun t => (t, t, t)⟩ : Mesh ℕ ℕ) = .ok r ∧
    r.facets = [[0, 1], [4, 5], [3], [2]] := by
  exact ⟨_, rfl, by decide⟩

/-! ### C42 -/

/-- All facets of a collection. -/
def Collected.all (c : Collected) : List ℕ := c.same ++ c.opposed ++ c.within

theorem facetStatus_spec (st : FacetStatus) (other : ℕ) (c : Collected) (todo : List ℕ) (ho : other ∈ todo) :
    ∃ c' todo', facetStatus st other c todo = .ok (c', todo') ∧
      (c'.all ++ todo').Perm (c.all ++ todo) ∧ c.same <+: c'.same ∧
      (todo' = todo ∨ todo' = todo.erase other) := by
  have hp : (other :: todo.erase other).Perm todo := List.perm_cons_erase ho |>.symm
  have hr : removeFacet todo other = .ok (todo.erase other) := by
    unfold removeFacet
    rw [if_pos ho]
  unfold facetStatus
  cases st with
  | same =>
    refine ⟨_, _, by dsimp only; rw [hr]; rfl, ?_, List.prefix_append _ _, Or.inr rfl⟩
    rw [List.perm_iff_count] at hp ⊢
    intro a
    have := hp a
    simp only [Collected.all, List.count_append, List.count_cons, List.count_nil] at this ⊢
    omega
  | opposed =>
    refine ⟨{ c with opposed := c.opposed ++ [other] }, todo.erase other, by dsimp only; rw [hr]; rfl, ?_, List.prefix_refl _, Or.inr rfl⟩
    rw [List.perm_iff_count] at hp ⊢
    intro a
    have := hp a
    simp only [Collected.all, List.count_append, List.count_cons, List.count_nil] at this ⊢
    omega
  | within =>
    refine ⟨{ c with within := c.within ++ [other] }, todo.erase other, by dsimp only; rw [hr]; rfl, ?_, List.prefix_refl _, Or.inr rfl⟩
    rw [List.perm_iff_count] at hp ⊢
    intro a
    have := hp a
    simp only [Collected.all, List.count_append, List.count_cons, List.count_nil] at this ⊢
    omega
  | unrelated => exact ⟨_, _, rfl, List.Perm.refl _, List.prefix_refl _, Or.inl rfl⟩

theorem statusLoop_spec (st : ℕ → FacetStatus) (facet : ℕ) (snap : List ℕ) (c : Collected) (todo : List ℕ)
    (hs : snap.Nodup) (hsub : ∀ f ∈ snap, f ∈ todo) (hf : facet ∉ snap) :
    ∃ c' todo', statusLoop st facet snap c todo = .ok (c', todo') ∧
      (c'.all ++ todo').Perm (c.all ++ todo) ∧ c.same <+: c'.same := by
  induction snap generalizing c todo with
  | nil => exact ⟨c, todo, rfl, List.Perm.refl _, List.prefix_refl _⟩
  | cons o snap ih =>
    rw [List.nodup_cons] at hs
    simp only [List.mem_cons, not_or] at hf
    obtain ⟨c1, t1, e1, p1, q1, r1⟩ := facetStatus_spec (st o) o c todo (hsub o (by simp))
    obtain ⟨c2, t2, e2, p2, q2⟩ := ih c1 t1 hs.2 (by
      intro f hfm
      have hfo : f ≠ o := fun e => hs.1 (e ▸ hfm)
      rcases r1 with rfl | rfl
      · exact hsub f (by simp [hfm])
      · exact (List.mem_erase_of_ne hfo).2 (hsub f (by simp [hfm]))) hf.2
    refine ⟨c2, t2, ?_, p2.trans p1, q1.trans q2⟩
    rw [statusLoop, if_neg (Ne.symm hf.1), e1]
    exact e2

/-- A group as the loop makes it: the starting facet comes first, and an id is given exactly when there
are opposed facets. -/
def Group.Proper (g : Group) : Prop :=
  [g.facet] <+: g.parts.same ∧ (g.id.isSome ↔ g.parts.opposed ≠ [])

theorem createLoop_spec {A : Type} [LinearOrder A] (area : ℕ → A) (o : SheetOracle)
    (henum : ∀ l, (o.enum l).Perm l) (order todo : List ℕ) (idx : ℕ)
    (hnd : todo.Nodup) (hsub : ∀ f ∈ todo, f ∈ order) (hsort : order.Pairwise fun a b => area b ≤ area a) :
    (∀ groups, createLoop o order todo idx = .ok groups →
      (groups.flatMap fun g => g.parts.all).Perm todo ∧
      (∀ g ∈ groups, g.Proper) ∧
      groups.filterMap Group.id
        = (List.range (groups.filterMap Group.id).length).map (fun i => sheetName (idx + i)) ∧
      (∀ pre g post, groups = pre ++ g :: post → ∀ g' ∈ g :: post, ∀ f ∈ g'.parts.all, area f ≤ area g.facet)) ∧
    (∀ e, createLoop o order todo idx = .error e →
      (∃ f, o.slices f = .error e) ∨ (∃ c, o.faces c = .error e)) := by
  induction order generalizing todo idx with
  | nil =>
    have : todo = [] := List.eq_nil_iff_forall_not_mem.2 fun f hf => by simpa using hsub f hf
    subst this
    refine ⟨fun groups h => ?_, fun e h => by cases h⟩
    simp only [createLoop, Except.ok.injEq] at h
    subst h
    simp
  | cons facet rest ih =>
    rw [List.pairwise_cons] at hsort
    rw [createLoop]
    by_cases hf : facet ∈ todo
    · rw [if_pos hf]
      have hr : removeFacet todo facet = .ok (todo.erase facet) := by
        unfold removeFacet
        rw [if_pos hf]
      rw [hr]
      have hnd' : (todo.erase facet).Nodup := hnd.erase _
      obtain ⟨c, t1, e1, p1, q1⟩ := statusLoop_spec (o.status facet) facet (o.enum (todo.erase facet))
        ⟨[facet], [], []⟩ (todo.erase facet) ((henum _).nodup_iff.2 hnd')
        (fun f hfm => (henum _).mem_iff.1 hfm)
        (fun hc => by
          have := (henum _).mem_iff.1 hc
          rw [hnd.mem_erase_iff] at this
          exact this.1 rfl)
      have p2 : (c.all ++ t1).Perm todo := by
        refine p1.trans ?_
        simp only [Collected.all, List.append_nil, List.singleton_append]
        exact (List.perm_cons_erase hf).symm
      have ht1 : t1.Nodup := ((p2.nodup_iff.2 hnd).sublist (List.sublist_append_right _ _))
      have hft1 : facet ∉ t1 := by
        intro hc
        have hn := p2.nodup_iff.2 hnd
        rw [List.nodup_append] at hn
        refine hn.2.2 facet ?_ facet hc rfl
        obtain ⟨t, ht⟩ := q1
        unfold Collected.all
        rw [← ht]
        simp
      have hsub1 : ∀ f ∈ t1, f ∈ rest := by
        intro f hf1
        rcases List.mem_cons.1 (hsub f (p2.mem_iff.1 (by simp [hf1]))) with rfl | h
        · exact absurd hf1 hft1
        · exact h
      have hmax : ∀ f ∈ todo, area f ≤ area facet := by
        intro f hfm
        rcases List.mem_cons.1 (hsub f hfm) with rfl | h
        · exact le_refl _
        · exact hsort.1 f h
      -- what one group adds to the result for the rest
      have step : ∀ (id : Option Name) (gs : List Group), (gs.flatMap fun g => g.parts.all).Perm t1 →
          (∀ g ∈ gs, g.Proper) → (id.isSome ↔ c.opposed ≠ []) →
          (∀ pre g post, gs = pre ++ g :: post → ∀ g' ∈ g :: post, ∀ f ∈ g'.parts.all, area f ≤ area g.facet) →
          ((⟨facet, c, id⟩ :: gs : List Group).flatMap fun g => g.parts.all).Perm todo ∧
          (∀ g ∈ (⟨facet, c, id⟩ :: gs : List Group), g.Proper) ∧
          (∀ pre g post, (⟨facet, c, id⟩ :: gs : List Group) = pre ++ g :: post →
            ∀ g' ∈ g :: post, ∀ f ∈ g'.parts.all, area f ≤ area g.facet) := by
        intro id gs i1 i2 hid i5
        have hperm : ((⟨facet, c, id⟩ :: gs : List Group).flatMap fun g => g.parts.all).Perm todo := by
          rw [List.flatMap_cons]
          exact ((List.Perm.refl _).append i1).trans p2
        refine ⟨hperm, ?_, ?_⟩
        · intro g hgm
          rcases List.mem_cons.1 hgm with rfl | hgm
          · exact ⟨q1, hid⟩
          · exact i2 g hgm
        · intro pre g post he g' hg' f hfg
          cases pre with
          | nil =>
            simp only [List.nil_append, List.cons.injEq] at he
            obtain ⟨rfl, rfl⟩ := he
            exact hmax f (hperm.mem_iff.1 (List.mem_flatMap.2 ⟨g', hg', hfg⟩))
          | cons x pre =>
            simp only [List.cons_append, List.cons.injEq] at he
            exact i5 pre g post he.2 g' hg' f hfg
      show (∀ groups, (do
        o.slices facet
        let (c, todo) ← statusLoop (o.status facet) facet (o.enum (todo.erase facet)) ⟨[facet], [], []⟩
          (todo.erase facet)
        if c.opposed.length = 0 then do
          let groups ← createLoop o rest todo idx
          .ok (⟨facet, c, none⟩ :: groups)
        else do
          let id := sheetName idx
          o.faces c
          let groups ← createLoop o rest todo (idx + 1)
          .ok (⟨facet, c, some id⟩ :: groups) : Except PyErr (List Group)) = .ok groups → _) ∧
        (∀ e, (do
        o.slices facet
        let (c, todo) ← statusLoop (o.status facet) facet (o.enum (todo.erase facet)) ⟨[facet], [], []⟩
          (todo.erase facet)
        if c.opposed.length = 0 then do
          let groups ← createLoop o rest todo idx
          .ok (⟨facet, c, none⟩ :: groups)
        else do
          let id := sheetName idx
          o.faces c
          let groups ← createLoop o rest todo (idx + 1)
          .ok (⟨facet, c, some id⟩ :: groups) : Except PyErr (List Group)) = .error e → _)
      rw [e1]
      cases hsl : o.slices facet with
      | error e =>
        refine ⟨fun groups h => (by cases h), fun e' h => ?_⟩
        cases h
        exact Or.inl ⟨facet, hsl⟩
      | ok u =>
        show (∀ groups, (if c.opposed.length = 0 then do
            let groups ← createLoop o rest t1 idx
            .ok (⟨facet, c, none⟩ :: groups)
          else do
            o.faces c
            let groups ← createLoop o rest t1 (idx + 1)
            .ok (⟨facet, c, some (sheetName idx)⟩ :: groups) : Except PyErr (List Group)) = .ok groups → _) ∧
          (∀ e, (if c.opposed.length = 0 then do
            let groups ← createLoop o rest t1 idx
            .ok (⟨facet, c, none⟩ :: groups)
          else do
            o.faces c
            let groups ← createLoop o rest t1 (idx + 1)
            .ok (⟨facet, c, some (sheetName idx)⟩ :: groups) : Except PyErr (List Group)) = .error e → _)
        by_cases hop : c.opposed.length = 0
        · simp only [if_pos hop]
          obtain ⟨ihok, iherr⟩ := ih t1 idx ht1 hsub1 hsort.2
          cases hg : createLoop o rest t1 idx with
          | error e =>
            refine ⟨fun groups h => (by cases h), fun e' h => ?_⟩
            cases h
            exact iherr e hg
          | ok gs =>
            refine ⟨fun groups h => ?_, fun e' h => (by cases h)⟩
            cases h
            obtain ⟨i1, i2, i4, i5⟩ := ihok gs hg
            obtain ⟨s1, s2, s3⟩ := step none gs i1 i2 (by simpa using hop) i5
            exact ⟨s1, s2, by simpa using i4, s3⟩
        · simp only [if_neg hop]
          obtain ⟨ihok, iherr⟩ := ih t1 (idx + 1) ht1 hsub1 hsort.2
          cases hfc : o.faces c with
          | error e =>
            refine ⟨fun groups h => (by cases h), fun e' h => ?_⟩
            cases h
            exact Or.inr ⟨c, hfc⟩
          | ok u =>
            cases hg : createLoop o rest t1 (idx + 1) with
            | error e =>
              refine ⟨fun groups h => (by cases h), fun e' h => ?_⟩
              cases h
              exact iherr e hg
            | ok gs =>
              refine ⟨fun groups h => ?_, fun e' h => (by cases h)⟩
              cases h
              obtain ⟨i1, i2, i4, i5⟩ := ihok gs hg
              obtain ⟨s1, s2, s3⟩ := step (some (sheetName idx)) gs i1 i2 (by simpa using hop) i5
              refine ⟨s1, s2, ?_, s3⟩
              rw [List.filterMap_cons]
              dsimp only
              rw [List.length_cons, List.range_succ_eq_map, List.map_cons, List.map_map, i4]
              simp only [List.length_map, List.length_range, Nat.add_zero, List.cons.injEq, true_and]
              refine List.map_congr_left fun i _ => ?_
              simp only [Function.comp]
              congr 1
              omega
    · rw [if_neg hf]
      refine ih todo idx hnd (fun f hfm => ?_) hsort.2
      rcases List.mem_cons.1 (hsub f hfm) with rfl | h
      · exact absurd hfm hf
      · exact h

theorem sheetName_inj (a b : ℕ) (h : sheetName a = sheetName b) : a = b :=
  natText_inj (by simpa [sheetName] using h)

/-- C42, bookkeeping: whatever the comparisons decide, the groups use every facet exactly once, a group
starts with a facet at least as large as every facet in it and in all later groups, and the loop fails only
where the slicing or the 2D geometry fails. -/
theorem c42_groups {A : Type} [LinearOrder A] (area : ℕ → A) (o : SheetOracle)
    (henum : ∀ l, (o.enum l).Perm l) (n : ℕ) (order : List ℕ) (horder : order.Perm (List.range n))
    (hsort : order.Pairwise fun a b => area b ≤ area a) :
    (∀ groups, createLoop o order (List.range n) 0 = .ok groups →
      (groups.flatMap fun g => g.parts.same ++ g.parts.opposed ++ g.parts.within).Perm (List.range n) ∧
      (∀ g ∈ groups, g.parts.same.head? = some g.facet ∧ (g.id.isSome ↔ g.parts.opposed ≠ [])) ∧
      (∀ pre g post, groups = pre ++ g :: post →
        ∀ g' ∈ g :: post, ∀ f ∈ g'.parts.same ++ g'.parts.opposed ++ g'.parts.within, area f ≤ area g.facet)) ∧
    (∀ e, createLoop o order (List.range n) 0 = .error e →
      (∃ f, o.slices f = .error e) ∨ (∃ c, o.faces c = .error e)) := by
  obtain ⟨h1, h2⟩ := createLoop_spec area o henum order (List.range n) 0 List.nodup_range
    (fun f hf => horder.mem_iff.2 hf) hsort
  refine ⟨fun groups h => ?_, h2⟩
  obtain ⟨a, b, _, d⟩ := h1 groups h
  refine ⟨a, fun g hg => ⟨?_, (b g hg).2⟩, d⟩
  obtain ⟨t, ht⟩ := (b g hg).1
  rw [← ht]
  rfl

/-- C42, sheets: no facet is in two sheets or twice in one, every sheet has a facet on each side, and the
ids are different ones of s0, s1, ...; without the `only` setting exactly the first ones in order. -/
theorem c42_sheets {A : Type} [LinearOrder A] (area : ℕ → A) (o : SheetOracle)
    (henum : ∀ l, (o.enum l).Perm l) (n : ℕ) (order : List ℕ) (horder : order.Perm (List.range n))
    (hsort : order.Pairwise fun a b => area b ≤ area a) (only : Option (List Name))
    (sheets : List (Name × Collected)) (h : createSheets o order n only = .ok sheets) :
    (sheets.flatMap fun s => s.2.same ++ s.2.opposed ++ s.2.within).Nodup ∧
    (∀ s ∈ sheets, s.2.same ≠ [] ∧ s.2.opposed ≠ [] ∧ ',' ∉ s.1 ∧ ∀ ids, only = some ids → s.1 ∈ ids) ∧
    (sheets.map Prod.fst).Nodup ∧
    (∃ k, (sheets.map Prod.fst).Sublist ((List.range k).map sheetName) ∧
      (only = none → sheets.map Prod.fst = (List.range k).map sheetName)) := by
  unfold createSheets at h
  cases hg : createLoop o order (List.range n) 0 with
  | error e => rw [hg] at h; cases h
  | ok groups =>
    rw [hg] at h
    replace h := Except.ok.inj h
    obtain ⟨a, b, c, d⟩ := (createLoop_spec area o henum order (List.range n) 0 List.nodup_range
      (fun f hf => horder.mem_iff.2 hf) hsort).1 groups hg
    have hids : (groups.filterMap Group.id) = (List.range (groups.filterMap Group.id).length).map sheetName := by
      simpa using c
    have hmem : ∀ s ∈ sheets, ∃ g ∈ groups, g.id = some s.1 ∧ g.parts = s.2 ∧ ∀ ids, only = some ids → s.1 ∈ ids := by
      intro s hs
      rw [← h, List.mem_filterMap] at hs
      obtain ⟨g, hgm, hs⟩ := hs
      refine ⟨g, hgm, ?_⟩
      cases hid : g.id with
      | none => rw [hid] at hs; cases hs
      | some id =>
        rw [hid] at hs
        dsimp only at hs
        cases only with
        | none => cases hs; exact ⟨rfl, rfl, fun ids h => by cases h⟩
        | some ids =>
          dsimp only at hs
          split_ifs at hs with hin
          cases hs
          exact ⟨rfl, rfl, fun ids' h => by cases h; exact hin⟩
    have hsubl : (sheets.map Prod.fst).Sublist (groups.filterMap Group.id) ∧
        (sheets.flatMap fun s => s.2.all).Sublist (groups.flatMap fun g => g.parts.all) ∧
        (only = none → sheets.map Prod.fst = groups.filterMap Group.id) := by
      rw [← h]
      clear h hmem hids a b c d hg
      induction groups with
      | nil => simp
      | cons g gs ih =>
        rw [List.filterMap_cons, List.filterMap_cons, List.flatMap_cons]
        cases hid : g.id with
        | none =>
          exact ⟨ih.1, ih.2.1.trans (List.sublist_append_right _ _), ih.2.2⟩
        | some id =>
          cases only with
          | none =>
            dsimp only at ih ⊢
            rw [List.map_cons, List.flatMap_cons]
            exact ⟨ih.1.cons_cons _, (List.Sublist.refl _).append ih.2.1,
              fun _ => congrArg (List.cons id) (ih.2.2 rfl)⟩
          | some ids =>
            dsimp only at ih ⊢
            by_cases hin : id ∈ ids
            · rw [if_pos hin]
              dsimp only
              rw [List.map_cons, List.flatMap_cons]
              exact ⟨ih.1.cons_cons _, (List.Sublist.refl _).append ih.2.1, fun h => by cases h⟩
            · rw [if_neg hin]
              exact ⟨ih.1.cons _, ih.2.1.trans (List.sublist_append_right _ _), fun h => by cases h⟩
    have hidnd : (groups.filterMap Group.id).Nodup := by
      rw [hids]
      exact List.nodup_range.map fun a b hab => sheetName_inj a b hab
    refine ⟨(a.nodup_iff.2 List.nodup_range).sublist hsubl.2.1, ?_, hidnd.sublist hsubl.1, ?_⟩
    · intro s hs
      obtain ⟨g, hgm, hid, hp, ho⟩ := hmem s hs
      refine ⟨?_, ?_, ?_, ho⟩
      · obtain ⟨t, ht⟩ := (b g hgm).1
        rw [← hp, ← ht]
        simp
      · rw [← hp]
        exact (b g hgm).2.1 (by rw [hid]; rfl)
      · have : s.1 ∈ groups.filterMap Group.id := List.mem_filterMap.2 ⟨g, hgm, hid⟩
        rw [hids, List.mem_map] at this
        obtain ⟨i, _, hi⟩ := this
        rw [← hi]
        unfold sheetName
        intro hc
        rcases List.mem_cons.1 hc with hc | hc
        · exact absurd hc (by decide)
        · exact absurd (natText_tok i _ hc) (by decide)
    · exact ⟨_, hids ▸ hsubl.1, fun h => (hsubl.2.2 h).trans hids⟩

/-- Five facets: 0 and 3 make a sheet with 4 within, 1 has no opposed facet, 2 stays alone. -/
def cubeOracle : SheetOracle where
  enum := List.reverse
  status f g := if f = 0 ∧ g = 3 then .opposed else if f = 0 ∧ g = 4 then .within
    else if f = 1 ∧ g = 2 then .opposed else .unrelated
  slices _ := .ok ()
  faces _ := .ok ()

example : createSheets cubeOracle [0, 1, 2, 3, 4] 5 none
    = .ok [(sheetName 0, ⟨[0], [3], [4]⟩), (sheetName 1, ⟨[1], [2], []⟩)] := by rfl

example : (∀ l, (cubeOracle.enum l).Perm l) ∧ [0, 1, 2, 3, 4].Perm (List.range 5) ∧
    [0, 1, 2, 3, 4].Pairwise (fun a b => (fun f : ℕ => 10 - f) b ≤ (fun f : ℕ => 10 - f) a) :=
  ⟨fun l => List.reverse_perm l, by decide, by decide⟩

end Ply
