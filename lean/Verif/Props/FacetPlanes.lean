import Verif.Model.FacetPlanes
import Verif.Proofs.SheetBuild
import Verif.Proofs.Space
import Verif.Props.Facets
import Mathlib.Analysis.Convex.Hull

/-! # C98, C99: which facets make a sheet, and where it is sliced -/

namespace Ply

/-! ### What the loop collects -/

theorem statusLoop_exact (st : ℕ → FacetStatus) (facet : ℕ) (snap : List ℕ) (c : Collected) (todo : List ℕ)
    (hs : snap.Nodup) (ht : todo.Nodup) (hsub : ∀ f ∈ snap, f ∈ todo) (hf : facet ∉ snap) :
    ∃ todo', statusLoop st facet snap c todo = .ok (⟨c.same ++ snap.filter (st · = .same),
        c.opposed ++ snap.filter (st · = .opposed), c.within ++ snap.filter (st · = .within)⟩, todo') ∧ todo'.Nodup ∧
      ∀ f, f ∈ todo' ↔ f ∈ todo ∧ (f ∈ snap → st f = .unrelated) := by
  induction snap generalizing c todo with
  | nil => exact ⟨todo, by simp [statusLoop], ht, by simp⟩
  | cons o snap ih =>
    rw [List.nodup_cons] at hs
    simp only [List.mem_cons, not_or] at hf
    have hr : removeFacet todo o = .ok (todo.erase o) := by
      unfold removeFacet
      rw [if_pos (hsub o (by simp))]
    have hsub' : ∀ f ∈ snap, f ∈ todo.erase o := fun f h =>
      (List.mem_erase_of_ne (fun e : f = o => hs.1 (e ▸ h))).2 (hsub f (by simp [h]))
    rw [statusLoop, if_neg (Ne.symm hf.1)]
    unfold facetStatus
    cases hst : st o with
    | same =>
      obtain ⟨t, e, h1, h2⟩ := ih ⟨c.same ++ [o], c.opposed, c.within⟩ (todo.erase o) hs.2 (ht.erase o) hsub' hf.2
      refine ⟨t, ?_, h1, fun f => ?_⟩
      · dsimp only; rw [hr]
        show statusLoop st facet snap _ _ = _
        rw [e]; simp [hst]
      · rw [h2, ht.mem_erase_iff]
        by_cases hfo : f = o
        · subst hfo; simp [hst]
        · simp [hfo]
    | opposed =>
      obtain ⟨t, e, h1, h2⟩ := ih ⟨c.same, c.opposed ++ [o], c.within⟩ (todo.erase o) hs.2 (ht.erase o) hsub' hf.2
      refine ⟨t, ?_, h1, fun f => ?_⟩
      · dsimp only; rw [hr]
        show statusLoop st facet snap _ _ = _
        rw [e]; simp [hst]
      · rw [h2, ht.mem_erase_iff]
        by_cases hfo : f = o
        · subst hfo; simp [hst]
        · simp [hfo]
    | within =>
      obtain ⟨t, e, h1, h2⟩ := ih ⟨c.same, c.opposed, c.within ++ [o]⟩ (todo.erase o) hs.2 (ht.erase o) hsub' hf.2
      refine ⟨t, ?_, h1, fun f => ?_⟩
      · dsimp only; rw [hr]
        show statusLoop st facet snap _ _ = _
        rw [e]; simp [hst]
      · rw [h2, ht.mem_erase_iff]
        by_cases hfo : f = o
        · subst hfo; simp [hst]
        · simp [hfo]
    | unrelated =>
      obtain ⟨t, e, h1, h2⟩ := ih c todo hs.2 ht (fun f h => hsub f (by simp [h])) hf.2
      refine ⟨t, ?_, h1, fun f => ?_⟩
      · show statusLoop st facet snap _ _ = _
        rw [e]; simp [hst]
      · rw [h2]
        by_cases hfo : f = o
        · subst hfo; simp [hst, hs.1]
        · simp [hfo]

/-- The facets that are left when a group is started. -/
def LeftOver (todo : List ℕ) (pre : List Group) (f : ℕ) : Prop := f ∈ todo ∧ ∀ g ∈ pre, f ∉ g.parts.all

theorem createLoop_exact (o : SheetOracle) (henum : ∀ l, (o.enum l).Perm l) (order todo : List ℕ) (idx : ℕ) (hnd : todo.Nodup)
    (groups : List Group) (h : createLoop o order todo idx = .ok groups) (pre : List Group) (g : Group) (post : List Group)
    (hg : groups = pre ++ g :: post) : LeftOver todo pre g.facet ∧
      (∀ f, f ∈ g.parts.same ↔ LeftOver todo pre f ∧ (f = g.facet ∨ o.status g.facet f = .same)) ∧
      (∀ f, f ∈ g.parts.opposed ↔ LeftOver todo pre f ∧ f ≠ g.facet ∧ o.status g.facet f = .opposed) ∧
      (∀ f, f ∈ g.parts.within ↔ LeftOver todo pre f ∧ f ≠ g.facet ∧ o.status g.facet f = .within) := by
  induction order generalizing todo idx groups pre with
  | nil =>
    simp only [createLoop, Except.ok.injEq] at h
    subst h
    simp at hg
  | cons facet rest ih =>
    rw [createLoop] at h
    by_cases hf : facet ∈ todo
    · rw [if_pos hf] at h
      have hr : removeFacet todo facet = .ok (todo.erase facet) := by
        unfold removeFacet
        rw [if_pos hf]
      rw [hr] at h
      obtain ⟨x, hx, h⟩ := (bind_ok _ _ _).1 h
      cases hx
      obtain ⟨u, -, h⟩ := (bind_ok _ _ _).1 h
      obtain ⟨t1, e1, n1, m1⟩ := statusLoop_exact (o.status facet) facet (o.enum (todo.erase facet)) ⟨[facet], [], []⟩ (todo.erase facet)
        ((henum _).nodup_iff.2 (hnd.erase _)) (hnd.erase _) (fun f hfm => (henum _).mem_iff.1 hfm) (fun hc => by
          have := (henum _).mem_iff.1 hc
          rw [hnd.mem_erase_iff] at this
          exact this.1 rfl)
      rw [e1] at h
      dsimp only [bind, Except.bind] at h
      have hsn : ∀ f, f ∈ o.enum (todo.erase facet) ↔ f ≠ facet ∧ f ∈ todo := fun f => by
        rw [(henum _).mem_iff, hnd.mem_erase_iff]
      set c : Collected := ⟨[facet] ++ (o.enum (todo.erase facet)).filter (o.status facet · = .same),
        [] ++ (o.enum (todo.erase facet)).filter (o.status facet · = .opposed),
        [] ++ (o.enum (todo.erase facet)).filter (o.status facet · = .within)⟩ with hc
      have cs : ∀ f, f ∈ c.same ↔ f ∈ todo ∧ (f = facet ∨ o.status facet f = .same) := fun f => by
        simp only [hc, List.mem_append, List.mem_singleton, List.mem_filter, hsn, decide_eq_true_eq]
        constructor
        · rintro (rfl | ⟨⟨-, h1⟩, h2⟩)
          · exact ⟨hf, Or.inl rfl⟩
          · exact ⟨h1, Or.inr h2⟩
        · rintro ⟨h1, h2⟩
          by_cases h3 : f = facet
          · exact Or.inl h3
          · exact Or.inr ⟨⟨h3, h1⟩, h2.resolve_left h3⟩
      have co : ∀ f, f ∈ c.opposed ↔ f ∈ todo ∧ f ≠ facet ∧ o.status facet f = .opposed := fun f => by
        simp only [hc, List.nil_append, List.mem_filter, hsn, decide_eq_true_eq]; tauto
      have cw : ∀ f, f ∈ c.within ↔ f ∈ todo ∧ f ≠ facet ∧ o.status facet f = .within := fun f => by
        simp only [hc, List.nil_append, List.mem_filter, hsn, decide_eq_true_eq]; tauto
      have left : ∀ f, f ∈ t1 ↔ f ∈ todo ∧ f ∉ c.all := fun f => by
        rw [m1, hnd.mem_erase_iff, hsn]
        unfold Collected.all
        rw [List.mem_append, List.mem_append, cs, co, cw]
        by_cases h1 : f = facet
        · subst h1; simp [hf]
        · by_cases h2 : f ∈ todo
          · simp only [h1, h2, ne_eq, not_false_eq_true, true_and, false_or, and_self, forall_const]
            cases o.status facet f <;> simp
          · simp [h2]
      have key : ∀ (id : Option Name) (gs : List Group), groups = ⟨facet, c, id⟩ :: gs →
          (∃ j, createLoop o rest t1 j = .ok gs) → LeftOver todo pre g.facet ∧
            (∀ f, f ∈ g.parts.same ↔ LeftOver todo pre f ∧ (f = g.facet ∨ o.status g.facet f = .same)) ∧
            (∀ f, f ∈ g.parts.opposed ↔ LeftOver todo pre f ∧ f ≠ g.facet ∧ o.status g.facet f = .opposed) ∧
            (∀ f, f ∈ g.parts.within ↔ LeftOver todo pre f ∧ f ≠ g.facet ∧ o.status g.facet f = .within) := by
        rintro id gs hgs ⟨j, hj⟩
        rw [hgs] at hg
        cases pre with
        | nil =>
          simp only [List.nil_append, List.cons.injEq] at hg
          obtain ⟨rfl, -⟩ := hg
          have lo : ∀ f, LeftOver todo [] f ↔ f ∈ todo := fun f => by simp [LeftOver]
          simp only [lo]
          exact ⟨hf, cs, co, cw⟩
        | cons x pre =>
          simp only [List.cons_append, List.cons.injEq] at hg
          obtain ⟨rfl, hg⟩ := hg
          have lo : ∀ f, LeftOver todo (⟨facet, c, id⟩ :: pre) f ↔ LeftOver t1 pre f := fun f => by
            unfold LeftOver
            rw [left]
            simp only [List.mem_cons, forall_eq_or_imp, and_assoc]
          simp only [lo]
          exact ih t1 j n1 gs hj pre hg
      split_ifs at h with hop
      · obtain ⟨gs, h1, h⟩ := (bind_ok _ _ _).1 h
        cases h
        exact key none gs rfl ⟨_, h1⟩
      · obtain ⟨v, -, h⟩ := (bind_ok _ _ _).1 h
        obtain ⟨gs, h1, h⟩ := (bind_ok _ _ _).1 h
        cases h
        exact key _ gs rfl ⟨_, h1⟩
    · rw [if_neg hf] at h
      exact ih todo idx hnd groups h pre hg

/-! ### The comparisons -/

theorem norm3_zero : norm3 0 = 0 := by unfold norm3 dot3; simp

theorem norm3_nonneg (a : V3) : 0 ≤ norm3 a := Real.sqrt_nonneg _

theorem abs_dot3_le (a b : V3) : |dot3 a b| ≤ norm3 a * norm3 b := by
  refine abs_le_of_sq_le_sq ?_ (mul_nonneg (norm3_nonneg a) (norm3_nonneg b))
  rw [mul_pow, norm3_sq, norm3_sq]
  unfold dot3
  nlinarith [sq_nonneg (a.1 * b.2.1 - a.2.1 * b.1), sq_nonneg (a.1 * b.2.2 - a.2.2 * b.1), sq_nonneg (a.2.1 * b.2.2 - a.2.2 * b.2.1)]

theorem dot3_sub (a b c : V3) : dot3 a (b - c) = dot3 a b - dot3 a c := by
  rw [sub_eq_add_neg, dot3_add, dot3_neg]; ring

section

variable {vertices : ℕ → V3} {t nt ot : ℝ} {n : V3} {d : ℝ} {f : FacetNums}

/-- The numbers of the vertices at the border of a facet: both ends of each of its border lines. -/
def FacetNums.Corner (f : FacetNums) (v : ℕ) : Prop := ∃ e ∈ f.boundary, v = e.1 ∨ v = e.2

theorem FacetNums.mem_verts {f : FacetNums} {v : ℕ} : v ∈ f.verts ↔ f.Corner v := by
  simp [FacetNums.verts, FacetNums.Corner]

theorem compare_same (h : compareFacets vertices t nt ot n d f = .same) :
    norm3 (f.normal - n) < nt ∧ |f.offset - d| < ot := by
  unfold compareFacets at h
  split_ifs at h with h1
  exact h1

theorem compare_opposed (h : compareFacets vertices t nt ot n d f = .opposed) :
    norm3 (-f.normal - n) < nt ∧ |-f.offset - d + t| < ot := by
  unfold compareFacets at h
  split_ifs at h with h1 h2
  exact h2

theorem compare_within (h : compareFacets vertices t nt ot n d f = .within) :
    |dot3 f.normal n| < nt ∧ ∀ v, f.Corner v → d - t - ot ≤ dot3 (vertices v) n ∧ dot3 (vertices v) n ≤ d + ot := by
  unfold compareFacets at h
  split_ifs at h with h1 h2 h3 h4
  exact ⟨h3, fun v hv => h4 v (FacetNums.mem_verts.2 hv)⟩

/-- C98: the order of the comparisons does not matter: for unit normals the three cases exclude each other. -/
theorem c98_exclusive (hn : dot3 n n = 1) (hf : dot3 f.normal f.normal = 1) (hnt : nt ≤ 1 / 2) :
    (compareFacets vertices t nt ot n d f = .same ↔ norm3 (f.normal - n) < nt ∧ |f.offset - d| < ot) ∧
    (compareFacets vertices t nt ot n d f = .opposed ↔ norm3 (-f.normal - n) < nt ∧ |-f.offset - d + t| < ot) ∧
    (compareFacets vertices t nt ot n d f = .within ↔ |dot3 f.normal n| < nt ∧
      ∀ v, f.Corner v → d - t - ot ≤ dot3 (vertices v) n ∧ dot3 (vertices v) n ≤ d + ot) := by
  have sq : ∀ a : V3, norm3 a < nt → dot3 a a < 1 / 4 := fun a h => by
    rw [← norm3_sq]
    have := norm3_nonneg a
    nlinarith
  have e1 : dot3 (f.normal - n) (f.normal - n) = 2 - 2 * dot3 f.normal n := by
    have : dot3 (f.normal - n) (f.normal - n) = dot3 f.normal f.normal + dot3 n n - 2 * dot3 f.normal n := by
      unfold dot3; simp only [Prod.fst_sub, Prod.snd_sub]; ring
    rw [this, hn, hf]; ring
  have e2 : dot3 (-f.normal - n) (-f.normal - n) = 2 + 2 * dot3 f.normal n := by
    have : dot3 (-f.normal - n) (-f.normal - n) = dot3 f.normal f.normal + dot3 n n + 2 * dot3 f.normal n := by
      unfold dot3; simp only [Prod.fst_sub, Prod.snd_sub, Prod.fst_neg, Prod.snd_neg]; ring
    rw [this, hn, hf]; ring
  have x1 : norm3 (f.normal - n) < nt → 7 / 8 < dot3 f.normal n := fun h => by
    have := sq _ h
    rw [e1] at this; linarith
  have x2 : norm3 (-f.normal - n) < nt → dot3 f.normal n < -(7 / 8) := fun h => by
    have := sq _ h
    rw [e2] at this; linarith
  have x3 : |dot3 f.normal n| < nt → -(1 / 2) < dot3 f.normal n ∧ dot3 f.normal n < 1 / 2 := fun h =>
    abs_lt.1 (h.trans_le hnt)
  refine ⟨⟨compare_same, fun h => ?_⟩, ⟨compare_opposed, fun h => ?_⟩, ⟨compare_within, fun h => ?_⟩⟩
  · unfold compareFacets
    rw [if_pos h]
  · unfold compareFacets
    rw [if_neg (fun k => by have := x1 k.1; have := x2 h.1; linarith), if_pos h]
  · unfold compareFacets
    rw [if_neg (fun k => by have := x1 k.1; have := x3 h.1; linarith [this.2]),
      if_neg (fun k => by have := x2 k.1; have := x3 h.1; linarith [this.1]), if_pos h.1, if_pos fun v hv => h.2 v (FacetNums.mem_verts.1 hv)]

end

/-! ### Sheets lie in their slabs -/

/-- What a facet of the mesh is: its points lie on its plane and within the hull of the vertices at its border. -/
structure FacetNums.Carries (f : FacetNums) (vertices : ℕ → V3) (P : Set V3) : Prop where
  flat : ∀ x ∈ P, dot3 x f.normal = dot3 f.origin f.normal
  hull : P ⊆ convexHull ℝ {x | ∃ v, f.Corner v ∧ vertices v = x}

theorem FacetNums.Carries.flat' {f : FacetNums} {vertices : ℕ → V3} {P : Set V3} (h : f.Carries vertices P) (x : V3) (hx : x ∈ P) :
    dot3 x f.normal = f.offset := h.flat x hx

/-- C98: the groups that `create_sheets` makes.  Each takes, of the facets that are left, the starting facet, the facets near
its plane that face the same way, those that face the other way at the distance of the thickness, and those that stand upright
between the two planes. -/
theorem c98_groups (o : SheetOracle) (henum : ∀ l, (o.enum l).Perm l) (vertices : ℕ → V3) (facets : ℕ → FacetNums) (t nt ot : ℝ)
    (hst : ∀ a b, o.status a b = meshStatus vertices facets t nt ot a b) (hunit : ∀ i, dot3 (facets i).normal (facets i).normal = 1)
    (hnt : nt ≤ 1 / 2) (order : List ℕ) (N : ℕ) (groups : List Group)
    (h : createLoop o order (List.range N) 0 = .ok groups) (pre : List Group) (g : Group) (post : List Group)
    (hg : groups = pre ++ g :: post) (f : ℕ) (hf : f ≠ g.facet) (hN : f < N) (hp : ∀ g' ∈ pre, f ∉ g'.parts.all) :
    (f ∈ g.parts.same ↔ norm3 ((facets f).normal - (facets g.facet).normal) < nt ∧ |(facets f).offset - (facets g.facet).offset| < ot) ∧
    (f ∈ g.parts.opposed ↔ norm3 (-(facets f).normal - (facets g.facet).normal) < nt ∧
      |-(facets f).offset - (facets g.facet).offset + t| < ot) ∧
    (f ∈ g.parts.within ↔ |dot3 (facets f).normal (facets g.facet).normal| < nt ∧ ∀ v, (facets f).Corner v →
      (facets g.facet).offset - t - ot ≤ dot3 (vertices v) (facets g.facet).normal ∧
      dot3 (vertices v) (facets g.facet).normal ≤ (facets g.facet).offset + ot) := by
  obtain ⟨-, h1, h2, h3⟩ := createLoop_exact o henum order (List.range N) 0 List.nodup_range groups h pre g post hg
  have lo : LeftOver (List.range N) pre f := ⟨List.mem_range.2 hN, hp⟩
  obtain ⟨c1, c2, c3⟩ := c98_exclusive (vertices := vertices) (t := t) (ot := ot) (d := (facets g.facet).offset) (hunit g.facet) (hunit f) hnt
  refine ⟨?_, ?_, ?_⟩
  · rw [h1, hst]; simp only [lo, hf, true_and, false_or]; exact c1
  · rw [h2, hst]; simp only [lo, hf, true_and, ne_eq, not_false_eq_true]; exact c2
  · rw [h3, hst]; simp only [lo, hf, true_and, ne_eq, not_false_eq_true]; exact c3

/-- C98: all points of all facets of a group lie between the planes of its faces, up to the tolerances.  The tolerance for the
normals counts with the distance from the origin of space. -/
theorem c98_slab (o : SheetOracle) (henum : ∀ l, (o.enum l).Perm l) (vertices : ℕ → V3) (facets : ℕ → FacetNums) (t nt ot : ℝ)
    (ho : 0 ≤ ot) (hn : 0 ≤ nt)
    (hst : ∀ a b, o.status a b = meshStatus vertices facets t nt ot a b) (P : ℕ → Set V3) (hP : ∀ i, (facets i).Carries vertices (P i))
    (order : List ℕ) (N : ℕ) (groups : List Group) (h : createLoop o order (List.range N) 0 = .ok groups) (g : Group) (hg : g ∈ groups) :
    (∀ f ∈ g.parts.same, ∀ x ∈ P f, |dot3 x (facets g.facet).normal - (facets g.facet).offset| ≤ ot + nt * norm3 x) ∧
    (∀ f ∈ g.parts.opposed, ∀ x ∈ P f, |dot3 x (facets g.facet).normal - ((facets g.facet).offset - t)| ≤ ot + nt * norm3 x) ∧
    (∀ f ∈ g.parts.within, ∀ x ∈ P f, (facets g.facet).offset - t - ot ≤ dot3 x (facets g.facet).normal ∧
      dot3 x (facets g.facet).normal ≤ (facets g.facet).offset + ot) := by
  obtain ⟨pre, post, hg⟩ := List.append_of_mem hg
  obtain ⟨-, h1, h2, h3⟩ := createLoop_exact o henum order (List.range N) 0 List.nodup_range groups h pre g post hg
  refine ⟨fun f hf x hx => ?_, fun f hf x hx => ?_, fun f hf x hx => ?_⟩
  · have pos : 0 ≤ ot + nt * norm3 x := add_nonneg ho (mul_nonneg hn (norm3_nonneg x))
    rcases ((h1 f).1 hf).2 with rfl | hs
    · rw [(hP _).flat' x hx, sub_self, abs_zero]; exact pos
    · rw [hst] at hs
      obtain ⟨k1, k2⟩ := compare_same hs
      have e : dot3 x (facets g.facet).normal - (facets g.facet).offset =
          ((facets f).offset - (facets g.facet).offset) - dot3 x ((facets f).normal - (facets g.facet).normal) := by
        rw [dot3_sub, (hP f).flat' x hx]; ring
      rw [e]
      refine (abs_sub _ _).trans (add_le_add k2.le ((abs_dot3_le _ _).trans ?_))
      rw [mul_comm]
      exact mul_le_mul_of_nonneg_right k1.le (norm3_nonneg x)
  · have hs := ((h2 f).1 hf).2.2
    rw [hst] at hs
    obtain ⟨k1, k2⟩ := compare_opposed hs
    have e : dot3 x (facets g.facet).normal - ((facets g.facet).offset - t) =
        (-(facets f).offset - (facets g.facet).offset + t) - dot3 x (-(facets f).normal - (facets g.facet).normal) := by
      rw [dot3_sub, dot3_neg, (hP f).flat' x hx]; ring
    rw [e]
    refine (abs_sub _ _).trans (add_le_add k2.le ((abs_dot3_le _ _).trans ?_))
    rw [mul_comm]
    exact mul_le_mul_of_nonneg_right k1.le (norm3_nonneg x)
  · have hs := ((h3 f).1 hf).2.2
    rw [hst] at hs
    obtain ⟨-, k2⟩ := compare_within hs
    have hc : Convex ℝ {y : V3 | (facets g.facet).offset - t - ot ≤ dot3 y (facets g.facet).normal ∧
        dot3 y (facets g.facet).normal ≤ (facets g.facet).offset + ot} := by
      rintro y ⟨y1, y2⟩ z ⟨z1, z2⟩ a b ha hb hab
      simp only [Set.mem_ofPred_eq, add_dot3, smul_dot3]
      constructor
      · calc _ = a * ((facets g.facet).offset - t - ot) + b * ((facets g.facet).offset - t - ot) := by rw [← add_mul, hab, one_mul]
          _ ≤ _ := add_le_add (mul_le_mul_of_nonneg_left y1 ha) (mul_le_mul_of_nonneg_left z1 hb)
      · calc _ ≤ a * ((facets g.facet).offset + ot) + b * ((facets g.facet).offset + ot) :=
              add_le_add (mul_le_mul_of_nonneg_left y2 ha) (mul_le_mul_of_nonneg_left z2 hb)
          _ = _ := by rw [← add_mul, hab, one_mul]
    refine convexHull_min ?_ hc ((hP f).hull hx)
    rintro y ⟨v, hv, rfl⟩
    exact k2 v hv

/-! ### One plate -/

/-- A mesh that is one flat plate: the facets `a` and `b` are its faces, at the distance of the thickness; all others stand
upright between them. -/
structure OnePlate (vertices : ℕ → V3) (facets : ℕ → FacetNums) (t : ℝ) (N a b : ℕ) : Prop where
  lta : a < N
  ltb : b < N
  ne : a ≠ b
  unit : dot3 (facets a).normal (facets a).normal = 1
  opposite : (facets b).normal = -(facets a).normal
  thick : (facets b).offset = -((facets a).offset - t)
  upright : ∀ i < N, i ≠ a → i ≠ b → dot3 (facets i).normal (facets a).normal = 0 ∧
    dot3 (facets i).normal (facets i).normal = 1 ∧ ∀ v, (facets i).Corner v →
      (facets a).offset - t ≤ dot3 (vertices v) (facets a).normal ∧ dot3 (vertices v) (facets a).normal ≤ (facets a).offset

theorem OnePlate.swap {vertices : ℕ → V3} {facets : ℕ → FacetNums} {t : ℝ} {N a b : ℕ} (h : OnePlate vertices facets t N a b) :
    OnePlate vertices facets t N b a where
  lta := h.ltb
  ltb := h.lta
  ne := h.ne.symm
  unit := by rw [h.opposite, neg_dot3, dot3_neg, h.unit]; ring
  opposite := by rw [h.opposite, neg_neg]
  thick := by rw [h.thick]; ring
  upright := fun i hi h1 h2 => by
    obtain ⟨u1, u2, u3⟩ := h.upright i hi h2 h1
    refine ⟨by rw [h.opposite, dot3_neg, u1, neg_zero], u2, fun v hv => ?_⟩
    obtain ⟨v1, v2⟩ := u3 v hv
    rw [h.opposite, h.thick, dot3_neg]
    constructor <;> linarith

theorem createLoop_done (o : SheetOracle) (order : List ℕ) (idx : ℕ) : createLoop o order [] idx = .ok [] := by
  induction order with
  | nil => rfl
  | cons f order ih => rw [createLoop, if_neg (by simp)]; exact ih

/-- C98: a plate of the given thickness is found as one sheet, made of all facets, whichever of its two faces comes first. -/
theorem c98_plate (o : SheetOracle) (henum : ∀ l, (o.enum l).Perm l) (vertices : ℕ → V3) (facets : ℕ → FacetNums) (t nt ot : ℝ)
    (hst : ∀ a b, o.status a b = meshStatus vertices facets t nt ot a b) (hnt : nt ≤ 1 / 2) (hn : 0 < nt) (ho : 0 < ot)
    {N a b : ℕ} (h : OnePlate vertices facets t N a b) (hs : o.slices a = .ok ()) (hc : ∀ c, o.faces c = .ok ())
    (rest : List ℕ) :
    ∃ c, createSheets o (a :: rest) N none = .ok [("s0".toList, c)] ∧ c.same = [a] ∧ c.opposed = [b] ∧
      ∀ f, f ∈ c.within ↔ f < N ∧ f ≠ a ∧ f ≠ b := by
  have ub : dot3 (facets b).normal (facets b).normal = 1 := h.swap.unit
  have stb : o.status a b = .opposed := by
    rw [hst]
    refine (c98_exclusive h.unit ub hnt).2.1.2 ⟨?_, ?_⟩
    · rw [h.opposite, neg_neg, sub_self, norm3_zero]; exact hn
    · rw [h.thick]
      have : -(-((facets a).offset - t)) - (facets a).offset + t = 0 := by ring
      rw [this, abs_zero]; exact ho
  have sti : ∀ i < N, i ≠ a → i ≠ b → o.status a i = .within := fun i hi h1 h2 => by
    obtain ⟨u1, u2, u3⟩ := h.upright i hi h1 h2
    rw [hst]
    refine (c98_exclusive h.unit u2 hnt).2.2.2 ⟨by rw [u1, abs_zero]; exact hn, fun v hv => ?_⟩
    obtain ⟨v1, v2⟩ := u3 v hv
    constructor <;> linarith
  have hnd : (List.range N).Nodup := List.nodup_range
  have ha : a ∈ List.range N := List.mem_range.2 h.lta
  have hsn : ∀ f, f ∈ o.enum ((List.range N).erase a) ↔ f ≠ a ∧ f < N := fun f => by
    rw [(henum _).mem_iff, hnd.mem_erase_iff, List.mem_range]
  have hsnd : (o.enum ((List.range N).erase a)).Nodup := (henum _).nodup_iff.2 (hnd.erase _)
  obtain ⟨t1, e1, n1, m1⟩ := statusLoop_exact (o.status a) a (o.enum ((List.range N).erase a)) ⟨[a], [], []⟩ ((List.range N).erase a)
    hsnd (hnd.erase _) (fun f hfm => (henum _).mem_iff.1 hfm) (fun hc => ((hsn a).1 hc).1 rfl)
  have t0 : t1 = [] := List.eq_nil_iff_forall_not_mem.2 fun f hf => by
    obtain ⟨k1, k2⟩ := (m1 f).1 hf
    rw [hnd.mem_erase_iff, List.mem_range] at k1
    have := k2 ((hsn f).2 k1)
    by_cases hb : f = b
    · subst hb; rw [stb] at this; cases this
    · rw [sti f k1.2 k1.1 hb] at this; cases this
  subst t0
  set snap := o.enum ((List.range N).erase a) with hsnap
  have f1 : snap.filter (o.status a · = .same) = [] := by
    rw [List.filter_eq_nil_iff]
    intro f hf
    obtain ⟨k1, k2⟩ := (hsn f).1 hf
    by_cases hb : f = b
    · subst hb; simp [stb]
    · simp [sti f k2 k1 hb]
  have f2 : snap.filter (o.status a · = .opposed) = [b] := by
    have : snap.filter (o.status a · = .opposed) = snap.filter (· == b) := by
      refine List.filter_congr fun f hf => ?_
      obtain ⟨k1, k2⟩ := (hsn f).1 hf
      by_cases hb : f = b
      · subst hb; simp [stb]
      · simp [sti f k2 k1 hb, hb]
    rw [this, List.filter_beq, List.count_eq_one_of_mem hsnd ((hsn b).2 ⟨h.ne.symm, h.ltb⟩)]
    rfl
  have hr : removeFacet (List.range N) a = .ok ((List.range N).erase a) := by
    unfold removeFacet
    rw [if_pos ha]
  refine ⟨⟨[a], [b], snap.filter (o.status a · = .within)⟩, ?_, rfl, rfl, fun f => ?_⟩
  · unfold createSheets
    have : createLoop o (a :: rest) (List.range N) 0 = .ok [⟨a, ⟨[a], [b], snap.filter (o.status a · = .within)⟩, some (sheetName 0)⟩] := by
      rw [createLoop, if_pos ha, hr]
      show (o.slices a >>= _) = _
      rw [hs]
      show (statusLoop (o.status a) a snap ⟨[a], [], []⟩ ((List.range N).erase a) >>= _) = _
      rw [e1, f1, f2]
      dsimp only [bind, Except.bind, List.nil_append]
      rw [if_neg (by simp)]
      rw [hc]
      dsimp only
      show (createLoop o rest [] 1 >>= _) = _
      rw [createLoop_done]
      rfl
    rw [this]
    rfl
  · show f ∈ snap.filter (o.status a · = .within) ↔ _
    rw [List.mem_filter, hsn, decide_eq_true_eq]
    constructor
    · rintro ⟨⟨k1, k2⟩, k3⟩
      refine ⟨k2, k1, ?_⟩
      rintro rfl
      rw [stb] at k3; cases k3
    · rintro ⟨k1, k2, k3⟩
      exact ⟨⟨k2, k1⟩, sti f k1 k2 k3⟩

/-! ### Slices -/

/-- C99: the heights of the slices. -/
theorem c99_heights (d t tol : ℝ) : sliceHeights d t tol = [d + tol, d - t - tol, d - t + tol, d - t / 2, d - tol] := by
  unfold sliceHeights linspace
  simp only [List.range_succ, List.range_zero, List.nil_append, List.cons_append, List.cons.injEq, true_and]
  norm_num
  constructor <;> ring

/-- C99: the first two slices are outside of the sheet; the other three are inside, and go from one face to the other, exactly
if the sheet is thicker than twice the tolerance. -/
theorem c99_slices (d t tol : ℝ) (htol : 0 < tol) : ∃ a b s, sliceHeights d t tol = a :: b :: s ∧ d < a ∧ b < d - t ∧
    s.length = 3 ∧ ((∀ x ∈ s, d - t < x ∧ x < d) ↔ tol < t) ∧ (s.Pairwise (· < ·) ↔ 2 * tol < t) ∧
    (2 * tol ≤ t → ∀ x ∈ s, tol ≤ x - (d - t) ∧ tol ≤ d - x) := by
  rw [c99_heights]
  refine ⟨_, _, _, rfl, by linarith, by linarith, rfl, ?_, ?_, ?_⟩
  · simp only [List.mem_cons, List.not_mem_nil, or_false, forall_eq_or_imp, forall_eq]
    constructor
    · rintro ⟨⟨h1, h2⟩, -⟩; linarith
    · intro h; refine ⟨⟨?_, ?_⟩, ⟨?_, ?_⟩, ⟨?_, ?_⟩⟩ <;> linarith
  · simp only [List.pairwise_cons, List.mem_cons, List.not_mem_nil, or_false, forall_eq_or_imp, forall_eq, List.Pairwise.nil,
      and_true, false_implies, implies_true]
    constructor
    · rintro ⟨⟨h1, h2⟩, -⟩; linarith
    · intro h; refine ⟨⟨?_, ?_⟩, ?_⟩ <;> linarith
  · intro h
    simp only [List.mem_cons, List.not_mem_nil, or_false, forall_eq_or_imp, forall_eq]
    refine ⟨⟨?_, ?_⟩, ⟨?_, ?_⟩, ⟨?_, ?_⟩⟩ <;> linarith

/-! ### Example -/

/-- The corners of a plate of size 10 × 8 × 3. -/
def boxVertex (i : ℕ) : V3 := (if i % 2 = 0 then 0 else 10, if i / 2 % 2 = 0 then 0 else 8, if i / 4 = 0 then 0 else 3)

/-- Its facets; the first two are the faces. -/
def boxFacets : ℕ → FacetNums
  | 0 => ⟨(0, 0, 1), boxVertex 4, [(4, 5), (5, 7), (7, 6), (6, 4)]⟩
  | 1 => ⟨(0, 0, -1), boxVertex 0, [(0, 2), (2, 3), (3, 1), (1, 0)]⟩
  | 2 => ⟨(-1, 0, 0), boxVertex 0, [(0, 4), (4, 6), (6, 2), (2, 0)]⟩
  | 3 => ⟨(1, 0, 0), boxVertex 1, [(1, 3), (3, 7), (7, 5), (5, 1)]⟩
  | 4 => ⟨(0, -1, 0), boxVertex 0, [(0, 1), (1, 5), (5, 4), (4, 0)]⟩
  | _ => ⟨(0, 1, 0), boxVertex 2, [(2, 6), (6, 7), (7, 3), (3, 2)]⟩

theorem box_plate : OnePlate boxVertex boxFacets 3 6 0 1 := by
  refine ⟨by norm_num, by norm_num, by norm_num, by norm_num [boxFacets, dot3], by norm_num [boxFacets],
    by norm_num [boxFacets, dot3, FacetNums.offset, boxVertex], fun i hi h0 h1 => ?_⟩
  obtain rfl | rfl | rfl | rfl : i = 2 ∨ i = 3 ∨ i = 4 ∨ i = 5 := by omega
  all_goals
    refine ⟨by norm_num [boxFacets, dot3], by norm_num [boxFacets, dot3], fun v hv => ?_⟩
    rw [← FacetNums.mem_verts] at hv
    simp only [boxFacets, FacetNums.verts, List.flatMap_cons, List.flatMap_nil, List.append_nil, List.cons_append, List.nil_append,
      List.mem_cons, List.not_mem_nil, or_false] at hv
    rcases hv with rfl | rfl | rfl | rfl | rfl | rfl | rfl | rfl <;>
      norm_num [boxFacets, dot3, FacetNums.offset, boxVertex]

/-- C98: the plate is found from either face. -/
theorem c98_run : let o : SheetOracle := ⟨List.reverse, meshStatus boxVertex boxFacets 3 (1 / 1000) (1 / 10), fun _ => .ok (), fun _ => .ok ()⟩
    (∃ c, createSheets o [0, 1, 5, 4, 3, 2] 6 none = .ok [("s0".toList, c)] ∧ c.same = [0] ∧ c.opposed = [1] ∧ 4 ∈ c.within) ∧
    ∃ c, createSheets o [1, 0, 5, 4, 3, 2] 6 none = .ok [("s0".toList, c)] ∧ c.same = [1] ∧ c.opposed = [0] ∧ 4 ∈ c.within := by
  intro o
  constructor
  · obtain ⟨c, h1, h2, h3, h4⟩ := c98_plate o (fun l => List.reverse_perm l) boxVertex boxFacets 3 (1 / 1000) (1 / 10) (fun _ _ => rfl)
      (by norm_num) (by norm_num) (by norm_num) box_plate rfl (fun _ => rfl) [1, 5, 4, 3, 2]
    exact ⟨c, h1, h2, h3, (h4 4).2 (by norm_num)⟩
  · obtain ⟨c, h1, h2, h3, h4⟩ := c98_plate o (fun l => List.reverse_perm l) boxVertex boxFacets 3 (1 / 1000) (1 / 10) (fun _ _ => rfl)
      (by norm_num) (by norm_num) (by norm_num) box_plate.swap rfl (fun _ => rfl) [0, 5, 4, 3, 2]
    exact ⟨c, h1, h2, h3, (h4 4).2 (by norm_num)⟩

end Ply
