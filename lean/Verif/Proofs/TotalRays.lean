import Verif.Proofs.TotalNest
import Verif.Props.AABB

/-!
# The ray queries of an arrangement never fail
-/

namespace Ply.Arr

local notation "𝔻" => frangleUnitSquareVector

/-! ### The general vector -/

theorem generalFrangles_ok (hes : List Seg) (hne : ∀ h ∈ hes, h.1 ≠ h.2) :
    ∃ fs, generalFrangles hes = .ok fs ∧ (∀ h ∈ hes, ∀ f, heFrangle h = .ok f →
      pyMod f 8 ∈ fs ∧ pyMod (f + 2) 8 ∈ fs ∧ pyMod (f + 4) 8 ∈ fs) ∧ (∀ x ∈ fs, 0 ≤ x ∧ x < 8) ∧ (fs = [] → hes = []) := by
  induction hes with
  | nil => exact ⟨[], rfl, by simp, by simp, by simp⟩
  | cons h hes ih =>
    obtain ⟨fs, h1, h2, h3, h4⟩ := ih fun k hk => hne k (List.mem_cons_of_mem _ hk)
    obtain ⟨f, r, hf, _⟩ := heFrangle_spec h (hne h List.mem_cons_self)
    refine ⟨_, by rw [generalFrangles, hf]; show (generalFrangles hes >>= _) = _; rw [h1]; rfl, ?_, ?_, by simp⟩
    · intro k hk g hg
      rcases List.mem_cons.1 hk with rfl | hk
      · rw [hf] at hg
        cases hg
        norm_num
      · obtain ⟨a, b, c⟩ := h2 k hk g hg
        exact ⟨by simp [a], by simp [b], by simp [c]⟩
    · intro x hx
      simp only [List.mem_cons] at hx
      rcases hx with rfl | rfl | rfl | rfl | hx
      all_goals first
        | exact pyMod_range _ (by norm_num)
        | exact h3 x hx

theorem pyMod_two_ne (f : ℚ) : pyMod f 8 ≠ pyMod (f + 2) 8 := by
  intro h
  obtain ⟨z, hz⟩ := pyMod_decomp f 8
  obtain ⟨y, hy⟩ := pyMod_decomp (f + 2) 8
  rw [← h] at hy
  have e : (2 : ℚ) = 8 * ((y - z : ℤ) : ℚ) := by push_cast; linarith
  have : (2 : ℤ) = 8 * (y - z) := by exact_mod_cast e
  omega

/-- The general vector is found, and no half-edge has its direction. -/
theorem findGeneralVector_ok (hes : List Seg) (hne : ∀ h ∈ hes, h.1 ≠ h.2) :
    ∃ gv, findGeneralVector hes = .ok gv ∧ gv ≠ 0 ∧ ∀ h ∈ hes, cross (dir h) gv ≠ 0 := by
  obtain ⟨fs, h1, h2, h3, h4⟩ := generalFrangles_ok hes hne
  unfold findGeneralVector
  rw [h1]
  show ∃ gv, (match fs.insertionSort (· ≤ ·) with
    | [] => (return (0, 1) : Except PyErr Pt)
    | first :: _ => match (fs.insertionSort (· ≤ ·)).find? (fun x => decide (first < x)) with
      | none => .error .assertion
      | some second => do
        ensure (first ≠ second)
        return 𝔻 ((first + second) / 2)) = _ ∧ _
  have hs : (fs.insertionSort (· ≤ ·)).Pairwise (· ≤ ·) := List.pairwise_insertionSort _ _
  have hm : ∀ x, x ∈ fs.insertionSort (· ≤ ·) ↔ x ∈ fs := fun x => List.mem_insertionSort _
  cases hl : fs.insertionSort (· ≤ ·) with
  | nil =>
    have : fs = [] := by
      cases hfs : fs with
      | nil => rfl
      | cons a l =>
        have := (hm a).2 (by rw [hfs]; exact List.mem_cons_self)
        rw [hl] at this; cases this
    refine ⟨(0, 1), rfl, ?_, ?_⟩
    · intro h; have := congrArg Prod.snd h; simp at this
    · rw [h4 this]; simp
  | cons first rest =>
    rw [hl] at hs hm
    dsimp only
    have hmin : ∀ x ∈ fs, first ≤ x := by
      intro x hx
      rcases List.mem_cons.1 ((hm x).2 hx) with rfl | hx
      · exact le_rfl
      · exact (List.pairwise_cons.1 hs).1 x hx
    have hfirst : first ∈ fs := (hm first).1 List.mem_cons_self
    obtain ⟨h0, h0m⟩ : ∃ h, h ∈ hes := by
      cases hh : hes with
      | nil =>
        rw [hh] at h1
        cases h1
        cases hfirst
      | cons a l => exact ⟨a, List.mem_cons_self⟩
    obtain ⟨f0, r0, hf0, _⟩ := heFrangle_spec h0 (hne h0 h0m)
    obtain ⟨m1, m2, m3⟩ := h2 h0 h0m f0 hf0
    cases hfind : (first :: rest).find? (fun x => decide (first < x)) with
    | none =>
      exfalso
      have hall : ∀ x ∈ fs, x = first := by
        intro x hx
        have := List.find?_eq_none.1 hfind x ((hm x).2 hx)
        simp only [decide_eq_true_eq, not_lt] at this
        exact le_antisymm this (hmin x hx)
      exact pyMod_two_ne f0 ((hall _ m1).trans (hall _ m2).symm)
    | some second =>
      obtain ⟨s1, s2, s3⟩ := find_first hs hfind
      have s2 := of_decide_eq_true s2
      dsimp only
      rw [ensure_pos s2.ne]
      refine ⟨_, rfl, fus_ne _, ?_⟩
      set mid := (first + second) / 2 with hmid
      have b1 := h3 first hfirst
      have b2 := h3 second ((hm second).1 s1)
      have hno : mid ∉ fs := by
        intro hc
        rcases s3 mid ((hm mid).2 hc) (decide_eq_true (by rw [hmid]; linarith)) with e | e
        · rw [hmid] at e; linarith
        · rw [hmid] at e; linarith
      have hm8 : pyMod mid 8 = mid := pyMod_of_range (by rw [hmid]; linarith) (by rw [hmid]; linarith)
      intro h hh hc
      obtain ⟨f, r, hf, f0, f8, hr, hd⟩ := heFrangle_spec h (hne h hh)
      have hc' : cross (𝔻 f) (𝔻 mid) = 0 := by
        rw [hd] at hc
        have : cross (r • 𝔻 f) (𝔻 mid) = r * cross (𝔻 f) (𝔻 mid) := by
          unfold cross; simp only [Prod.smul_fst, Prod.smul_snd, smul_eq_mul]; ring
        rw [this] at hc
        exact (mul_eq_zero.1 hc).resolve_left hr.ne'
      obtain ⟨c1, c2⟩ := cross_fus f mid
      have hr8 := pyMod_range (mid - f) (m := 8) (by norm_num)
      obtain ⟨n1, _, n3⟩ := h2 h hh f hf
      obtain ⟨z, hz⟩ := pyMod_decomp (mid - f) 8
      have hcase : pyMod (mid - f) 8 = 0 ∨ pyMod (mid - f) 8 = 4 := by
        by_contra hcon
        push Not at hcon
        rcases lt_or_ge (pyMod (mid - f) 8) 4 with hlt | hge
        · exact absurd (c1.2 ⟨lt_of_le_of_ne hr8.1 (Ne.symm hcon.1), hlt⟩) (by rw [hc']; exact lt_irrefl _)
        · exact absurd (c2.2 (lt_of_le_of_ne hge (Ne.symm hcon.2))) (by rw [hc']; exact lt_irrefl _)
      rcases hcase with e | e
      · rw [e] at hz
        apply hno
        rw [← hm8, show mid = f + 8 * (z : ℚ) by linarith, pyMod_add_mul _ (by norm_num)]
        exact n1
      · rw [e] at hz
        apply hno
        rw [← hm8, show mid = (f + 4) + 8 * (z : ℚ) by linarith, pyMod_add_mul _ (by norm_num)]
        exact n3

/-! ### The search tree -/

theorem ptLt_total {p q : Pt} (h : p ≠ q) : ptLt p q ∨ ptLt q p := by
  unfold ptLt
  rcases lt_trichotomy p.1 q.1 with h1 | h1 | h1
  · exact Or.inl (Or.inl h1)
  · rcases lt_trichotomy p.2 q.2 with h' | h' | h'
    · exact Or.inl (Or.inr ⟨h1, h'⟩)
    · exact absurd (Prod.ext h1 h') h
    · exact Or.inr (Or.inr ⟨h1.symm, h'⟩)
  · exact Or.inr (Or.inl h1)

/-- The entry of the tree for a half-edge. -/
def gseg (normal : Pt) (he : Seg) : STSeg Seg :=
  if dotP normal he.2 < dotP normal he.1 then (dotP normal he.2, dotP normal he.1, he)
  else (dotP normal he.1, dotP normal he.2, he)

theorem gseg_seg (normal : Pt) (he : Seg) : (gseg normal he).2.2 = he := by unfold gseg; split_ifs <;> rfl

theorem gseg_le (normal : Pt) (he : Seg) : (gseg normal he).1 ≤ (gseg normal he).2.1 := by
  unfold gseg; split_ifs with h
  · exact h.le
  · exact not_lt.1 h

theorem gsegs_ok (normal : Pt) (hes : List Seg) (hne : ∀ h ∈ hes, h.1 ≠ h.2) :
    gsegs normal hes = .ok ((hes.filter fun h => decide (ptLt h.1 h.2)).map (gseg normal)) := by
  induction hes with
  | nil => rfl
  | cons h hes ih =>
    have ih := ih fun k hk => hne k (List.mem_cons_of_mem _ hk)
    rw [gsegs]
    split_ifs with hlt
    · dsimp only
      rw [ih]
      show Except.ok _ = _
      rw [List.filter_cons_of_pos (by simpa using hlt), List.map_cons]
      rfl
    · rw [ensure_pos ((ptLt_total (hne h List.mem_cons_self)).resolve_left hlt)]
      show gsegs normal hes = _
      rw [ih, List.filter_cons_of_neg (by simpa using hlt)]

/-- The ray data is complete. -/
structure RaysFine (R : Rays) : Prop where
  gv : R.gv ≠ 0
  general : ∀ h ∈ R.halfEdges, cross (dir h) R.gv ≠ 0
  tree : segmentTree ((R.halfEdges.filter fun h => decide (ptLt h.1 h.2)).map (gseg (normalOf R.gv))) = .ok R.tree

theorem buildRays_ok (net : Net) (hne : ∀ h ∈ net.halfEdges, h.1 ≠ h.2) :
    ∃ R, buildRays net = .ok R ∧ RaysFine R ∧ R.halfEdges = net.halfEdges := by
  obtain ⟨gv, h1, h2, h3⟩ := findGeneralVector_ok net.halfEdges hne
  have hg := gsegs_ok (normalOf gv) net.halfEdges hne
  obtain ⟨tree, ht⟩ := (c23_constructor ((net.halfEdges.filter fun h => decide (ptLt h.1 h.2)).map (gseg (normalOf gv)))).1.2 (by
    intro s hs
    obtain ⟨h, -, rfl⟩ := List.mem_map.1 hs
    exact gseg_le _ _)
  refine ⟨⟨net.halfEdges, gv, tree⟩, ?_, ⟨h2, h3, ht⟩, rfl⟩
  unfold buildRays
  rw [h1]
  show (gsegs (normalOf gv) net.halfEdges >>= _) = _
  rw [hg]
  show (segmentTree _ >>= _) = _
  rw [ht]
  rfl

end Ply.Arr
