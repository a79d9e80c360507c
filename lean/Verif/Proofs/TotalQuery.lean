import Verif.Proofs.TotalRays

/-!
# A ray query reports the half-edges that the ray crosses
-/

namespace Ply.Arr

/-! ### The box -/

theorem box_ok {pts : List Pt} {a b : Pt} (ha : a ∈ pts) (hb : b ∈ pts) (hab : a ≠ b) {p : Pt}
    (hp : (boxOf pts).contains p = true) {d : Pt} (hd : d ≠ 0) :
    ∃ e, extent (boxOf pts) = .ok e ∧ 0 < e ∧ 0 < 10 * (e / max |d.1| |d.2|) ∧
      (boxOf pts).contains (p.1 + 10 * (e / max |d.1| |d.2|) * d.1, p.2 + 10 * (e / max |d.1| |d.2|) * d.2) = false := by
  obtain ⟨lo, hi, hbox, _, _, _, _, _, hin⟩ := c20_corners pts (List.ne_nil_of_mem ha)
  rw [hbox] at hp ⊢
  rw [AABB.contains_make] at hp
  have qa := hin a ha
  have qb := hin b hb
  unfold InBox at qa qb hp
  have he : extent (AABB.make (some lo) (some hi)) = .ok (|hi.1 - lo.1| + |hi.2 - lo.2|) := by
    rw [AABB.make_some]; rfl
  have a1 : |hi.1 - lo.1| = hi.1 - lo.1 := abs_of_nonneg (by linarith)
  have a2 : |hi.2 - lo.2| = hi.2 - lo.2 := abs_of_nonneg (by linarith)
  rw [a1, a2] at he
  set e := hi.1 - lo.1 + (hi.2 - lo.2) with hedef
  have hpos : 0 < e := by
    by_contra hcon
    apply hab
    have h1 : hi.1 = lo.1 := by linarith
    have h2 : hi.2 = lo.2 := by linarith
    exact Prod.ext (by linarith) (by linarith)
  have hm : 0 < max |d.1| |d.2| := by
    by_contra hcon
    apply hd
    have h1 : |d.1| ≤ 0 := (le_max_left _ _).trans (not_lt.1 hcon)
    have h2 : |d.2| ≤ 0 := (le_max_right _ _).trans (not_lt.1 hcon)
    exact Prod.ext (abs_nonpos_iff.1 h1) (abs_nonpos_iff.1 h2)
  refine ⟨e, he, hpos, by positivity, ?_⟩
  rw [Bool.eq_false_iff]
  intro hc
  rw [AABB.contains_make] at hc
  obtain ⟨c1, c2, c3, c4⟩ := hc
  dsimp only at c1 c2 c3 c4
  have hk : ∀ x : ℚ, |x| = max |d.1| |d.2| → |10 * (e / max |d.1| |d.2|) * x| = 10 * e := by
    intro x hx
    rw [abs_mul, hx, abs_of_pos (by positivity), mul_assoc, div_mul_cancel₀ _ hm.ne']
  rcases max_choice |d.1| |d.2| with h | h
  · have := hk d.1 h.symm
    rcases abs_cases (10 * (e / max |d.1| |d.2|) * d.1) with ⟨h1, _⟩ | ⟨h1, _⟩ <;> rw [h1] at this <;> linarith
  · have := hk d.2 h.symm
    rcases abs_cases (10 * (e / max |d.1| |d.2|) * d.2) with ⟨h1, _⟩ | ⟨h1, _⟩ <;> rw [h1] at this <;> linarith

/-! ### One half-edge -/

/-- How far along the ray the line of the half-edge is. -/
def hitT (pt d : Pt) (h : Seg) : ℚ := cross (h.1 - pt) (dir h) / cross d (dir h)

/-- The line of the ray crosses the half-edge, of which one end counts. -/
def hitK (pt d : Pt) (h : Seg) : Prop :=
  cross h.1 d ≤ cross pt d ∧ cross pt d < cross h.2 d ∨ cross h.2 d ≤ cross pt d ∧ cross pt d < cross h.1 d

instance (pt d : Pt) (h : Seg) : Decidable (hitK pt d h) := by unfold hitK; infer_instance

theorem ray_inter (h : Seg) (pt d : Pt) (c : ℚ) (hc : 0 < c) (hpar : cross (dir h) d ≠ 0) :
    ∃ p, segSegGeneralIntersection h (pt, (pt.1 + c * d.1, pt.2 + c * d.2)) =
      .ok (p, cross (pt - h.1) d / cross (dir h) d, hitT pt d h / c) := by
  have hnp : ¬ Parallel h (pt, (pt.1 + c * d.1, pt.2 + c * d.2)) := by
    intro hp
    apply hpar
    unfold Parallel cross dir at hp
    unfold cross dir
    dsimp only at hp ⊢
    have : c * ((h.2.1 - h.1.1) * d.2 - (h.2.2 - h.1.2) * d.1) = 0 := by linarith
    exact (mul_eq_zero.1 this).resolve_left hc.ne'
  obtain ⟨p, t0, t1, h1, h2, h3, h4⟩ := c15_intersection _ _ hnp
  have hpar' : cross d (dir h) ≠ 0 := by
    intro hx
    apply hpar
    unfold cross at hx ⊢
    linarith
  obtain ⟨_, e1, e2⟩ := h4 (along h (cross (pt - h.1) d / cross (dir h) d)) (cross (pt - h.1) d / cross (dir h) d)
    (hitT pt d h / c) rfl (by
      unfold along hitT
      have e : ∀ x y z : ℚ, x / c * (y + c * z - y) = x * z := by
        intro x y z; field_simp; ring
      dsimp only
      rw [e, e]
      have hcd : cross d (dir h) = -cross (dir h) d := by unfold cross; ring
      rw [hcd]
      obtain ⟨D, hD⟩ : ∃ D, D = cross (dir h) d := ⟨_, rfl⟩
      rw [← hD] at hpar ⊢
      unfold cross dir at hD ⊢
      simp only [Prod.fst_sub, Prod.snd_sub]
      ext
      · dsimp only
        field_simp
        rw [hD]
        ring
      · dsimp only
        field_simp
        rw [hD]
        ring)
  exact ⟨p, by rw [h1, e1, e2]⟩

theorem rayTest_true (h : Seg) (pt d : Pt) (f c : ℚ) (hc : 0 < c) (hpar : cross (dir h) d ≠ 0) :
    ∃ l, rayTest h (pt, (pt.1 + c * d.1, pt.2 + c * d.2)) f true c = .ok l := by
  obtain ⟨p, hp⟩ := ray_inter h pt d c hc hpar
  unfold rayTest
  rw [hp]
  exact ⟨_, rfl⟩

theorem rayTest_false (h : Seg) (pt d : Pt) (f c : ℚ) (hc : 0 < c) (hpar : cross (dir h) d ≠ 0) (hd : d ≠ 0)
    (hf : vectorFrangle d = .ok f) :
    rayTest h (pt, (pt.1 + c * d.1, pt.2 + c * d.2)) f false c = .ok (if hitK pt d h then [(hitT pt d h, h)] else []) := by
  obtain ⟨p, hp⟩ := ray_inter h pt d c hc hpar
  have hdir : dir h ≠ (0, 0) := by
    intro hx
    apply hpar
    rw [hx]; unfold cross; simp
  obtain ⟨fu, fv, e1, e2, e3, e4, e5⟩ := c13_clockwise d (dir h) hd hdir
  rw [hf] at e1
  cases e1
  have hcd : cross d (dir h) = -cross (dir h) d := by unfold cross; ring
  have hne : ¬ (pyMod (fv - f) 8 = 0 ∨ pyMod (fv - f) 8 = 4) := by
    rw [← e5, hcd]
    intro hx; exact hpar (by linarith)
  push Not at hne
  have hlt : pyMod (fv - f) 8 < 4 ↔ 0 < cross (dir h) d := by
    have h0 := (pyMod_range (fv - f) (m := 8) (by norm_num)).1
    rw [show 0 < cross (dir h) d ↔ cross d (dir h) < 0 by rw [hcd]; constructor <;> intro <;> linarith, e3]
    exact ⟨fun hx => ⟨lt_of_le_of_ne h0 (Ne.symm hne.1), hx⟩, fun hx => hx.2⟩
  set θ := cross (pt - h.1) d / cross (dir h) d with hθ
  have hkeep : keepEnd h f θ = .ok (if θ = 0 then decide (0 < cross (dir h) d) else if θ = 1 then !decide (0 < cross (dir h) d) else false) := by
    unfold keepEnd
    have : heFrangle h = .ok fv := e2
    rw [this]
    show (if pyMod (fv - f) 8 ≠ 0 ∧ pyMod (fv - f) 8 ≠ 4 then _ else _) = _
    rw [if_pos hne]
    simp only [hlt]
    rfl
  have hY : cross (dir h) d = cross h.2 d - cross h.1 d := by unfold cross dir; dsimp only; ring
  have hT : cross (pt - h.1) d = cross pt d - cross h.1 d := by
    unfold cross; simp only [Prod.fst_sub, Prod.snd_sub]; ring
  have hmul : θ * (cross h.2 d - cross h.1 d) = cross pt d - cross h.1 d := by
    rw [hθ, hT, ← hY, div_mul_cancel₀ _ hpar]
  unfold rayTest
  rw [hp]
  show ((if (false : Bool) = true then _ else if 0 < θ ∧ θ < 1 then (.ok true : Except PyErr Bool) else keepEnd h f θ) >>= _) = _
  rw [if_neg (by decide)]
  have hfin : ∀ b : Bool, (b = true ↔ hitK pt d h) →
      (Except.ok (if b then [(hitT pt d h / c * c, h)] else []) : Except PyErr (List (ℚ × Seg))) =
      .ok (if hitK pt d h then [(hitT pt d h, h)] else []) := by
    intro b hb
    rw [div_mul_cancel₀ _ hc.ne']
    simp only [hb]
  rw [hY] at hpar
  by_cases hin : 0 < θ ∧ θ < 1
  · rw [if_pos hin]
    refine hfin true ⟨fun _ => ?_, fun _ => rfl⟩
    unfold hitK
    obtain ⟨i1, i2⟩ := hin
    rcases lt_or_gt_of_ne hpar with hs | hs
    · right; constructor <;> nlinarith
    · left; constructor <;> nlinarith
  · rw [if_neg hin, hkeep]
    refine hfin _ ?_
    rw [hY]
    unfold hitK
    by_cases h0 : θ = 0
    · rw [if_pos h0, decide_eq_true_iff]
      rw [h0] at hmul
      constructor
      · intro; left; constructor <;> linarith
      · rintro (⟨i1, i2⟩ | ⟨i1, i2⟩) <;> linarith
    rw [if_neg h0]
    by_cases h1 : θ = 1
    · rw [if_pos h1]
      rw [h1] at hmul
      simp only [Bool.not_eq_true', decide_eq_false_iff_not, not_lt]
      constructor
      · intro hx
        have := lt_of_le_of_ne hx hpar
        right; constructor <;> linarith
      · rintro (⟨i1, i2⟩ | ⟨i1, i2⟩) <;> linarith
    rw [if_neg h1]
    constructor
    · intro hx; cases hx
    · intro hx
      exfalso
      apply hin
      rcases hx with ⟨i1, i2⟩ | ⟨i1, i2⟩
      · have hs : 0 < cross h.2 d - cross h.1 d := by linarith
        refine ⟨lt_of_le_of_ne ?_ (Ne.symm h0), ?_⟩
        · by_contra hcon; push Not at hcon; nlinarith
        · by_contra hcon; push Not at hcon; nlinarith
      · have hs : cross h.2 d - cross h.1 d < 0 := by linarith
        refine ⟨?_, lt_of_le_of_ne ?_ h1⟩
        · by_contra hcon; push Not at hcon; nlinarith
        · by_contra hcon; push Not at hcon; nlinarith

/-! ### The query -/

/-- What one half-edge adds. -/
def hits (pt d : Pt) (h : Seg) : List (ℚ × Seg) := if hitK pt d h then [(hitT pt d h, h)] else []

theorem rayLoop_true (H : List Seg) (pt d : Pt) (f c : ℚ) (hc : 0 < c) (hpar : ∀ h ∈ H, cross (dir h) d ≠ 0)
    (hrev : ∀ h ∈ H, (h.2, h.1) ∈ H) (found : List (STSeg Seg)) (hfo : ∀ s ∈ found, s.2.2 ∈ H) :
    ∃ l, rayLoop H (pt, (pt.1 + c * d.1, pt.2 + c * d.2)) f true c found = .ok l := by
  induction found with
  | nil => exact ⟨[], rfl⟩
  | cons s rest ih =>
    obtain ⟨l, hl⟩ := ih fun x hx => hfo x (List.mem_cons_of_mem _ hx)
    have hs := hfo s List.mem_cons_self
    obtain ⟨l1, h1⟩ := rayTest_true s.2.2 pt d f c hc (hpar _ hs)
    obtain ⟨l2, h2⟩ := rayTest_true (s.2.2.2, s.2.2.1) pt d f c hc (hpar _ (hrev _ hs))
    refine ⟨l1 ++ l2 ++ l, ?_⟩
    · rw [rayLoop, if_pos hs, h1]
      show (if (s.2.2.2, s.2.2.1) ∈ H then _ else _) = _
      rw [if_pos (hrev _ hs), h2]
      show (rayLoop _ _ _ _ _ _ >>= _) = _
      rw [hl]
      rfl

theorem rayLoop_false (H : List Seg) (pt d : Pt) (f c : ℚ) (hc : 0 < c) (hpar : ∀ h ∈ H, cross (dir h) d ≠ 0)
    (hd : d ≠ 0) (hf : vectorFrangle d = .ok f)
    (hrev : ∀ h ∈ H, (h.2, h.1) ∈ H) (found : List (STSeg Seg)) (hfo : ∀ s ∈ found, s.2.2 ∈ H) :
    rayLoop H (pt, (pt.1 + c * d.1, pt.2 + c * d.2)) f false c found =
      .ok (found.flatMap fun s => hits pt d s.2.2 ++ hits pt d (s.2.2.2, s.2.2.1)) := by
  induction found with
  | nil => rfl
  | cons s rest ih =>
    have hl := ih fun x hx => hfo x (List.mem_cons_of_mem _ hx)
    have hs := hfo s List.mem_cons_self
    rw [rayLoop, if_pos hs, rayTest_false _ _ _ _ _ hc (hpar _ hs) hd hf]
    show (if (s.2.2.2, s.2.2.1) ∈ H then _ else _) = _
    rw [if_pos (hrev _ hs), rayTest_false _ _ _ _ _ hc (hpar _ (hrev _ hs)) hd hf]
    show (rayLoop _ _ _ _ _ _ >>= _) = _
    rw [hl]
    rfl

/-- The tree finds the half-edges on a line, one of every pair. -/
theorem stab_ok {R : Rays} (hR : RaysFine R) (v : ℚ) :
    ∃ found, segmentTreeStab R.tree v = .ok found ∧ (∀ s ∈ found, s.2.2 ∈ R.halfEdges ∧ ptLt s.2.2.1 s.2.2.2) ∧
      (R.halfEdges.Nodup → (found.map fun s => s.2.2).Nodup) ∧
      ∀ h ∈ R.halfEdges, ptLt h.1 h.2 → (gseg (normalOf R.gv) h).1 ≤ v → v ≤ (gseg (normalOf R.gv) h).2.1 →
        ∃ s ∈ found, s.2.2 = h := by
  obtain ⟨found, h1, h2⟩ := c23_stab _ _ hR.tree v
  refine ⟨found, h1, ?_, ?_, ?_⟩
  · intro s hs
    have := (List.mem_filter.1 (h2.mem_iff.1 hs)).1
    obtain ⟨h, hh, rfl⟩ := List.mem_map.1 this
    rw [gseg_seg]
    have := List.mem_filter.1 hh
    exact ⟨this.1, of_decide_eq_true this.2⟩
  · intro hnd
    rw [(h2.map _).nodup_iff]
    refine List.Nodup.sublist (List.filter_sublist.map _) ?_
    rw [List.map_map]
    have : (fun s : STSeg Seg => s.2.2) ∘ gseg (normalOf R.gv) = id := by
      funext h; exact gseg_seg _ h
    rw [this, List.map_id]
    exact hnd.filter _
  · intro h hh hlt a b
    refine ⟨gseg (normalOf R.gv) h, h2.mem_iff.2 (List.mem_filter.2 ⟨?_, decide_eq_true ⟨a, b⟩⟩), gseg_seg _ h⟩
    exact List.mem_map.2 ⟨h, List.mem_filter.2 ⟨hh, decide_eq_true hlt⟩, rfl⟩

theorem frangle_some {d : Pt} (hd : d ≠ 0) : ∃ f, vectorFrangle d = .ok f := by
  obtain ⟨f, _, h, _⟩ := c13_clockwise d d hd hd
  exact ⟨f, h⟩

/-- With `keep_all` the query works. -/
theorem rayQuery_true {R : Rays} (hR : RaysFine R) (hP : Planar R.halfEdges) {pts : List Pt} {a b : Pt} (ha : a ∈ pts)
    (hb : b ∈ pts) (hab : a ≠ b) {p : Pt} (hp : (boxOf pts).contains p = true) {d : Pt}
    (hd : d = R.gv ∨ (-d.1, -d.2) = R.gv) : ∃ l, rayQueryGeneral R (boxOf pts) p d true = .ok l := by
  have hd0 : d ≠ 0 := by
    rintro rfl
    apply hR.gv
    rcases hd with h | h
    · exact h.symm
    · rw [← h]; ext <;> simp
  have hpar : ∀ h ∈ R.halfEdges, cross (dir h) d ≠ 0 := by
    intro h hh hc
    apply hR.general h hh
    rcases hd with e | e
    · rw [← e]; exact hc
    · rw [← e]
      unfold cross at hc ⊢
      dsimp only
      linarith
  obtain ⟨f, hf⟩ := frangle_some hd0
  obtain ⟨e, h1, h2, h3, h4⟩ := box_ok ha hb hab hp hd0
  obtain ⟨found, h5, h6, -, -⟩ := stab_ok hR (dotP (normalOf R.gv) p)
  obtain ⟨l, hl⟩ := rayLoop_true R.halfEdges p d f _ h3 hpar hP.rev found fun s hs => (h6 s hs).1
  unfold rayQueryGeneral rayQuery
  rw [if_pos hd, hf]
  show ∃ l, (extent _ >>= _) = _
  rw [h1]
  show ∃ l, (ensure ((boxOf pts).contains (p.1 + 10 * (e / max |d.1| |d.2|) * d.1, p.2 + 10 * (e / max |d.1| |d.2|) * d.2) = false) >>= _) = _
  rw [ensure_pos h4]
  show ∃ l, (segmentTreeStab _ _ >>= _) = _
  rw [h5]
  show ∃ l, (rayLoop _ _ _ _ _ _ >>= _) = _
  rw [hl]
  exact ⟨_, rfl⟩

/-- Without it, every half-edge that is crossed is reported once, with its distance. -/
theorem rayQuery_false {R : Rays} (hR : RaysFine R) (hP : Planar R.halfEdges) (hnd : R.halfEdges.Nodup) {pts : List Pt} {a b : Pt}
    (ha : a ∈ pts) (hb : b ∈ pts) (hab : a ≠ b) {p : Pt} (hp : (boxOf pts).contains p = true) :
    ∃ l, rayQuery R (boxOf pts) p R.gv false = .ok l ∧ (l.map Prod.snd).Nodup ∧
      ∀ x, x ∈ l ↔ x.2 ∈ R.halfEdges ∧ hitK p R.gv x.2 ∧ x.1 = hitT p R.gv x.2 := by
  set d := R.gv with hd
  have hpar := hR.general
  obtain ⟨f, hf⟩ := frangle_some hR.gv
  obtain ⟨e, h1, h2, h3, h4⟩ := box_ok ha hb hab hp hR.gv
  obtain ⟨found, h5, h6, h7, h8⟩ := stab_ok hR (dotP (normalOf d) p)
  have hl := rayLoop_false R.halfEdges p d f _ h3 hpar hR.gv hf hP.rev found fun s hs => (h6 s hs).1
  set l := found.flatMap fun s => hits p d s.2.2 ++ hits p d (s.2.2.2, s.2.2.1) with hldef
  have hgood : rayQuery R (boxOf pts) p d false = .ok (l.insertionSort interLe) := by
    unfold rayQuery
    rw [hf]
    show (extent _ >>= _) = _
    rw [h1]
    show (ensure ((boxOf pts).contains (p.1 + 10 * (e / max |d.1| |d.2|) * d.1, p.2 + 10 * (e / max |d.1| |d.2|) * d.2) = false) >>= _) = _
    rw [ensure_pos h4]
    show (segmentTreeStab _ _ >>= _) = _
    rw [h5]
    show (rayLoop _ _ _ _ _ _ >>= _) = _
    rw [hl]
    rfl
  have hperm : (l.insertionSort interLe).Perm l := List.perm_insertionSort _ _
  refine ⟨_, hgood, ?_, ?_⟩
  · rw [(hperm.map _).nodup_iff]
    have e : l.map Prod.snd = (found.map fun s => s.2.2).flatMap fun h =>
        (if hitK p d h then [h] else []) ++ (if hitK p d (h.2, h.1) then [(h.2, h.1)] else []) := by
      rw [hldef, List.map_flatMap, List.flatMap_map]
      congr 1
      funext s
      unfold hits
      split_ifs <;> rfl
    rw [e, List.nodup_flatMap]
    constructor
    · intro h hh
      obtain ⟨s, hs, rfl⟩ := List.mem_map.1 hh
      have hne := hP.ne _ (h6 s hs).1
      split_ifs <;> simp
      intro hx
      exact hne (congrArg Prod.fst hx)
    · have hp := h7 hnd
      refine List.Pairwise.imp_of_mem ?_ hp
      intro h k hh hk hhk
      obtain ⟨s, hs, rfl⟩ := List.mem_map.1 hh
      obtain ⟨t, ht, rfl⟩ := List.mem_map.1 hk
      have l1 := (h6 s hs).2
      have l2 := (h6 t ht).2
      have asym : ∀ {p q : Pt}, ptLt p q → ¬ ptLt q p := by
        intro p q a b
        unfold ptLt at a b
        rcases a with a | ⟨a, a'⟩ <;> rcases b with b | ⟨b, b'⟩ <;> linarith
      show List.Disjoint _ _
      intro x hx hy
      have hx : x = s.2.2 ∨ x = (s.2.2.2, s.2.2.1) := by
        rcases List.mem_append.1 hx with hx | hx <;> split_ifs at hx <;> simp at hx <;> tauto
      have hy : x = t.2.2 ∨ x = (t.2.2.2, t.2.2.1) := by
        rcases List.mem_append.1 hy with hx | hx <;> split_ifs at hx <;> simp at hx <;> tauto
      rcases hx with hx | hx <;> rcases hy with hy | hy
      · exact hhk (hx.symm.trans hy)
      · rw [hx] at hy
        rw [hy] at l1
        exact asym l1 l2
      · rw [hx] at hy
        rw [← hy] at l2
        exact asym l1 l2
      · rw [hx] at hy
        have e1 := congrArg Prod.fst hy
        have e2 := congrArg Prod.snd hy
        exact hhk (Prod.ext e2 e1)
  · intro x
    rw [hperm.mem_iff, hldef, List.mem_flatMap]
    have hm : ∀ h, x ∈ hits p d h ↔ hitK p d h ∧ x = (hitT p d h, h) := by
      intro h
      unfold hits
      split_ifs with hk
      · simp [hk]
      · simp [hk]
    constructor
    · rintro ⟨s, hs, hx⟩
      rcases List.mem_append.1 hx with hx | hx
      · obtain ⟨q1, rfl⟩ := (hm _).1 hx
        exact ⟨(h6 s hs).1, q1, rfl⟩
      · obtain ⟨q1, rfl⟩ := (hm _).1 hx
        exact ⟨hP.rev _ (h6 s hs).1, q1, rfl⟩
    · rintro ⟨q1, q2, q3⟩
      have hx : x = (hitT p d x.2, x.2) := Prod.ext q3 rfl
      have hpr : ∀ v : Pt, dotP (normalOf d) v = - cross v d := by
        intro v; unfold dotP normalOf cross; dsimp only; ring
      have key : ∀ h ∈ R.halfEdges, hitK p d h → ptLt h.1 h.2 → ∃ s ∈ found, s.2.2 = h := by
        intro h hh hk hlt
        refine h8 h hh hlt ?_ ?_
        · unfold gseg
          simp only [← hd, hpr]
          unfold hitK at hk
          split_ifs with hs <;> rcases hk with ⟨i, j⟩ | ⟨i, j⟩ <;> dsimp only <;> linarith
        · unfold gseg
          simp only [← hd, hpr]
          unfold hitK at hk
          split_ifs with hs <;> rcases hk with ⟨i, j⟩ | ⟨i, j⟩ <;> dsimp only <;> linarith
      rcases ptLt_total (hP.ne _ q1) with hlt | hlt
      · obtain ⟨s, hs, e⟩ := key x.2 q1 q2 hlt
        exact ⟨s, hs, List.mem_append_left _ ((hm _).2 ⟨by rw [e]; exact q2, by rw [e]; exact hx⟩)⟩
      · obtain ⟨s, hs, e⟩ := key (x.2.2, x.2.1) (hP.rev _ q1) (by unfold hitK at q2 ⊢; exact q2.symm) hlt
        refine ⟨s, hs, List.mem_append_right _ ((hm _).2 ?_)⟩
        rw [e]
        exact ⟨q2, hx⟩

end Ply.Arr
