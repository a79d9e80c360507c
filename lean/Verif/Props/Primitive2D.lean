import Verif.Proofs.WindingAffine

/-! # C15–C19: planar primitives -/

namespace Ply

/-! ### C15 -/

/-- C15: non-parallel lines: the result is the unique common point with its line parameters; the
internal assertions never fire. -/
theorem c15_intersection (l0 l1 : Seg) (h : ¬ Parallel l0 l1) :
    ∃ p t0 t1, segSegGeneralIntersection l0 l1 = .ok (p, t0, t1) ∧
      p = along l0 t0 ∧ p = along l1 t1 ∧
      ∀ q s0 s1, q = along l0 s0 → q = along l1 s1 → q = p ∧ s0 = t0 ∧ s1 = t1 := by
  have hd : (l0.2.1 - l0.1.1) * (l1.2.2 - l1.1.2) - (l0.2.2 - l0.1.2) * (l1.2.1 - l1.1.1) ≠ 0 := h
  set d := (l0.2.1 - l0.1.1) * (l1.2.2 - l1.1.2) - (l0.2.2 - l0.1.2) * (l1.2.1 - l1.1.1) with hdd
  have hx : l0.1.1 + ((l0.1.1 - l1.1.1) * (l1.1.2 - l1.2.2) - (l0.1.2 - l1.1.2) *
        (l1.1.1 - l1.2.1)) * (l0.2.1 - l0.1.1) / d =
      l1.1.1 + (-((l0.1.1 - l0.2.1) * (l0.1.2 - l1.1.2) - (l0.1.2 - l0.2.2) *
        (l0.1.1 - l1.1.1))) * (l1.2.1 - l1.1.1) / d := by
    field_simp
    rw [hdd]; ring
  have hy : l0.1.2 + ((l0.1.1 - l1.1.1) * (l1.1.2 - l1.2.2) - (l0.1.2 - l1.1.2) *
        (l1.1.1 - l1.2.1)) * (l0.2.2 - l0.1.2) / d =
      l1.1.2 + (-((l0.1.1 - l0.2.1) * (l0.1.2 - l1.1.2) - (l0.1.2 - l0.2.2) *
        (l0.1.1 - l1.1.1))) * (l1.2.2 - l1.1.2) / d := by
    field_simp
    rw [hdd]; ring
  refine ⟨(l0.1.1 + ((l0.1.1 - l1.1.1) * (l1.1.2 - l1.2.2) - (l0.1.2 - l1.1.2) *
        (l1.1.1 - l1.2.1)) * (l0.2.1 - l0.1.1) / d,
      l0.1.2 + ((l0.1.1 - l1.1.1) * (l1.1.2 - l1.2.2) - (l0.1.2 - l1.1.2) *
        (l1.1.1 - l1.2.1)) * (l0.2.2 - l0.1.2) / d),
    ((l0.1.1 - l1.1.1) * (l1.1.2 - l1.2.2) - (l0.1.2 - l1.1.2) * (l1.1.1 - l1.2.1)) / d,
    (-((l0.1.1 - l0.2.1) * (l0.1.2 - l1.1.2) - (l0.1.2 - l0.2.2) *
        (l0.1.1 - l1.1.1))) / d, ?_, ?_, ?_, ?_⟩
  · unfold segSegGeneralIntersection
    simp only
    rw [← hdd, if_pos hd, if_pos hx, if_pos hy]
  · unfold along
    ext <;> simp only <;> ring
  · unfold along
    ext
    · rw [hx]; simp only; ring
    · rw [hy]; simp only; ring
  · intro q s0 s1 h0 h1
    have e := h0.symm.trans h1
    unfold along at e
    have e1 := congrArg Prod.fst e
    have e2 := congrArg Prod.snd e
    simp only at e1 e2
    have k0 : s0 = ((l0.1.1 - l1.1.1) * (l1.1.2 - l1.2.2) - (l0.1.2 - l1.1.2) *
        (l1.1.1 - l1.2.1)) / d := by
      rw [eq_div_iff hd, hdd]
      linear_combination (l1.2.2 - l1.1.2) * e1 - (l1.2.1 - l1.1.1) * e2
    have k1 : s1 = (-((l0.1.1 - l0.2.1) * (l0.1.2 - l1.1.2) - (l0.1.2 - l0.2.2) *
        (l0.1.1 - l1.1.1))) / d := by
      rw [eq_div_iff hd, hdd]
      linear_combination (l0.2.2 - l0.1.2) * e1 - (l0.2.1 - l0.1.1) * e2
    refine ⟨?_, k0, k1⟩
    rw [h0, k0]
    unfold along
    ext <;> simp only <;> ring

/-- C15: parallel input is refused. -/
theorem c15_parallel (l0 l1 : Seg) (h : Parallel l0 l1) :
    segSegGeneralIntersection l0 l1 = .error .assertion := by
  unfold segSegGeneralIntersection
  exact if_neg (by simpa [Parallel, cross, dir] using h)

/-- C15: swapping the arguments swaps the parameters, reversing one complements its parameter. -/
theorem c15_symmetry (l0 l1 : Seg) (p : Pt) (t0 t1 : ℚ)
    (h : segSegGeneralIntersection l0 l1 = .ok (p, t0, t1)) :
    segSegGeneralIntersection l1 l0 = .ok (p, t1, t0) ∧
    segSegGeneralIntersection l0.swap l1 = .ok (p, 1 - t0, t1) := by
  have hn : ¬ Parallel l0 l1 := fun hp => by rw [c15_parallel l0 l1 hp] at h; cases h
  obtain ⟨p', t0', t1', h', a, b, _⟩ := c15_intersection l0 l1 hn
  rw [h, Except.ok.injEq] at h'
  obtain ⟨hp', hq'⟩ := Prod.mk.inj h'
  obtain ⟨hr', hs'⟩ := Prod.mk.inj hq'
  subst hp' hr' hs'
  constructor
  · have hn' : ¬ Parallel l1 l0 := fun hp => hn (by unfold Parallel cross at *; linarith)
    obtain ⟨p2, s0, s1, h2, _, _, u⟩ := c15_intersection l1 l0 hn'
    obtain ⟨rfl, rfl, rfl⟩ := u p t1 t0 b a
    exact h2
  · have hn' : ¬ Parallel l0.swap l1 := fun hp => hn (by
      unfold Parallel cross dir at *
      simp only [Prod.fst_swap, Prod.snd_swap] at hp
      linarith)
    obtain ⟨p2, s0, s1, h2, _, _, u⟩ := c15_intersection l0.swap l1 hn'
    obtain ⟨rfl, rfl, rfl⟩ := u p (1 - t0) t1 (by
      rw [a]; unfold along
      ext <;> simp only [Prod.fst_swap, Prod.snd_swap] <;> ring) b
    exact h2

example : ¬ Parallel ((0, 0), (2, 2)) ((0, 2), (2, 0)) ∧ Parallel ((0, 0), (1, 1)) ((0, 1), (2, 3)) := by
  unfold Parallel cross dir; norm_num

/-! ### C16 -/

/-- C16: the axis flip recurses at most once: two levels always suffice, and more change nothing. -/
theorem c16_flip_once (s : Seg) (p : Pt) (fuel : Nat) :
    ∃ r, ∀ n, 2 ≤ n → lineSegPointFractionFuel (n + fuel) s p = some r := by
  have key : ∃ r, ∀ n, lineSegPointFractionFuel (n + 2) s p = some r := by
    by_cases h1 : s.1 = s.2
    · exact ⟨_, fun n => by rw [lineSegPointFractionFuel, if_pos h1]⟩
    · by_cases h2 : s.1.1 = s.2.1
      · have h3 : s.1.2 ≠ s.2.2 := fun hc => h1 (Prod.ext h2 hc)
        refine ⟨fractionByX ((s.1.2, s.1.1), (s.2.2, s.2.1)) (p.2, p.1), fun n => ?_⟩
        · rw [lineSegPointFractionFuel, if_neg h1, if_pos h2, lineSegPointFractionFuel,
            if_neg (by intro hc; exact h3 (congrArg Prod.fst hc)), if_neg h3]
      · exact ⟨_, fun n => by rw [lineSegPointFractionFuel, if_neg h1, if_neg h2]⟩
  obtain ⟨r, hr⟩ := key
  refine ⟨r, fun n hn => ?_⟩
  obtain ⟨m, rfl⟩ := Nat.exists_eq_add_of_le hn
  rw [show 2 + m + fuel = (m + fuel) + 2 by ring]
  exact hr _

theorem fractionByX_iff (s : Seg) (p : Pt) (h : s.1.1 ≠ s.2.1) (f : ℚ) :
    fractionByX s p = some f ↔ p = along s f := by
  have hne : s.2.1 - s.1.1 ≠ 0 := fun hc => h (by linarith)
  unfold fractionByX
  simp only
  constructor
  · intro hh
    split_ifs at hh with hc
    simp only [Option.some.injEq] at hh
    unfold along
    rw [← hh]
    ext
    · simp only; field_simp; ring
    · exact hc
  · intro hh
    unfold along at hh
    have e1 := congrArg Prod.fst hh
    have e2 := congrArg Prod.snd hh
    simp only at e1 e2
    have : (p.1 - s.1.1) / (s.2.1 - s.1.1) = f := by rw [div_eq_iff hne, e1]; ring
    rw [this, if_pos e2]

/-- C16: for a proper segment the result is the parameter of the point on the line. -/
theorem c16_fraction (s : Seg) (p : Pt) (hs : s.1 ≠ s.2) (n : Nat) (hn : 2 ≤ n) :
    ∃ r, lineSegPointFractionFuel n s p = some r ∧ (∀ f, r = some f ↔ p = along s f) ∧
      (r = none ↔ orient s.1 s.2 p ≠ 0) := by
  obtain ⟨m, rfl⟩ := Nat.exists_eq_add_of_le hn
  rw [show 2 + m = (m + 1) + 1 by ring]
  have fin : ∀ r : Option ℚ, (∀ f, r = some f ↔ p = along s f) → (r = none ↔ orient s.1 s.2 p ≠ 0) := by
    intro r hr
    constructor
    · rintro rfl ho
      by_cases hx : s.1.1 = s.2.1
      · have hy : s.2.2 - s.1.2 ≠ 0 := fun hc => hs (Prod.ext hx (by linarith))
        have := (hr ((p.2 - s.1.2) / (s.2.2 - s.1.2))).2 (by
          unfold orient at ho
          unfold along
          ext
          · simp only
            have : (s.2.2 - s.1.2) * (p.1 - s.1.1) = 0 := by rw [hx] at ho ⊢; linarith
            rcases mul_eq_zero.1 this with h | h
            · exact absurd h hy
            · rw [hx] at h ⊢; linarith
          · simp only; field_simp; ring)
        simp at this
      · have hxx : s.2.1 - s.1.1 ≠ 0 := fun hc => hx (by linarith)
        have := (hr ((p.1 - s.1.1) / (s.2.1 - s.1.1))).2 (by
          unfold orient at ho
          unfold along
          ext
          · simp only; field_simp; ring
          · simp only; field_simp; linarith)
        simp at this
    · intro ho
      cases r with
      | none => rfl
      | some f =>
        exfalso
        apply ho
        rw [(hr f).1 rfl]
        unfold orient along; ring
  by_cases h2 : s.1.1 = s.2.1
  · have h3 : s.1.2 ≠ s.2.2 := fun hc => hs (Prod.ext h2 hc)
    refine ⟨fractionByX ((s.1.2, s.1.1), (s.2.2, s.2.1)) (p.2, p.1), ?_, ?_⟩
    · rw [lineSegPointFractionFuel, if_neg hs, if_pos h2, lineSegPointFractionFuel,
        if_neg (by intro hc; exact h3 (congrArg Prod.fst hc)), if_neg h3]
    · have hf : ∀ f, fractionByX ((s.1.2, s.1.1), (s.2.2, s.2.1)) (p.2, p.1) = some f ↔
          p = along s f := by
        intro f
        rw [fractionByX_iff _ _ h3]
        unfold along
        rw [Prod.ext_iff, Prod.ext_iff]
        simp only
        exact and_comm
      exact ⟨hf, fin _ hf⟩
  · refine ⟨fractionByX s p, ?_, ?_⟩
    · rw [lineSegPointFractionFuel, if_neg hs, if_neg h2]
    · have hf := fractionByX_iff s p h2
      exact ⟨hf, fin _ hf⟩

/-- C16: for a degenerate segment only the point itself is accepted. -/
theorem c16_degenerate (a p : Pt) (n : Nat) (hn : 1 ≤ n) :
    lineSegPointFractionFuel n (a, a) p = some (if a = p then some 0 else none) := by
  obtain ⟨m, rfl⟩ := Nat.exists_eq_add_of_le hn
  rw [Nat.add_comm, lineSegPointFractionFuel, if_pos rfl]

example : (∃ r, lineSegPointFractionFuel 2 ((1, 0), (1, 4)) (1, 1) = some r ∧ r = some (1/4)) := by
  obtain ⟨r, h1, h2, _⟩ := c16_fraction ((1, 0), (1, 4)) (1, 1) (by decide) 2 le_rfl
  exact ⟨r, h1, (h2 _).2 (by unfold along; norm_num)⟩

/-! ### C17 -/

/-- C17: the value is minus the (counter-clockwise positive) shoelace area. -/
theorem c17_shoelace (poly : List Pt) (h : poly ≠ []) :
    simplePolygonArea poly = .ok (-(shoelace poly)) := area_eq_shoelace poly h

/-- C17: the empty list raises. -/
theorem c17_empty : simplePolygonArea [] = .error .indexError := rfl

/-- C17: cyclic rotation does not change the area. -/
theorem c17_rotate (poly : List Pt) (n : ℕ) :
    simplePolygonArea (poly.rotate n) = simplePolygonArea poly := by
  by_cases h : poly = []
  · subst h; simp
  · rw [area_eq_shoelace poly h, area_eq_shoelace _ (by simpa using h)]
    unfold shoelace
    rw [((polyEdges_rotate poly n).map _).sum_eq]

/-- C17: reversal negates the area. -/
theorem c17_reverse (poly : List Pt) (a : ℚ) (h : simplePolygonArea poly = .ok a) :
    simplePolygonArea poly.reverse = .ok (-a) := by
  have hne : poly ≠ [] := by rintro rfl; cases h
  rw [area_eq_shoelace poly hne, Except.ok.injEq] at h
  rw [area_eq_shoelace _ (by simpa using hne), Except.ok.injEq, ← h]
  unfold shoelace
  rw [((polyEdges_reverse poly).map _).sum_eq, List.map_map]
  have : ((fun e : Seg => cross e.1 e.2) ∘ Prod.swap) = fun e : Seg => -cross e.1 e.2 := by
    funext e; simp only [Function.comp, Prod.fst_swap, Prod.snd_swap]; unfold cross; ring
  rw [this]
  have : ∀ l : List Seg, (l.map fun e : Seg => -cross e.1 e.2).sum =
      -(l.map fun e : Seg => cross e.1 e.2).sum := by
    intro l
    induction l with
    | nil => simp
    | cons a l ih => simp only [List.map_cons, List.sum_cons, ih]; ring
  rw [this]; ring

/-- C17: under an affine map the area is multiplied by the determinant (translations included). -/
theorem c17_affine (A : Affine) (poly : List Pt) (a : ℚ) (h : simplePolygonArea poly = .ok a) :
    simplePolygonArea (poly.map A.app) = .ok (A.det * a) := by
  have hne : poly ≠ [] := by rintro rfl; cases h
  rw [area_eq_shoelace poly hne, Except.ok.injEq] at h
  rw [area_eq_shoelace _ (by simpa using hne), Except.ok.injEq, ← h]
  unfold shoelace
  rw [polyEdges_map, List.map_map]
  have key : ((fun e : Seg => cross e.1 e.2) ∘ Prod.map A.app A.app) = fun e : Seg =>
      A.det * cross e.1 e.2 +
      ((fun v : Pt => A.e * (A.c * v.1 + A.d * v.2) - A.f * (A.a * v.1 + A.b * v.2)) e.2 -
       (fun v : Pt => A.e * (A.c * v.1 + A.d * v.2) - A.f * (A.a * v.1 + A.b * v.2)) e.1) := by
    funext e
    simp only [Function.comp, Prod.map]
    unfold cross Affine.app Affine.det
    ring
  rw [key, sum_map_add', polyEdges_telescope
    (fun v : Pt => A.e * (A.c * v.1 + A.d * v.2) - A.f * (A.a * v.1 + A.b * v.2)), add_zero]
  have : ∀ l : List Seg, (l.map fun e : Seg => A.det * cross e.1 e.2).sum =
      A.det * (l.map fun e : Seg => cross e.1 e.2).sum := by
    intro l
    induction l with
    | nil => simp
    | cons a l ih => simp only [List.map_cons, List.sum_cons, ih]; ring
  rw [this]; ring

/-- C17: cutting a polygon along a diagonal adds up the areas. -/
theorem c17_cut (a b : Pt) (l m : List Pt) (x y : ℚ)
    (hx : simplePolygonArea (a :: l ++ [b]) = .ok x)
    (hy : simplePolygonArea (b :: m ++ [a]) = .ok y) :
    simplePolygonArea (a :: l ++ b :: m) = .ok (x + y) := by
  rw [area_eq_shoelace _ (by simp), Except.ok.injEq] at hx hy ⊢
  rw [← hx, ← hy]
  unfold shoelace
  rw [List.cons_append, List.cons_append, List.cons_append, polyEdges_cons, polyEdges_cons,
    polyEdges_cons]
  have e1 : chain a (l ++ [b] ++ [a]) = chain a (l ++ [b]) ++ [(b, a)] := by
    rw [chain_append_singleton a a (l ++ [b])]; simp [List.getLast_cons]
  have e2 : chain b (m ++ [a] ++ [b]) = chain b (m ++ [a]) ++ [(a, b)] := by
    rw [chain_append_singleton b b (m ++ [a])]; simp [List.getLast_cons]
  have e3 : chain a (l ++ b :: m ++ [a]) = chain a (l ++ [b]) ++ chain b (m ++ [a]) := by
    rw [show l ++ b :: m ++ [a] = (l ++ [b]) ++ (m ++ [a]) by simp, chain_append]
    simp [List.getLast_cons]
  rw [e1, e2, e3]
  simp only [List.map_append, List.sum_append, List.map_cons, List.map_nil, List.sum_cons,
    List.sum_nil]
  unfold cross; ring

/-- C17: a triangle: minus half its orientation, so clockwise triangles are positive (the docstring
says the opposite). -/
theorem c17_triangle (a b c : Pt) : simplePolygonArea [a, b, c] = .ok (-(orient a b c) / 2) := by
  rw [area_eq_shoelace _ (by simp)]
  unfold shoelace polyEdges cross orient
  simp
  ring

/-- The counter-clockwise unit triangle has area −1/2. -/
example : simplePolygonArea [(0, 0), (1, 0), (0, 1)] = .ok (-1 / 2) := by
  rw [c17_triangle]; unfold orient; norm_num

/-! ### C18 -/

/-- C18: exact classification by boundary and winding number. -/
theorem c18_locate (poly : List Pt) (h : poly ≠ []) (p : Pt) :
    (locateWinding poly p = .ok 0 ↔ OnBoundary poly p) ∧
    (locateWinding poly p = .ok 1 ↔ ¬ OnBoundary poly p ∧ windingNumber poly p ≠ 0) ∧
    (locateWinding poly p = .ok (-1) ↔ ¬ OnBoundary poly p ∧ windingNumber poly p = 0) := by
  obtain ⟨h1, h2⟩ := locateWinding_spec poly h p
  by_cases hb : OnBoundary poly p
  · rw [h1 hb]
    simp [hb]
  · rw [h2 hb]
    by_cases hw : windingNumber poly p = 0
    · simp [hb, hw]
    · simp [hb, hw]

/-- C18: the empty vertex list raises. -/
theorem c18_empty (p : Pt) : locateWinding [] p = .error .indexError := rfl

/-- C18: equivalently, the crossings may be counted on the ray to the left. -/
theorem c18_left_ray (poly : List Pt) (p : Pt) (hp : ¬ OnBoundary poly p) :
    windingNumber poly p = ((polyEdges poly).map fun e =>
      if e.1.2 ≤ p.2 ∧ p.2 < e.2.2 ∧ orient e.1 e.2 p < 0 then (-1 : ℤ)
      else if e.2.2 ≤ p.2 ∧ p.2 < e.1.2 ∧ 0 < orient e.1 e.2 p then 1 else 0).sum := by
  have key : ((polyEdges poly).map fun e =>
      if e.1.2 ≤ p.2 ∧ p.2 < e.2.2 ∧ orient e.1 e.2 p < 0 then (-1 : ℤ)
      else if e.2.2 ≤ p.2 ∧ p.2 < e.1.2 ∧ 0 < orient e.1 e.2 p then 1 else 0) =
      (polyEdges poly).map fun e => crossing p e.1 e.2 +
        ((fun v => -above p v) e.2 - (fun v => -above p v) e.1) := by
    apply List.map_congr_left
    intro e he
    have ho : ¬ OnSeg (e.1, e.2) p := fun hc => hp ⟨e, he, hc⟩
    by_cases ha : e.1.2 ≤ p.2 <;> by_cases hb : e.2.2 ≤ p.2
    · rw [crossing_below ha hb]
      simp [above, not_lt.2 ha, not_lt.2 hb]
    · rw [not_le] at hb
      rw [crossing_up ha hb]
      have hn := orient_ne_of_straddle ho (Or.inl ⟨ha, hb⟩)
      rcases lt_or_gt_of_ne hn with hs | hs
      · simp [above, ha, hb, not_lt.2 ha, hs, not_lt.2 hs.le]
      · simp [above, ha, hb, not_lt.2 ha, hs, not_lt.2 hs.le, not_le.2 hb]
    · rw [not_le] at ha
      rw [crossing_down hb ha]
      have hn := orient_ne_of_straddle ho (Or.inr ⟨hb, ha⟩)
      rcases lt_or_gt_of_ne hn with hs | hs
      · simp [above, ha, hb, not_lt.2 hb, hs, not_lt.2 hs.le, not_le.2 ha]
      · simp [above, ha, hb, not_lt.2 hb, hs, not_lt.2 hs.le, not_le.2 ha]
    · rw [not_le] at ha hb
      rw [crossing_above ha hb]
      simp [above, ha, hb, not_le.2 ha, not_le.2 hb]
  rw [key, sum_map_add_int, polyEdges_telescope (fun v => -above p v), add_zero]
  rfl

/-! ### C19 -/

/-- C19: independent of the starting vertex. -/
theorem c19_rotate (poly : List Pt) (n : ℕ) (p : Pt) :
    locateWinding (poly.rotate n) p = locateWinding poly p := by
  by_cases h : poly = []
  · subst h; simp
  · have h' : poly.rotate n ≠ [] := by simpa using h
    have hperm := polyEdges_rotate poly n
    have hb : OnBoundary (poly.rotate n) p ↔ OnBoundary poly p := by
      unfold OnBoundary; simp only [hperm.mem_iff]
    obtain ⟨a1, a2⟩ := locateWinding_spec poly h p
    obtain ⟨b1, b2⟩ := locateWinding_spec _ h' p
    by_cases hc : OnBoundary poly p
    · rw [a1 hc, b1 (hb.2 hc)]
    · rw [a2 hc, b2 (fun hh => hc (hb.1 hh)), windingNumber_perm hperm]

/-- C19: independent of the orientation. -/
theorem c19_reverse (poly : List Pt) (p : Pt) :
    locateWinding poly.reverse p = locateWinding poly p := by
  by_cases h : poly = []
  · subst h; rfl
  · have h' : poly.reverse ≠ [] := by simpa using h
    obtain ⟨a1, a2⟩ := locateWinding_spec poly h p
    obtain ⟨b1, b2⟩ := locateWinding_spec _ h' p
    by_cases hc : OnBoundary poly p
    · rw [a1 hc, b1 ((onBoundary_reverse _ _).2 hc)]
    · rw [a2 hc, b2 (fun hh => hc ((onBoundary_reverse _ _).1 hh)), windingNumber_reverse]
      simp

/-- C19: independent of the coordinate system: invariant under every invertible affine map. -/
theorem c19_affine (A : Affine) (hA : A.det ≠ 0) (poly : List Pt) (p : Pt) :
    locateWinding (poly.map A.app) (A.app p) = locateWinding poly p := by
  by_cases h : poly = []
  · subst h; rfl
  · have h' : poly.map A.app ≠ [] := by simpa using h
    obtain ⟨a1, a2⟩ := locateWinding_spec poly h p
    obtain ⟨b1, b2⟩ := locateWinding_spec _ h' (A.app p)
    by_cases hc : OnBoundary poly p
    · rw [a1 hc, b1 ((onBoundary_affine A hA _ _).2 hc)]
    · rw [a2 hc, b2 (fun hh => hc ((onBoundary_affine A hA _ _).1 hh)),
        windingNumber_affine A hA poly p hc]
      by_cases hd : 0 < A.det <;> simp [hd]

/-- C19: a triangle contains exactly its open interior (strictly on the same side of all edges). -/
theorem c19_triangle (a b c p : Pt) :
    locateWinding [a, b, c] p = .ok 1 ↔
      (0 < orient a b p ∧ 0 < orient b c p ∧ 0 < orient c a p) ∨
      (orient a b p < 0 ∧ orient b c p < 0 ∧ orient c a p < 0) := by
  rw [(c18_locate [a, b, c] (by simp) p).2.1]
  have hedges : polyEdges [a, b, c] = [(a, b), (b, c), (c, a)] := rfl
  have hw : windingNumber [a, b, c] p = crossing p a b + crossing p b c + crossing p c a := by
    unfold windingNumber; rw [hedges]; simp [add_assoc]
  constructor
  · rintro ⟨h1, h2⟩
    rw [hw, tri_crossing (fun h => h1 ⟨_, by rw [hedges]; simp, h⟩)
      (fun h => h1 ⟨_, by rw [hedges]; simp, h⟩) (fun h => h1 ⟨_, by rw [hedges]; simp, h⟩)] at h2
    unfold sgn3 at h2
    split_ifs at h2 with g1 g2
    · exact Or.inl g1
    · exact Or.inr g2
    · exact absurd rfl h2
  · intro h
    have hn : ¬ OnBoundary [a, b, c] p := by
      rintro ⟨e, he, ho⟩
      rw [hedges] at he
      simp only [List.mem_cons, List.not_mem_nil, or_false] at he
      have ho' := onSeg_orient (a := e.1) (b := e.2) ho
      rcases he with rfl | rfl | rfl <;> rcases h with ⟨x, y, z⟩ | ⟨x, y, z⟩ <;> simp only at ho' <;>
        linarith
    refine ⟨hn, ?_⟩
    rw [hw, tri_crossing (fun h => hn ⟨_, by rw [hedges]; simp, h⟩)
      (fun h => hn ⟨_, by rw [hedges]; simp, h⟩) (fun h => hn ⟨_, by rw [hedges]; simp, h⟩)]
    unfold sgn3
    rcases h with h | h
    · rw [if_pos h]; decide
    · rw [if_neg (by rintro ⟨hh, _⟩; linarith [h.1]), if_pos h]; decide

/-- Non-vacuity: inside, outside level with a vertex, and on the boundary of a triangle. -/
example : locateWinding [(0, 0), (4, 0), (0, 4)] (1, 1) = .ok 1 ∧
    locateWinding [(0, 0), (4, 0), (0, 4)] (5, 0) ≠ .ok 1 ∧
    locateWinding [(0, 0), (4, 0), (0, 4)] (2, 2) = .ok 0 := by
  refine ⟨?_, ?_, ?_⟩
  · rw [c19_triangle]; unfold orient; norm_num
  · rw [Ne, c19_triangle]; unfold orient; norm_num
  · rw [(c18_locate _ (by simp) _).1]
    exact ⟨((4, 0), (0, 4)), by simp [polyEdges], 1 / 2, by norm_num, by norm_num,
      by unfold along; norm_num⟩

end Ply
