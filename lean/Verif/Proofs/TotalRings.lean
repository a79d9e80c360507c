import Verif.Proofs.TotalFork
import Verif.Proofs.RingArea
import Verif.Props.MakeFingers

/-!
# Rings that do not touch never branch; unions of geoms with edges on them never raise
-/

namespace Ply

namespace Arr

theorem sameWay_along {t : Seg} {a b c : ℚ} (h : a < b ∧ a < c ∨ b < a ∧ c < a) :
    SameWay (along t a) (along t b) (along t c) := by
  have key : ∀ b c : ℚ, (a < b ∧ b ≤ c ∨ b < a ∧ c ≤ b) → OnSeg (along t a, along t c) (along t b) := by
    intro b c h
    have hne : c - a ≠ 0 := by rcases h with h | h <;> intro hc <;> linarith
    refine ⟨(b - a) / (c - a), ?_, ?_, ?_⟩
    · rcases h with h | h
      · exact div_nonneg (by linarith) (by linarith)
      · exact div_nonneg_of_nonpos (by linarith) (by linarith)
    · rcases h with h | h
      · rw [div_le_one (by linarith)]; linarith
      · rw [div_le_one_of_neg (by linarith)]; linarith
    · unfold along
      ext <;> dsimp only <;> field_simp <;> ring
  unfold SameWay
  rcases le_total b c with hbc | hbc
  · rcases h with h | h
    · exact Or.inr (key b c (Or.inl ⟨h.1, hbc⟩))
    · exact Or.inl (key c b (Or.inr ⟨h.2, hbc⟩))
  · rcases h with h | h
    · exact Or.inl (key c b (Or.inl ⟨h.2, hbc⟩))
    · exact Or.inr (key b c (Or.inr ⟨h.1, hbc⟩))

theorem sameWay_three {t : Seg} {v x y z : Pt} (hx : v ≠ x) (hy : v ≠ y) (hz : v ≠ z) (h : OnSeg t v) (h1 : OnSeg t x)
    (h2 : OnSeg t y) (h3 : OnSeg t z) : SameWay v x y ∨ SameWay v y z ∨ SameWay v x z := by
  obtain ⟨a, -, -, rfl⟩ := h
  obtain ⟨b, -, -, rfl⟩ := h1
  obtain ⟨c, -, -, rfl⟩ := h2
  obtain ⟨d, -, -, rfl⟩ := h3
  have n1 : a ≠ b := fun hc => hx (by rw [hc])
  have n2 : a ≠ c := fun hc => hy (by rw [hc])
  have n3 : a ≠ d := fun hc => hz (by rw [hc])
  rcases lt_or_gt_of_ne n1 with k1 | k1 <;> rcases lt_or_gt_of_ne n2 with k2 | k2 <;>
    rcases lt_or_gt_of_ne n3 with k3 | k3
  · exact Or.inl (sameWay_along (Or.inl ⟨k1, k2⟩))
  · exact Or.inl (sameWay_along (Or.inl ⟨k1, k2⟩))
  · exact Or.inr (Or.inr (sameWay_along (Or.inl ⟨k1, k3⟩)))
  · exact Or.inr (Or.inl (sameWay_along (Or.inr ⟨k2, k3⟩)))
  · exact Or.inr (Or.inl (sameWay_along (Or.inl ⟨k2, k3⟩)))
  · exact Or.inr (Or.inr (sameWay_along (Or.inr ⟨k1, k3⟩)))
  · exact Or.inl (sameWay_along (Or.inr ⟨k1, k2⟩))
  · exact Or.inl (sameWay_along (Or.inr ⟨k1, k2⟩))

theorem sameWay_end {t : Seg} {v x y : Pt} (hx : v ≠ x) (hy : v ≠ y) (h : v = t.1 ∨ v = t.2) (h1 : OnSeg t x)
    (h2 : OnSeg t y) : SameWay v x y := by
  obtain ⟨b, b0, b1, rfl⟩ := h1
  obtain ⟨c, c0, c1, rfl⟩ := h2
  rcases h with h | h
  · have e : v = along t 0 := by rw [h]; unfold along; ext <;> simp
    subst e
    have n1 : (0 : ℚ) ≠ b := fun hc => hx (by rw [hc])
    have n2 : (0 : ℚ) ≠ c := fun hc => hy (by rw [hc])
    exact sameWay_along (Or.inl ⟨lt_of_le_of_ne b0 n1, lt_of_le_of_ne c0 n2⟩)
  · have e : v = along t 1 := by rw [h, along_one]
    subst e
    have n1 : b ≠ (1 : ℚ) := fun hc => hx (by rw [hc])
    have n2 : c ≠ (1 : ℚ) := fun hc => hy (by rw [hc])
    exact sameWay_along (Or.inr ⟨lt_of_le_of_ne b1 n1, lt_of_le_of_ne c1 n2⟩)

end Arr

/-- Simple rings, any two of which are the same or do not touch. -/
structure Separate (Ls : List (List Pt)) : Prop where
  simple : ∀ L ∈ Ls, SimpleRing L
  apart : ∀ L ∈ Ls, ∀ M ∈ Ls, ∀ x, OnBoundary L x → OnBoundary M x → L = M

namespace Arr

/-- Two edges of a simple ring with a common point. -/
theorem ring_third {L : List Pt} (h : SimpleRing L) {t s k : Seg} (ht : t ∈ polyEdges L) (hs : s ∈ polyEdges L)
    (hk : k ∈ polyEdges L) {v : Pt} (h1 : OnSeg t v) (h2 : OnSeg s v) (h3 : OnSeg k v) (hne : s ≠ t) :
    (v = t.1 ∨ v = t.2) ∧ (v = s.1 ∨ v = s.2) ∧ (k = t ∨ k = s) := by
  have nt := h.pos ht
  have ns := h.pos hs
  have nk := h.pos hk
  rcases h.apart t ht s hs v h1 h2 with c | ⟨a, b⟩ | ⟨a, b⟩
  · exact absurd c hne
  · refine ⟨Or.inl a, Or.inr b, ?_⟩
    rcases h.apart t ht k hk v h1 h3 with c | ⟨a', b'⟩ | ⟨a', b'⟩
    · exact Or.inl c
    · rcases h.apart s hs k hk v h2 h3 with c | ⟨a'', b''⟩ | ⟨a'', b''⟩
      · exact Or.inr c
      · exact absurd (a''.symm.trans b) ns
      · exact absurd (b''.symm.trans b') nk
    · exact absurd (a.symm.trans a') nt
  · refine ⟨Or.inr a, Or.inl b, ?_⟩
    rcases h.apart t ht k hk v h1 h3 with c | ⟨a', b'⟩ | ⟨a', b'⟩
    · exact Or.inl c
    · exact absurd (a'.symm.trans a) nt
    · rcases h.apart s hs k hk v h2 h3 with c | ⟨a'', b''⟩ | ⟨a'', b''⟩
      · exact Or.inr c
      · exact absurd (b'.symm.trans b'') nk
      · exact absurd (b.symm.trans a'') ns

theorem separate_forkless {Ls : List (List Pt)} (h : Separate Ls) : Forkless (Ls.flatMap polyEdges) := by
  rintro v x y z hx hy hz ⟨t, ht, t1, t2⟩ ⟨s, hs, s1, s2⟩ ⟨k, hk, k1, k2⟩
  obtain ⟨L, hL, ht⟩ := List.mem_flatMap.1 ht
  obtain ⟨M, hM, hs⟩ := List.mem_flatMap.1 hs
  obtain ⟨N, hN, hk⟩ := List.mem_flatMap.1 hk
  obtain rfl := h.apart L hL M hM v ⟨t, ht, t1⟩ ⟨s, hs, s1⟩
  obtain rfl := h.apart L hL N hN v ⟨t, ht, t1⟩ ⟨k, hk, k1⟩
  have hr := h.simple L hL
  by_cases e : s = t
  · subst e
    by_cases e' : k = s
    · subst e'
      exact sameWay_three hx hy hz t1 t2 s2 k2
    · exact Or.inl (sameWay_end hx hy (ring_third hr hs hk hk s1 k1 k1 e').1 t2 s2)
  · obtain ⟨a, b, c⟩ := ring_third hr ht hs hk t1 s1 k1 e
    rcases c with rfl | rfl
    · exact Or.inr (Or.inr (sameWay_end hx hz a t2 k2))
    · exact Or.inr (Or.inl (sameWay_end hy hz b s2 k2))

/-! ### `union` -/

/-- If the operation on up to 64 geoms of some kind gives one of this kind, so does `union`. -/
theorem unionPass_total {arr : Geom2D.ArrOp} {Good : Geom2D → Prop}
    (harr : ∀ gs : List Geom2D, (∀ g ∈ gs, Good g) → ∃ r, arr gs (fun v => v.any id) = .ok r ∧ Good r) (fuel : ℕ)
    (gs : List Geom2D) (hf : gs.length + 2 ≤ fuel) (hg : ∀ g ∈ gs, Good g) :
    ∃ nxt, Geom2D.unionPass arr fuel gs = .ok nxt ∧ 64 * nxt.length < gs.length + 64 ∧ ∀ g ∈ nxt, Good g := by
  induction fuel generalizing gs with
  | zero => omega
  | succ fuel ih =>
    cases gs with
    | nil => exact ⟨[], by rw [Geom2D.unionPass], by simp, by simp⟩
    | cons g gs =>
      rw [Geom2D.unionPass]
      have hs2 : (List.take Geom2D.unionN (g :: gs)).length ≤ 64 := by
        rw [List.length_take]; unfold Geom2D.unionN; omega
      obtain ⟨x, e1, gx⟩ : ∃ x, (if (List.take Geom2D.unionN (g :: gs)).length > 1 then
          Geom2D.union arr fuel (List.take Geom2D.unionN (g :: gs)) else Geom2D.onlyElem (List.take Geom2D.unionN (g :: gs))) =
          .ok x ∧ Good x := by
        by_cases h1 : (List.take Geom2D.unionN (g :: gs)).length > 1
        · rw [if_pos h1]
          obtain ⟨f', rfl⟩ : ∃ f', fuel = f' + 1 := ⟨fuel - 1, by rw [List.length_cons] at hf; omega⟩
          rw [Geom2D.union, if_neg (by unfold Geom2D.unionN at *; omega)]
          exact harr _ fun y hy => hg y (List.mem_of_mem_take hy)
        · rw [if_neg h1]
          have : gs = [] := by
            rw [List.length_take, List.length_cons] at h1
            unfold Geom2D.unionN at h1
            exact List.length_eq_zero_iff.1 (by omega)
          subst this
          exact ⟨g, rfl, hg g (by simp)⟩
      have htl : (List.drop Geom2D.unionN (g :: gs)).length = (g :: gs).length - 64 := by rw [List.length_drop]; rfl
      obtain ⟨nxt, e2, hl, gn⟩ := ih (List.drop Geom2D.unionN (g :: gs)) (by
        rw [htl, List.length_cons]; rw [List.length_cons] at hf; omega) fun y hy => hg y (List.mem_of_mem_drop hy)
      refine ⟨x :: nxt, ?_, ?_, ?_⟩
      · show (_ >>= _) = _
        rw [e1]
        show (_ >>= _) = _
        rw [e2]; rfl
      · rw [htl, List.length_cons] at hl
        rw [List.length_cons, List.length_cons]
        by_cases h0 : gs.length + 1 ≤ 64
        · have : List.drop Geom2D.unionN (g :: gs) = [] := List.length_eq_zero_iff.1 (by
            rw [htl, List.length_cons]; omega)
          rw [this] at e2
          obtain ⟨f', rfl⟩ : ∃ f', fuel = f' + 1 := ⟨fuel - 1, by rw [List.length_cons] at hf; omega⟩
          rw [Geom2D.unionPass] at e2
          cases e2
          simp
        · omega
      · intro y hy
        rcases List.mem_cons.1 hy with rfl | hy
        · exact gx
        · exact gn y hy

theorem unionTree_total {arr : Geom2D.ArrOp} {Good : Geom2D → Prop} (h0 : Good [])
    (harr : ∀ gs : List Geom2D, (∀ g ∈ gs, Good g) → ∃ r, arr gs (fun v => v.any id) = .ok r ∧ Good r) (fuel : ℕ)
    (gs : List Geom2D) (hf : gs.length + 3 ≤ fuel) (hg : ∀ g ∈ gs, Good g) :
    ∃ r, Geom2D.unionTree arr fuel gs = .ok r ∧ Good r := by
  induction fuel generalizing gs with
  | zero => omega
  | succ fuel ih =>
    rw [Geom2D.unionTree.eq_def]
    dsimp only
    by_cases hl : gs.length > 1
    · rw [if_pos hl]
      obtain ⟨nxt, e1, hn, gn⟩ := unionPass_total harr fuel gs (by omega) hg
      obtain ⟨r, e2, gr⟩ := ih nxt (by omega) gn
      refine ⟨r, ?_, gr⟩
      show (_ >>= _) = _
      rw [e1]; exact e2
    · rw [if_neg hl]
      match gs, hl with
      | [], _ => exact ⟨[], rfl, h0⟩
      | [g], _ => exact ⟨g, rfl, hg g (by simp)⟩
      | _ :: _ :: _, hl => simp at hl

theorem union_total {arr : Geom2D.ArrOp} {Good : Geom2D → Prop} (h0 : Good [])
    (harr : ∀ gs : List Geom2D, (∀ g ∈ gs, Good g) → ∃ r, arr gs (fun v => v.any id) = .ok r ∧ Good r) (fuel : ℕ)
    (gs : List Geom2D) (hf : gs.length + 4 ≤ fuel) (hg : ∀ g ∈ gs, Good g) :
    ∃ r, Geom2D.union arr fuel gs = .ok r ∧ Good r := by
  obtain ⟨f, rfl⟩ : ∃ f, fuel = f + 1 := ⟨fuel - 1, by omega⟩
  rw [Geom2D.union]
  split_ifs with h
  · exact unionTree_total h0 harr f gs (by omega) hg
  · exact harr gs hg

/-- The union of any number of geoms with edges on lines that do not branch. -/
theorem forkless_union (ch : Choices) (hch : ch.Valid) {T : List Seg} (hT : Forkless T) (fuel : ℕ) (gs : List Geom2D)
    (hf : gs.length + 4 ≤ fuel) (hg : ∀ g ∈ gs, Geom2D.Usable g) (hr : ∀ g ∈ gs, Runs T g) :
    ∃ r, Geom2D.union (arrangementOp ch) fuel gs = .ok r ∧ r.Fine ∧ Runs T r := by
  obtain ⟨r, h1, h2, h3⟩ := union_total (arr := arrangementOp ch) (Good := fun g => g.Usable ∧ Runs T g)
    ⟨fine_empty.usable, fun s hs => by simp [Geom2D.allSegments] at hs⟩ (fun gs hgs => by
      obtain ⟨r, h1, h2⟩ := forkless_total ch hch gs (fun v => v.any id) (by simp) (fun g h => (hgs g h).1) hT
        fun g h => (hgs g h).2
      exact ⟨r, h1, (arr_fine ch hch gs _ r (by simp) (fun g h => (hgs g h).1) h1).usable, h2⟩) fuel gs hf
    fun g h => ⟨hg g h, hr g h⟩
  exact ⟨r, h1, union_fine ch hch fuel gs hg r h1, h3⟩

end Arr

/-! ### Rectangles -/

theorem SimpleRing.affine (A : Affine) (hA : A.det ≠ 0) {L : List Pt} (h : SimpleRing L) : SimpleRing (L.map A.app) where
  long := by rw [List.length_map]; exact h.long
  nodup := h.nodup.map fun p q hpq => by
    simp only [Affine.app, Prod.mk.injEq] at hpq
    have hd : A.a * A.d - A.b * A.c ≠ 0 := hA
    obtain ⟨h1, h2⟩ := hpq
    have k1 : (A.a * A.d - A.b * A.c) * (p.1 - q.1) = 0 := by
      linear_combination A.d * h1 - A.b * h2
    have k2 : (A.a * A.d - A.b * A.c) * (p.2 - q.2) = 0 := by
      linear_combination A.a * h2 - A.c * h1
    exact Prod.ext (sub_eq_zero.1 ((mul_eq_zero.1 k1).resolve_left hd))
      (sub_eq_zero.1 ((mul_eq_zero.1 k2).resolve_left hd))
  apart := by
    rw [polyEdges_map]
    intro e he k hk x h1 h2
    obtain ⟨e, he', rfl⟩ := List.mem_map.1 he
    obtain ⟨k, hk', rfl⟩ := List.mem_map.1 hk
    have hx : ∃ y, x = A.app y := by
      obtain ⟨t, -, -, rfl⟩ := h1
      exact ⟨along e t, (along_affine A e t).symm⟩
    obtain ⟨y, rfl⟩ := hx
    have h1 := (onSeg_affine A hA e y).1 h1
    have h2 := (onSeg_affine A hA k y).1 h2
    rcases h.apart e he' k hk' y h1 h2 with c | ⟨a, b⟩ | ⟨a, b⟩
    · left; rw [c]
    · right; left; exact ⟨congrArg A.app a, congrArg A.app b⟩
    · right; right; exact ⟨congrArg A.app a, congrArg A.app b⟩

theorem onSeg_box {a b c d : ℚ} {x : Pt} (h : OnSeg ((a, b), (c, d)) x) :
    min a c ≤ x.1 ∧ x.1 ≤ max a c ∧ min b d ≤ x.2 ∧ x.2 ≤ max b d := by
  obtain ⟨t, t0, t1, rfl⟩ := h
  have key : ∀ u w : ℚ, min u w ≤ u + t * (w - u) ∧ u + t * (w - u) ≤ max u w := by
    intro u w
    rcases le_total u w with h | h
    · rw [min_eq_left h, max_eq_right h]
      constructor <;> nlinarith
    · rw [min_eq_right h, max_eq_left h]
      constructor <;> nlinarith
  unfold along
  exact ⟨(key a c).1, (key a c).2, (key b d).1, (key b d).2⟩

theorem boxLoop_simple {x0 y0 x1 y1 : ℚ} (hx : x0 < x1) (hy : y0 < y1) : SimpleRing (boxLoop x0 y0 x1 y1) where
  long := by unfold boxLoop; simp
  nodup := by
    unfold boxLoop
    simp [hx.ne, hy.ne, hy.ne']
  apart := by
    rw [boxLoop_edges]
    intro e he k hk x h1 h2
    simp only [List.mem_cons, List.not_mem_nil, or_false] at he hk
    rcases he with rfl | rfl | rfl | rfl <;> rcases hk with rfl | rfl | rfl | rfl <;>
      (have b1 := onSeg_box h1
       have b2 := onSeg_box h2
       simp only [min_self, max_self, min_eq_left hx.le, min_eq_left hy.le, max_eq_right hx.le, max_eq_right hy.le,
         min_eq_right hx.le, min_eq_right hy.le, max_eq_left hx.le, max_eq_left hy.le] at b1 b2
       obtain ⟨x1', x2'⟩ := x
       simp only [Prod.mk.injEq] at *
       first
         | exact Or.inl trivial
         | exact Or.inl ⟨⟨rfl, rfl⟩, rfl, rfl⟩
         | exact Or.inr (Or.inl ⟨⟨by linarith, by linarith⟩, by linarith, by linarith⟩)
         | exact Or.inr (Or.inr ⟨⟨by linarith, by linarith⟩, by linarith, by linarith⟩))

/-- The clockwise loop of the finger of one interval. -/
def fingerRing (s : InterSide) (f0 f1 : ℚ) (e : ℚ × ℚ) : List Pt :=
  let pts := [s.coords f0 f1 e.1 0, s.coords f0 f1 e.1 1, s.coords f0 f1 e.2 1, s.coords f0 f1 e.2 0]
  if 0 < shoelace pts then pts.reverse else pts

/-- The fingers of different intervals are rings that do not touch. -/
theorem fingers_separate (s : InterSide) (h : s.Proper) {f0 f1 : ℚ} (hf : f0 < f1) (ivs : List (ℚ × ℚ))
    (hlt : ∀ e ∈ ivs, e.1 < e.2) (hgap : ivs.Pairwise fun p q => p.2 < q.1) :
    Separate (ivs.map (fingerRing s f0 f1)) := by
  have hdet := (frame_det s h).ne
  have hn : s.acrossAt f0 < s.acrossAt f1 := by
    unfold InterSide.acrossAt
    nlinarith [h.width, mul_pos (sub_pos.2 h.width) (sub_pos.2 hf)]
  have hpts : ∀ e : ℚ × ℚ, [s.coords f0 f1 e.1 0, s.coords f0 f1 e.1 1, s.coords f0 f1 e.2 1, s.coords f0 f1 e.2 0] =
      (boxLoop e.1 (s.acrossAt f0) e.2 (s.acrossAt f1)).map s.frame.app := by
    intro e
    unfold boxLoop
    simp only [List.map_cons, List.map_nil, (coords_eq s f0 f1 _).1, (coords_eq s f0 f1 _).2]
  have hsim : ∀ e ∈ ivs, SimpleRing ((boxLoop e.1 (s.acrossAt f0) e.2 (s.acrossAt f1)).map s.frame.app) := fun e he =>
    (boxLoop_simple (hlt e he) hn).affine _ hdet
  have hbd : ∀ e ∈ ivs, ∀ al nc, OnBoundary (fingerRing s f0 f1 e) (s.frame.app (al, nc)) → e.1 ≤ al ∧ al ≤ e.2 := by
    intro e he al nc hx
    have h1 : OnBoundary ((boxLoop e.1 (s.acrossAt f0) e.2 (s.acrossAt f1)).map s.frame.app) (s.frame.app (al, nc)) := by
      rw [← hpts]
      unfold fingerRing at hx
      dsimp only at hx
      split_ifs at hx
      · exact (onBoundary_reverse _ _).1 hx
      · exact hx
    rw [onBoundary_affine _ hdet, boxLoop_boundary _ _ _ _ hn.ne, min_eq_left (hlt e he).le, max_eq_right (hlt e he).le] at h1
    exact ⟨h1.1.1, h1.1.2.1⟩
  refine ⟨fun L hL => ?_, fun L hL M hM x hx hy => ?_⟩
  · obtain ⟨e, he, rfl⟩ := List.mem_map.1 hL
    unfold fingerRing
    dsimp only
    rw [hpts]
    split_ifs
    · exact (hsim e he).reverse
    · exact hsim e he
  · obtain ⟨e, he, rfl⟩ := List.mem_map.1 hL
    obtain ⟨e', he', rfl⟩ := List.mem_map.1 hM
    obtain ⟨al, nc, rfl⟩ := point_surjective s h x
    rw [← frame_app] at hx hy
    have k1 := hbd e he al nc hx
    have k2 := hbd e' he' al nc hy
    have : e = e' := by
      by_contra hne
      obtain ⟨i, hi, rfl⟩ := List.mem_iff_getElem.1 he
      obtain ⟨j, hj, rfl⟩ := List.mem_iff_getElem.1 he'
      rcases lt_trichotomy i j with hij | rfl | hij
      · have := List.pairwise_iff_getElem.1 hgap i j hi hj hij
        linarith [k1.2, k2.1]
      · exact absurd rfl hne
      · have := List.pairwise_iff_getElem.1 hgap j i hj hi hij
        linarith [k1.1, k2.2]
    rw [this]

theorem fingerLoop_rings (s : InterSide) (f0 f1 : ℚ) (ivs : List (ℚ × ℚ)) (res : List Geom2D)
    (h : s.fingerLoop f0 f1 (ivs.map fun e => (Ext.fin e.1, Ext.fin e.2)) = .ok res) :
    ∀ g ∈ res, Arr.Runs ((ivs.map (fingerRing s f0 f1)).flatMap polyEdges) g := by
  induction ivs generalizing res with
  | nil => rw [List.map_nil, InterSide.fingerLoop] at h; cases h; simp
  | cons e ivs ih =>
    rw [List.map_cons, InterSide.fingerLoop] at h
    obtain ⟨a, ea, h⟩ := (bind_ok _ _ _).1 h
    obtain ⟨b, eb, h⟩ := (bind_ok _ _ _).1 h
    obtain ⟨g, h1, h⟩ := (bind_ok _ _ _).1 h
    obtain ⟨r, h2, h⟩ := (bind_ok _ _ _).1 h
    cases h
    rw [asFraction_fin] at ea eb
    cases ea
    cases eb
    intro x hx
    rw [List.map_cons, List.flatMap_cons]
    rcases List.mem_cons.1 hx with rfl | hx
    · obtain ⟨-, -, h3⟩ := (polygon_true_iff _ _).1 h1
      intro t ht
      refine ⟨t, List.mem_append_left _ ?_, onSeg_left t, onSeg_right t⟩
      rw [h3] at ht
      simp only [Geom2D.allSegments, SPWH.segments, List.flatMap_cons, List.flatMap_nil, List.append_nil, edgesIter_eq] at ht
      exact ht
    · intro t ht
      obtain ⟨k, hk, k1⟩ := ih r h2 x hx t ht
      exact ⟨k, List.mem_append_right _ hk, k1⟩

end Ply
