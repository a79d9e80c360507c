import Verif.Spec.ConvexRing
import Verif.Proofs.Bulge
import Verif.Props.BufferExact

/-!
# Convex rings: which points are inside
-/

namespace Ply

theorem loop_sum (f : Pt → ℚ) (L : List Pt) : ((polyEdges L).map fun e => f e.2 - f e.1).sum = 0 := by
  have key : ∀ l : List Seg, (l.map fun e => f e.2 - f e.1).sum = ((l.map Prod.snd).map f).sum - ((l.map Prod.fst).map f).sum := by
    intro l
    induction l with
    | nil => simp
    | cons a l ih => simp only [List.map_cons, List.sum_cons, ih]; ring
  rw [key, polyEdges_map_fst]
  cases L with
  | nil => simp [polyEdges]
  | cons a rest =>
    have : (polyEdges (a :: rest)).map Prod.snd = rest ++ [a] := List.map_snd_zip (by simp)
    rw [this]
    simp [add_comm]

/-- Three points on a line. -/
theorem orient_line {a b x y z : Pt} (hab : a ≠ b) (hx : orient a b x = 0) (hy : orient a b y = 0) (hz : orient a b z = 0) :
    orient x y z = 0 := by
  unfold orient at *
  have h1 : (b.1 - a.1) * ((y.1 - x.1) * (z.2 - x.2) - (y.2 - x.2) * (z.1 - x.1)) = 0 := by
    linear_combination (y.1 - x.1) * (hz - hx) - (z.1 - x.1) * (hy - hx)
  have h2 : (b.2 - a.2) * ((y.1 - x.1) * (z.2 - x.2) - (y.2 - x.2) * (z.1 - x.1)) = 0 := by
    linear_combination (y.2 - x.2) * (hz - hx) - (z.2 - x.2) * (hy - hx)
  rcases mul_eq_zero.1 h1 with e1 | e1
  · rcases mul_eq_zero.1 h2 with e2 | e2
    · exact absurd (Prod.ext (by linarith) (by linarith)) hab
    · exact e2
  · exact e1

namespace ConvexRing

variable {L : List Pt} (h : ConvexRing L)
include h

theorem pos {e : Seg} (he : e ∈ polyEdges L) : e.1 ≠ e.2 := h.simple.pos he

theorem out {e : Seg} (he : e ∈ polyEdges L) {p : Pt} (hp : 0 < orient e.1 e.2 p) : windingNumber L p = 0 := by
  have key : ∀ v, orient e.1 e.2 v = dotp (-(e.2.2 - e.1.2), e.2.1 - e.1.1) v - dotp (-(e.2.2 - e.1.2), e.2.1 - e.1.1) e.1 := by
    intro v; unfold orient dotp; ring
  refine winding_beyond (u := (-(e.2.2 - e.1.2), e.2.1 - e.1.1)) (k := dotp (-(e.2.2 - e.1.2), e.2.1 - e.1.1) e.1) (fun v hv => ?_) ?_
  · have := h.convex e he v hv
    rw [key] at this
    linarith
  · rw [key] at hp
    linarith

theorem inPoly_iff (p : Pt) : InPoly L p ↔ ∀ e ∈ polyEdges L, orient e.1 e.2 p < 0 := by
  constructor
  · intro hp e he
    have hle : ∀ q, InPoly L q → orient e.1 e.2 q ≤ 0 := fun q hq => by
      by_contra hc
      push Not at hc
      exact hq.2 (h.out he hc)
    refine lt_of_le_of_ne (hle p hp) fun h0 => ?_
    obtain ⟨ε, e0, hε⟩ := small_exists (inPoly_small hp (-(e.2.2 - e.1.2), e.2.1 - e.1.1))
    have h1 := hle _ hε
    have h2 : orient e.1 e.2 (p + ε • (-(e.2.2 - e.1.2), e.2.1 - e.1.1)) =
        orient e.1 e.2 p + ε * ((e.2.1 - e.1.1) ^ 2 + (e.2.2 - e.1.2) ^ 2) := by
      unfold orient
      simp only [Prod.fst_add, Prod.snd_add, Prod.smul_fst, Prod.smul_snd, smul_eq_mul]
      ring
    rw [h2, h0, zero_add] at h1
    have h3 : (e.2.1 - e.1.1) ^ 2 + (e.2.2 - e.1.2) ^ 2 ≤ 0 := by
      by_contra hc
      push Not at hc
      have := mul_pos e0 hc
      linarith
    exact h.pos he (Prod.ext (by nlinarith [sq_nonneg (e.2.1 - e.1.1), sq_nonneg (e.2.2 - e.1.2)])
      (by nlinarith [sq_nonneg (e.2.1 - e.1.1), sq_nonneg (e.2.2 - e.1.2)]))
  · intro hp
    refine ⟨fun ⟨e, he, ho⟩ => (hp e he).ne (onSeg_orient (a := e.1) (b := e.2) ho), ?_⟩
    have := Arr.loop_around h.simple.ne_nil hp
    omega

theorem middle {x y z : Pt} (hx : ∀ e ∈ polyEdges L, orient e.1 e.2 x ≤ 0) (hy : ∀ e ∈ polyEdges L, orient e.1 e.2 y ≤ 0)
    (hz : ∀ e ∈ polyEdges L, orient e.1 e.2 z ≤ 0) (hn : orient x y z ≠ 0) :
    InPoly L ((x.1 + y.1 + z.1) / 3, (x.2 + y.2 + z.2) / 3) := by
  refine (h.inPoly_iff _).2 fun e he => ?_
  have e1 : orient e.1 e.2 ((x.1 + y.1 + z.1) / 3, (x.2 + y.2 + z.2) / 3) =
      (orient e.1 e.2 x + orient e.1 e.2 y + orient e.1 e.2 z) / 3 := by unfold orient; ring
  have a := hx e he
  have b := hy e he
  have c := hz e he
  rw [e1]
  by_contra hc
  exact hn (orient_line (h.pos he) (by linarith) (by linarith) (by linarith))

/-- Three corners that are not on a line. -/
theorem corner : ∃ v ∈ L, ∃ e ∈ polyEdges L, orient v e.1 e.2 ≠ 0 := by
  obtain ⟨v, hv⟩ := List.exists_mem_of_ne_nil L h.simple.ne_nil
  refine ⟨v, hv, ?_⟩
  by_contra hc
  push Not at hc
  have h1 : ∀ e ∈ polyEdges L, cross e.1 e.2 = (fun w : Pt => cross v w) e.2 - (fun w : Pt => cross v w) e.1 := fun e he => by
    have := hc e he
    unfold orient at this
    unfold cross
    linear_combination this
  have := h.cw
  unfold shoelace at this
  rw [List.map_congr_left h1, loop_sum] at this
  norm_num at this

theorem inner : ∃ p, InPoly L p := by
  obtain ⟨v, hv, e, he, hn⟩ := h.corner
  exact ⟨_, h.middle (fun k hk => h.convex k hk v hv) (fun k hk => h.convex k hk _ (polyEdges_mem he).1)
    (fun k hk => h.convex k hk _ (polyEdges_mem he).2) hn⟩

theorem closed_iff (p : Pt) : InPoly L p ∨ OnBoundary L p ↔ ∀ e ∈ polyEdges L, orient e.1 e.2 p ≤ 0 := by
  constructor
  · rintro (hp | ⟨k, hk, t, t0, t1, rfl⟩) e he
    · exact ((h.inPoly_iff p).1 hp e he).le
    · rw [orient_on_edge]
      have a := h.convex e he _ (polyEdges_mem hk).1
      have b := h.convex e he _ (polyEdges_mem hk).2
      nlinarith
  · intro hp
    by_contra hc
    push Not at hc
    have ho : OutPoly L p := ⟨hc.2, by
      by_contra h0
      exact hc.1 ⟨hc.2, h0⟩⟩
    obtain ⟨o, hin⟩ := h.inner
    obtain ⟨ε, e0, e1, hε⟩ := small_exists ((small_lt 1 one_pos).and (outPoly_small ho (o - p)))
    have : InPoly L (p + ε • (o - p)) := by
      refine (h.inPoly_iff _).2 fun e he => ?_
      have a := hp e he
      have b := (h.inPoly_iff o).1 hin e he
      have e2 : orient e.1 e.2 (p + ε • (o - p)) = (1 - ε) * orient e.1 e.2 p + ε * orient e.1 e.2 o := by
        unfold orient
        simp only [Prod.fst_add, Prod.snd_add, Prod.fst_sub, Prod.snd_sub, Prod.smul_fst, Prod.smul_snd, smul_eq_mul]
        ring
      rw [e2]
      have := mul_nonpos_of_nonneg_of_nonpos (sub_nonneg.2 e1.le) a
      have := mul_neg_of_pos_of_neg e0 b
      linarith
    exact this.2 hε.2

/-- In each direction some edge leads to the left of it. -/
theorem leads {w : Pt} (hw : w ≠ 0) : ∃ e ∈ polyEdges L, 0 < cross (dir e) w := by
  by_contra hc
  push Not at hc
  obtain ⟨o, hin⟩ := h.inner
  have far : ∀ t : ℚ, 0 ≤ t → InPoly L (o + t • w) := fun t ht => by
    refine (h.inPoly_iff _).2 fun e he => ?_
    have e2 : orient e.1 e.2 (o + t • w) = orient e.1 e.2 o + t * cross (dir e) w := by
      unfold orient cross dir
      simp only [Prod.fst_add, Prod.snd_add, Prod.smul_fst, Prod.smul_snd, smul_eq_mul]
      ring
    rw [e2]
    have := (h.inPoly_iff o).1 hin e he
    have := mul_nonpos_of_nonneg_of_nonpos ht (hc e he)
    linarith
  obtain ⟨k, hk⟩ : ∃ k : ℚ, ∀ v ∈ L, dotp w v ≤ k := by
    refine ⟨(L.map fun v => |dotp w v|).sum, fun v hv => (le_abs_self _).trans ?_⟩
    exact List.single_le_sum (by
      intro x hx
      obtain ⟨u, -, rfl⟩ := List.mem_map.1 hx
      exact abs_nonneg _) _ (List.mem_map.2 ⟨v, hv, rfl⟩)
  have hpos : 0 < dotp w w := by
    have : 0 ≤ dotp w w := by unfold dotp; nlinarith [sq_nonneg w.1, sq_nonneg w.2]
    refine lt_of_le_of_ne this fun h0 => hw ?_
    unfold dotp at h0
    exact Prod.ext (by simp only [Prod.fst_zero]; nlinarith [sq_nonneg w.1, sq_nonneg w.2])
      (by simp only [Prod.snd_zero]; nlinarith [sq_nonneg w.1, sq_nonneg w.2])
  obtain ⟨t, ht⟩ : ∃ t, t = (|k - dotp w o| + 1) / dotp w w := ⟨_, rfl⟩
  have t0 : 0 ≤ t := by rw [ht]; positivity
  refine (far t t0).2 (winding_beyond hk ?_)
  have e1 : dotp w (o + t • w) = dotp w o + t * dotp w w := by
    unfold dotp
    simp only [Prod.fst_add, Prod.snd_add, Prod.smul_fst, Prod.smul_snd, smul_eq_mul]
    ring
  rw [e1, ht, div_mul_cancel₀ _ hpos.ne']
  have := le_abs_self (k - dotp w o)
  linarith

end ConvexRing

end Ply
