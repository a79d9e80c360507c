import Verif.Proofs.RibbonLoop
import Verif.Proofs.Jump

/-! # Outlines -/

namespace Ply

open Filter Topology

theorem eventually_right {P : ℚ → Prop} : (∀ᶠ ε in 𝓝[>] (0 : ℚ), P ε) ↔ ∃ δ : ℚ, 0 < δ ∧ ∀ ε, 0 < ε → ε < δ → P ε := by
  rw [Filter.Eventually, mem_nhdsGT_iff_exists_Ioo_subset]
  constructor
  · rintro ⟨δ, hδ, h⟩; exact ⟨δ, hδ, fun ε h0 h1 => h ⟨h0, h1⟩⟩
  · rintro ⟨δ, hδ, h⟩; exact ⟨δ, hδ, fun ε hε => h ε hε.1 hε.2⟩

theorem Outline.sides {L : List Pt} (h : Outline L) : Sides L 0 (-1) where
  ne := by decide
  nd e he hd := h.pos e he (by
    have : e.2 - e.1 = 0 := hd
    exact (sub_eq_zero.1 this).symm)
  inner := h.inner
  left e he s s0 s1 u hu := eventually_right.2 (h.left e he s s0 s1 u hu)
  right e he s s0 s1 u hu := eventually_right.2 (h.right e he s s0 s1 u hu)

theorem Sides.outline {L : List Pt} (h : Sides L 0 (-1)) : Outline L where
  pos e he hd := h.nd e he (by
    have : e.2 - e.1 = 0 := by rw [hd, sub_self]
    exact this)
  inner := h.inner
  left e he s s0 s1 u hu := eventually_right.1 (h.left e he s s0 s1 u hu)
  right e he s s0 s1 u hu := eventually_right.1 (h.right e he s s0 s1 u hu)

theorem Sides.reverse {L : List Pt} {a b : ℤ} (h : Sides L a b) : Sides L.reverse (-b) (-a) where
  ne := fun e => h.ne (by omega)
  nd e he hd := h.nd _ (mem_reverse_edges.1 he) (by
    have : e.2 - e.1 = 0 := hd
    change e.1 - e.2 = 0
    rw [← neg_sub, this, neg_zero])
  inner e he e' he' s s0 s1 ho := by
    have := h.inner _ (mem_reverse_edges.1 he) _ (mem_reverse_edges.1 he') (1 - s) (by linarith) (by linarith) (by
      rw [onSeg_rev, along_rev, sub_sub_cancel]; exact ho)
    rw [Prod.mk.injEq] at this
    exact Prod.ext this.2 this.1
  left e he s s0 s1 u hu := by
    have := h.right _ (mem_reverse_edges.1 he) (1 - s) (by linarith) (by linarith) u (by
      have : dir (e.2, e.1) = -dir e := by unfold dir; simp
      rw [this, cross_neg_left]; linarith)
    filter_upwards [this] with ε hε
    rw [windingNumber_reverse, ← hε, along_rev, sub_sub_cancel]
  right e he s s0 s1 u hu := by
    have := h.left _ (mem_reverse_edges.1 he) (1 - s) (by linarith) (by linarith) u (by
      have : dir (e.2, e.1) = -dir e := by unfold dir; simp
      rw [this, cross_neg_left]; linarith)
    filter_upwards [this] with ε hε
    rw [windingNumber_reverse, ← hε, along_rev, sub_sub_cancel]

/-- The edges of a loop in both directions. -/
def bothWays (L : List Pt) : List Seg := polyEdges L ++ (polyEdges L).map Prod.swap

theorem mem_bothWays {L : List Pt} {e : Seg} : e ∈ bothWays L ↔ e ∈ polyEdges L ∨ (e.2, e.1) ∈ polyEdges L := by
  unfold bothWays
  rw [List.mem_append, List.mem_map]
  refine or_congr_right ⟨?_, fun h => ⟨_, h, rfl⟩⟩
  rintro ⟨x, hx, rfl⟩; exact hx

theorem onAny_bothWays {L : List Pt} {p : Pt} : OnAny (bothWays L) p ↔ OnBoundary L p := by
  constructor
  · rintro ⟨e, he, h⟩
    rcases mem_bothWays.1 he with he | he
    · exact ⟨e, he, h⟩
    · exact ⟨_, he, (onSeg_rev e p).2 h⟩
  · rintro ⟨e, he, h⟩
    exact ⟨e, mem_bothWays.2 (Or.inl he), h⟩

theorem onSeg_ends {e : Seg} {x : Pt} (h : OnSeg e x) : x = e.1 ∨ x = e.2 ∨ ∃ s : ℚ, 0 < s ∧ s < 1 ∧ x = along e s := by
  obtain ⟨s, s0, s1, rfl⟩ := h
  rcases s0.eq_or_lt with h | s0
  · left; rw [← h, along_zero]
  rcases s1.eq_or_lt with h | s1
  · right; left; rw [h, along_one]
  exact Or.inr (Or.inr ⟨s, s0, s1, rfl⟩)

theorem Sides.planar {L : List Pt} {a b : ℤ} (h : Sides L a b) : Planar (bothWays L) := by
  have hne : ∀ e ∈ polyEdges L, e.1 ≠ e.2 := fun e he hd => h.nd e he (by
    change e.2 - e.1 = 0
    rw [hd, sub_self])
  refine ⟨fun e he => mem_bothWays.2 (mem_bothWays.1 he).symm, fun e he => ?_, ?_⟩
  · rcases mem_bothWays.1 he with he | he
    · exact hne e he
    · exact (hne _ he).symm
  · have base : ∀ e ∈ polyEdges L, ∀ k ∈ polyEdges L, ∀ x, OnSeg e x → OnSeg k x →
        k = e ∨ ((x = e.1 ∨ x = e.2) ∧ (x = k.1 ∨ x = k.2)) := by
      intro e he k hk x h1 h2
      rcases onSeg_ends h1 with a | a | ⟨s, s0, s1, a⟩
      · rcases onSeg_ends h2 with b | b | ⟨s, s0, s1, b⟩
        · exact Or.inr ⟨Or.inl a, Or.inl b⟩
        · exact Or.inr ⟨Or.inl a, Or.inr b⟩
        · exact Or.inl (h.inner k hk e he s s0 s1 (b ▸ h1)).symm
      · rcases onSeg_ends h2 with b | b | ⟨s, s0, s1, b⟩
        · exact Or.inr ⟨Or.inr a, Or.inl b⟩
        · exact Or.inr ⟨Or.inr a, Or.inr b⟩
        · exact Or.inl (h.inner k hk e he s s0 s1 (b ▸ h1)).symm
      · exact Or.inl (h.inner e he k hk s s0 s1 (a ▸ h2))
    intro e he k hk x h1 h2
    have sw : ∀ {e k : Seg}, (e.2, e.1) = k → e = (k.2, k.1) := by rintro e _ rfl; rfl
    rcases mem_bothWays.1 he with he | he <;> rcases mem_bothWays.1 hk with hk | hk
    · rcases base _ he _ hk x h1 h2 with c | c
      · exact Or.inl (Or.inl c)
      · exact Or.inr c
    · rcases base _ he _ hk x h1 ((onSeg_rev k x).2 h2) with c | c
      · exact Or.inl (Or.inr (sw c))
      · exact Or.inr ⟨c.1, c.2.symm⟩
    · rcases base _ he _ hk x ((onSeg_rev e x).2 h1) h2 with c | c
      · exact Or.inl (Or.inr c)
      · exact Or.inr ⟨c.1.symm, c.2⟩
    · rcases base _ he _ hk x ((onSeg_rev e x).2 h1) ((onSeg_rev k x).2 h2) with c | c
      · exact Or.inl (Or.inl (by rw [Prod.mk.injEq] at c; exact Prod.ext c.2 c.1))
      · exact Or.inr ⟨c.1.symm, c.2.symm⟩

theorem SameFace.winding {H : List Seg} {L : List Pt} (hL : ∀ e ∈ polyEdges L, e ∈ H) {p q : Pt} (h : SameFace H p q) :
    windingNumber L p = windingNumber L q := by
  exact h L fun e he x hx => ⟨e, hL e he, hx⟩

/-- The winding number off an outline is that of one of its sides. -/
theorem Sides.winding {L : List Pt} {a b : ℤ} (h : Sides L a b) (hL : L ≠ []) {p : Pt} (hp : ¬ OnBoundary L p) :
    windingNumber L p = a ∨ windingNumber L p = b := by
  have hne : bothWays L ≠ [] := by
    obtain ⟨v, hv⟩ := List.exists_mem_of_ne_nil L hL
    obtain ⟨e, he, _⟩ := polyEdges_fst hv
    exact List.ne_nil_of_mem (mem_bothWays.2 (Or.inl he))
  obtain ⟨k, hk, q, hpq, t, v, t0, t1, hv, rfl, hτ⟩ := sees_exists h.planar hne (fun h => hp (onAny_bothWays.1 h))
  rw [hpq.winding fun e he => mem_bothWays.2 (Or.inl he)]
  have near : ∀ ε : ℚ, 0 < ε → ε ≤ 1 → windingNumber L (along k t + v) = windingNumber L (along k t + ε • v) := fun ε e0 e1 =>
    (same_near hτ e0 e1).winding fun e he => mem_bothWays.2 (Or.inl he)
  rcases mem_bothWays.1 hk with hk | hk
  · obtain ⟨ε, e0, hw, e1⟩ := small_exists ((h.right k hk t t0 t1 v hv).and (small_lt 1 one_pos))
    exact Or.inr (by rw [near ε e0 e1.le, hw])
  · have hv' : 0 < cross (dir (k.2, k.1)) v := by
      have : dir (k.2, k.1) = -dir k := by unfold dir; simp
      rw [this, cross_neg_left]; linarith
    obtain ⟨ε, e0, hw, e1⟩ := small_exists ((h.left _ hk (1 - t) (by linarith) (by linarith) v hv').and (small_lt 1 one_pos))
    rw [along_rev, sub_sub_cancel] at hw
    exact Or.inl (by rw [near ε e0 e1.le, hw])

theorem Outline.forward {L : List Pt} (h : Outline L) : Forward L where
  pos := h.pos
  same e he e' he' s s' s0 s1 s0' s1' heq k hk := by
    have : e' = e := h.inner e he e' he' s s0 s1 ⟨s', s0'.le, s1'.le, heq⟩
    subst this
    have hd := dir_ne (h.pos _ he)
    have : (1 - k) • dir e' = 0 := by rw [sub_smul, one_smul, ← hk, sub_self]
    have := (smul_eq_zero.1 this).resolve_right hd
    linarith

end Ply
