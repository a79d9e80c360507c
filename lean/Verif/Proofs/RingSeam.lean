import Verif.Proofs.PlateNet

/-!
# Where two rings touch along one straight stretch
-/

namespace Ply.Arr

open CellMerger Filter Topology
open Relation (ReflTransGen)

/-- The point is an end of a half-edge. -/
def Vert (A : Arrangement) (u : Pt) : Prop := ∃ z, (u, z) ∈ A.net.halfEdges

/-- What the touching stretch from `x` to `y` looks like: along it the first ring goes from `x` to `y` and the other back. -/
structure Stretch (A : Arrangement) (R S : List Pt) (x y : Pt) : Prop where
  ne : x ≠ y
  vx : Vert A x
  vy : Vert A y
  up : ∀ u, Vert A u → OnSeg (x, y) u → u ≠ y → ∃ w, Al A R u w ∧ Al A S w u
  down : ∀ u, Vert A u → OnSeg (x, y) u → u ≠ x → ∃ w, Al A R w u ∧ Al A S u w
  first : ∀ w, ¬ (Al A R w x ∧ Al A S x w)
  last : ∀ w, ¬ (Al A R y w ∧ Al A S w y)

theorem Stretch.swap {A : Arrangement} {R S : List Pt} {x y : Pt} (h : Stretch A S R x y) : Stretch A R S y x where
  ne := h.ne.symm
  vx := h.vy
  vy := h.vx
  up := fun u hu hs hn => by
    obtain ⟨w, h1, h2⟩ := h.down u hu ((onSeg_rev _ _).2 hs) hn
    exact ⟨w, h2, h1⟩
  down := fun u hu hs hn => by
    obtain ⟨w, h1, h2⟩ := h.up u hu ((onSeg_rev _ _).2 hs) hn
    exact ⟨w, h2, h1⟩
  first := fun w hw => h.last w hw.symm
  last := fun w hw => h.first w hw.symm

section
variable {A : Arrangement} {Ls : List (List Pt)} (hR : RingNet A Ls) {R S : List Pt} (hr : R ∈ Ls) (hs : S ∈ Ls) (hne : R ≠ S)
  {k : Seg} (hk : k.1 ≠ k.2) (hK : ∀ p, OnBoundary R p ∧ OnBoundary S p ↔ OnSeg k p)
include hR hr hs hne

/-- Two rings do not go the same way along a half-edge. -/
theorem not_same_way {u v : Pt} (h1 : Al A R u v) : ¬ Al A S u v := by
  exact fun h2 => hne (hR.way R hr S hs u v h1 h2)

include hK

theorem on_both {h : Seg} (hh : h ∈ A.net.halfEdges) {t : ℚ} (t0 : 0 < t) (t1 : t < 1) (hx : OnSeg k (along h t)) :
    (Al A R h.1 h.2 ∧ Al A S h.2 h.1) ∨ (Al A R h.2 h.1 ∧ Al A S h.1 h.2) := by
  obtain ⟨b1, b2⟩ := (hK _).2 hx
  rcases al_of_inner hR.toLoopNet hr hh t0 t1 b1 with h1 | h1 <;> rcases al_of_inner hR.toLoopNet hs hh t0 t1 b2 with h2 | h2
  · exact absurd h2 (not_same_way hR hr hs hne h1)
  · exact Or.inl ⟨h1, h2⟩
  · exact Or.inr ⟨h1, h2⟩
  · exact absurd h2 (not_same_way hR hr hs hne h1)

include hk

/-- From a vertex on the stretch a half-edge goes on along it. -/
theorem next_up {s : ℚ} (s0 : 0 ≤ s) (s1 : s < 1) (hv : Vert A (along k s) ∨ s = 0) :
    ∃ b, s < b ∧ b ≤ 1 ∧ ((Al A R (along k s) (along k b) ∧ Al A S (along k b) (along k s)) ∨
      (Al A R (along k b) (along k s) ∧ Al A S (along k s) (along k b))) := by
  have hP := hR.built.planar
  have hd : dir k ≠ 0 := by
    intro hc
    apply hk
    have h1 := congrArg Prod.fst hc
    have h2 := congrArg Prod.snd hc
    unfold dir at h1 h2
    simp only [Prod.fst_zero, Prod.snd_zero] at h1 h2
    exact Prod.ext (by linarith) (by linarith)
  obtain ⟨ε, e0, h1, h2⟩ := small_exists ((near_point A.net.halfEdges (along k s) (dir k) hd).and (small_lt (1 - s) (by linarith)))
  have he : along k s + ε • dir k = along k (s + ε) := by
    rw [along_eq, along_eq, add_smul, add_assoc]
  rw [he] at h1
  have hin : OnSeg k (along k (s + ε)) := ⟨s + ε, by linarith, by linarith, rfl⟩
  obtain ⟨h, hh, hx⟩ := (hR.on _).2 ⟨R, hr, ((hK _).2 hin).1⟩
  obtain ⟨⟨τ, τ0, τ1, eτ⟩, t, t0, t1, ht⟩ := h1 h hh hx
  have hb := on_both hR hr hs hne hK hh t0 t1 (ht ▸ hin)
  have ends : OnSeg k h.1 ∧ OnSeg k h.2 := by
    rcases hb with ⟨b1, b2⟩ | ⟨b1, b2⟩
    · exact ⟨(hK _).1 ⟨b1.left, b2.right⟩, (hK _).1 ⟨b1.right, b2.left⟩⟩
    · exact ⟨(hK _).1 ⟨b1.right, b2.left⟩, (hK _).1 ⟨b1.left, b2.right⟩⟩
  obtain ⟨⟨a, a0, a1, ea⟩, b, b0, b1, eb⟩ := ends
  have hab : a ≠ b := fun hc => hP.ne h hh (by rw [ea, eb, hc])
  have hh' : h = (along k a, along k b) := Prod.ext ea eb
  have q1 : s = a + τ * (b - a) := by
    rw [hh', along_along] at eτ; exact along_inj hk eτ
  have q2 : s + ε = a + t * (b - a) := by
    rw [hh', along_along] at ht; exact along_inj hk ht
  have hτ : τ = 0 ∨ τ = 1 := by
    by_contra hc
    push Not at hc
    have τ0' := lt_of_le_of_ne τ0 hc.1.symm
    have τ1' := lt_of_le_of_ne τ1 hc.2
    rcases hv with ⟨z, hz⟩ | rfl
    · rcases hP.inner hh τ0' τ1' hz (by rw [← eτ]; exact onSeg_left _) with e | e
      · have := congrArg Prod.fst e
        dsimp only at this
        rw [this, ← along_zero h] at eτ
        exact hc.1 (along_inj (hP.ne h hh) eτ).symm
      · have := congrArg Prod.fst e
        dsimp only at this
        rw [this, ← along_one h] at eτ
        exact hc.2 (along_inj (hP.ne h hh) eτ).symm
    · have : (1 - τ) * a + τ * b = 0 := by linarith
      have h1 := mul_nonneg (sub_pos.2 τ1').le a0
      have h2 := mul_nonneg τ0'.le b0
      have h3 : (1 - τ) * a = 0 := by linarith
      have h4 : τ * b = 0 := by linarith
      have h5 := (mul_eq_zero.1 h3).resolve_left (sub_pos.2 τ1').ne'
      have h6 := (mul_eq_zero.1 h4).resolve_left τ0'.ne'
      exact hab (h5.trans h6.symm)
  rw [ea, eb] at hb
  rcases hτ with rfl | rfl
  · have : s = a := by linarith
    subst this
    refine ⟨b, ?_, b1, hb⟩
    have : 0 < t * (b - s) := by linarith
    have := (mul_pos_iff_of_pos_left t0).1 this
    linarith
  · have : s = b := by linarith
    subst this
    refine ⟨a, ?_, a1, hb.symm⟩
    have : 0 < (1 - t) * (a - s) := by linarith
    have := (mul_pos_iff_of_pos_left (sub_pos.2 t1)).1 this
    linarith

theorem next_down {s : ℚ} (s0 : 0 < s) (s1 : s ≤ 1) (hv : Vert A (along k s) ∨ s = 1) :
    ∃ b, 0 ≤ b ∧ b < s ∧ ((Al A R (along k s) (along k b) ∧ Al A S (along k b) (along k s)) ∨
      (Al A R (along k b) (along k s) ∧ Al A S (along k s) (along k b))) := by
  have e : ∀ t, along (k.2, k.1) t = along k (1 - t) := fun t => along_rev k t
  obtain ⟨b, b1, b2, h⟩ := next_up hR hr hs hne (k := (k.2, k.1)) hk.symm (fun p => (hK p).trans (onSeg_rev _ _).symm)
    (s := 1 - s) (by linarith) (by linarith) (by
      rcases hv with hv | hv
      · left; rw [e, sub_sub_cancel]; exact hv
      · right; linarith)
  rw [e, e, sub_sub_cancel] at h
  exact ⟨1 - b, by linarith, by linarith, h⟩

/-- When the first ring starts from `x` along the stretch, it goes all along it. -/
theorem stretch_of {z : Pt} (hz : Al A R k.1 z) (hz' : Al A S z k.1) : Stretch A R S k.1 k.2 := by
  have hP := hR.built.planar
  have kin : ∀ {u w : Pt}, Al A R u w → Al A S w u → OnSeg k u ∧ OnSeg k w := fun h1 h2 =>
    ⟨(hK _).1 ⟨h1.left, h2.right⟩, (hK _).1 ⟨h1.right, h2.left⟩⟩
  -- nothing goes down
  have good : ∀ a b, 0 ≤ a → a < b → b ≤ 1 → ¬ (Al A R (along k b) (along k a) ∧ Al A S (along k a) (along k b)) := by
    intro a₀ b₀ h1 h2 h3 h4
    have hfin : {c : ℚ | ∃ h ∈ A.net.halfEdges, h.1 = along k c}.Finite := by
      refine Set.Finite.subset (Set.Finite.preimage (f := along k) (fun a _ b _ h => along_inj hk h)
        (List.finite_toSet (A.net.halfEdges.map Prod.fst))) ?_
      rintro c ⟨h, hh, e1⟩
      exact List.mem_map.2 ⟨h, hh, e1⟩
    have hfin' : {c : ℚ | (∃ h ∈ A.net.halfEdges, h.1 = along k c) ∧ 0 ≤ c ∧ ∃ b, c < b ∧ b ≤ 1 ∧
        Al A R (along k b) (along k c) ∧ Al A S (along k c) (along k b)}.Finite := hfin.subset fun c hc => hc.1
    obtain ⟨m, ⟨-, m0, b, mb, b1, hR1, hS1⟩, hmin⟩ := hfin'.exists_minimalFor id _ ⟨a₀, ⟨_, h4.2.mem, rfl⟩, h1, b₀, h2, h3, h4⟩
    rcases eq_or_lt_of_le m0 with rfl | m0
    · obtain ⟨c, c0, c1, ec⟩ := (kin hz hz').2
      rw [along_zero] at hR1 hS1
      have hc : 0 < c := by
        refine lt_of_le_of_ne c0 ?_
        rintro rfl
        rw [along_zero] at ec
        exact hP.ne _ hz.mem ec.symm
      have : along k c = along k b := by
        refine sameWay_eq hP (v := along k 0) ?_ ?_ (sameWay_along (Or.inl ⟨hc, mb⟩))
        · rw [along_zero, ← ec]; exact hz.mem
        · rw [along_zero]; exact hS1.mem
      rw [ec, this] at hz
      exact al_not_both hR.toLoopNet hr hz hR1
    · obtain ⟨c, c0, cm, h | h⟩ := next_down hR hr hs hne hk hK m0 (by linarith) (Or.inl ⟨_, hS1.mem⟩)
      · have := hmin (j := c) ⟨⟨_, h.2.mem, rfl⟩, c0, m, cm, by linarith, h⟩ cm.le
        exact absurd this (not_le.2 cm)
      · have := along_inj hk (al_inn hR.toLoopNet hr hR1 h.1)
        linarith
  have up : ∀ s, 0 ≤ s → s < 1 → (Vert A (along k s) ∨ s = 0) → ∃ w, Al A R (along k s) w ∧ Al A S w (along k s) := by
    intro s s0 s1 hv
    obtain ⟨b, h1, h2, h | h⟩ := next_up hR hr hs hne hk hK s0 s1 hv
    · exact ⟨_, h⟩
    · exact absurd h (good s b s0 h1 h2)
  have down : ∀ s, 0 < s → s ≤ 1 → (Vert A (along k s) ∨ s = 1) → ∃ w, Al A R w (along k s) ∧ Al A S (along k s) w := by
    intro s s0 s1 hv
    obtain ⟨b, h1, h2, h | h⟩ := next_down hR hr hs hne hk hK s0 s1 hv
    · exact absurd h (good b s h1 h2 s1)
    · exact ⟨_, h⟩
  refine ⟨hk, ⟨_, hz.mem⟩, ?_, ?_, ?_, ?_, ?_⟩
  · obtain ⟨w, -, h⟩ := down 1 one_pos le_rfl (Or.inr rfl)
    rw [along_one] at h
    exact ⟨w, h.mem⟩
  · rintro u hu ⟨s, s0, s1, rfl⟩ hn
    refine up s s0 (lt_of_le_of_ne s1 ?_) (Or.inl hu)
    rintro rfl
    exact hn (along_one _)
  · rintro u hu ⟨s, s0, s1, rfl⟩ hn
    refine down s (lt_of_le_of_ne s0 ?_) s1 (Or.inl hu)
    rintro rfl
    exact hn (along_zero _)
  · rintro w ⟨h1, h2⟩
    obtain ⟨s, s0, s1, rfl⟩ := (kin h1 h2).1
    rw [← along_zero k] at h1 h2
    refine good 0 s le_rfl (lt_of_le_of_ne s0 ?_) s1 ⟨h1, h2⟩
    rintro rfl
    exact hP.ne _ h1.mem rfl
  · rintro w ⟨h1, h2⟩
    obtain ⟨s, s0, s1, rfl⟩ := (kin h1 h2).2
    rw [← along_one k] at h1 h2
    refine good s 1 s0 (lt_of_le_of_ne s1 ?_) le_rfl ⟨h1, h2⟩
    rintro rfl
    exact hP.ne _ h1.mem rfl

/-- Two rings that touch along a straight stretch go along it in opposite ways. -/
theorem stretch : Stretch A R S k.1 k.2 ∨ Stretch A R S k.2 k.1 := by
  obtain ⟨b, b1, b2, ⟨h1, h2⟩ | ⟨h1, h2⟩⟩ := next_up hR hr hs hne hk hK (s := 0) le_rfl one_pos (Or.inr rfl)
  · rw [along_zero] at h1 h2
    exact Or.inl (stretch_of hR hr hs hne hk hK h1 h2)
  · rw [along_zero] at h1 h2
    exact Or.inr (stretch_of hR hs hr hne.symm hk (fun p => and_comm.trans (hK p)) h2 h1).swap

end

end Ply.Arr
