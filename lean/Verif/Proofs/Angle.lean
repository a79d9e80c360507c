import Verif.Proofs.Frangle
import Verif.Spec.Plane
import Mathlib.Algebra.Module.Prod
import Mathlib.Algebra.Module.Rat
import Mathlib.Tactic.Linarith
import Mathlib.Tactic.LinearCombination

/-!
# Directions as fractional angles

Clockwise differences of fractional angles, and the arithmetic of the corners of a polygon touched by a
convex polygon.
-/

namespace Ply

/-- Fractional angle of a vector; zero for the zero vector. -/
def ang (u : Pt) : ℚ :=
  match vectorFrangle u with
  | .ok f => f
  | .error _ => 0

/-- How far to turn clockwise from `a` to `b`, both in `[0, 8)`. -/
def cw (a b : ℚ) : ℚ := if a ≤ b then b - a else b - a + 8

theorem ne_zero_iff (u : Pt) : u ≠ 0 ↔ u.1 ≠ 0 ∨ u.2 ≠ 0 := by
  rw [Ne, Prod.ext_iff, not_and_or]; rfl

theorem ang_spec {u : Pt} (hu : u ≠ 0) :
    vectorFrangle u = .ok (ang u) ∧ 0 ≤ ang u ∧ ang u < 8 ∧
      ∃ k : ℚ, 0 < k ∧ u = scale k (frangleUnitSquareVector (ang u)) := by
  obtain ⟨k, f, hk, h0, h8, e⟩ := exists_gsv u ((ne_zero_iff u).1 hu)
  have : vectorFrangle u = .ok f := by rw [e, frangle_scale hk, frangle_gsv h0 h8]
  have ha : ang u = f := by unfold ang; rw [this]
  rw [ha]
  exact ⟨this, h0, h8, k, hk, e⟩

theorem ang_range {u : Pt} (hu : u ≠ 0) : 0 ≤ ang u ∧ ang u < 8 := ⟨(ang_spec hu).2.1, (ang_spec hu).2.2.1⟩

theorem cw_range {a b : ℚ} (ha : 0 ≤ a ∧ a < 8) (hb : 0 ≤ b ∧ b < 8) : 0 ≤ cw a b ∧ cw a b < 8 := by
  unfold cw; split_ifs <;> constructor <;> linarith [ha.1, ha.2, hb.1, hb.2]

theorem cw_self (a : ℚ) : cw a a = 0 := by unfold cw; simp

theorem cw_eq_zero {a b : ℚ} (ha : 0 ≤ a ∧ a < 8) (hb : 0 ≤ b ∧ b < 8) : cw a b = 0 ↔ a = b := by
  unfold cw
  obtain ⟨a0, a8⟩ := ha
  obtain ⟨b0, b8⟩ := hb
  constructor
  · intro h; split_ifs at h <;> linarith
  · rintro rfl; simp

theorem pyMod_sub {a b : ℚ} (ha : 0 ≤ a ∧ a < 8) (hb : 0 ≤ b ∧ b < 8) : pyMod (b - a) 8 = cw a b := by
  obtain ⟨a0, a8⟩ := ha
  obtain ⟨b0, b8⟩ := hb
  unfold cw
  split_ifs with h
  · exact pyMod_of_range (by linarith) (by linarith)
  · exact pyMod_eq_iff (by linarith) (by linarith) (-1) (by push_cast; ring)

/-- A vector with a given angle. -/
theorem ang_gsv {f : ℚ} (h0 : 0 ≤ f) (h8 : f < 8) :
    ang (frangleUnitSquareVector f) = f ∧ frangleUnitSquareVector f ≠ 0 := by
  have := frangle_gsv h0 h8
  refine ⟨by unfold ang; rw [this], ?_⟩
  intro h
  rw [h] at this
  unfold vectorFrangle at this
  simp at this

theorem scale_smul (k : ℚ) (v : Pt) : scale k v = k • v := by
  unfold scale; ext <;> simp

theorem cross_scale (k l : ℚ) (u v : Pt) : cross (scale k u) (scale l v) = k * l * cross u v := by
  unfold cross scale; dsimp only; ring

/-- The sign of the cross product. -/
theorem cross_cw {u w : Pt} (hu : u ≠ 0) (hw : w ≠ 0) :
    (cross u w < 0 ↔ 0 < cw (ang u) (ang w) ∧ cw (ang u) (ang w) < 4) ∧
    (cross u w = 0 ↔ cw (ang u) (ang w) = 0 ∨ cw (ang u) (ang w) = 4) ∧
    (0 < cross u w ↔ 4 < cw (ang u) (ang w)) := by
  obtain ⟨_, a0, a8, k, hk, eu⟩ := ang_spec hu
  obtain ⟨_, b0, b8, l, hl, ew⟩ := ang_spec hw
  set a := ang u
  set b := ang w
  have hkl : 0 < k * l := mul_pos hk hl
  have key : (0 < cw a b ∧ cw a b < 4 → cross u w < 0) ∧ (cw a b = 0 ∨ cw a b = 4 → cross u w = 0) ∧
      (4 < cw a b → 0 < cross u w) := by
    rw [eu, ew, cross_scale]
    unfold cw
    rcases le_or_gt a b with h | h
    · rw [if_pos h]
      obtain ⟨c1, c2, c3⟩ := gsv_cross a0 h b8
      refine ⟨fun h' => mul_neg_of_pos_of_neg hkl (c2 (by linarith) (by linarith)), fun h' => ?_,
        fun h' => mul_pos hkl (c3 (by linarith))⟩
      rw [c1 (by rcases h' with h' | h'; exacts [Or.inl (by linarith), Or.inr (by linarith)]), mul_zero]
    · rw [if_neg (not_le.2 h)]
      obtain ⟨c1, c2, c3⟩ := gsv_cross b0 h.le a8
      have hs : cross (frangleUnitSquareVector a) (frangleUnitSquareVector b) =
          -cross (frangleUnitSquareVector b) (frangleUnitSquareVector a) := by unfold cross; ring
      rw [hs]
      refine ⟨fun h' => ?_, fun h' => ?_, fun h' => ?_⟩
      · have := c3 (by linarith)
        exact mul_neg_of_pos_of_neg hkl (by linarith)
      · rw [c1 (by rcases h' with h' | h'; exacts [Or.inl (by linarith), Or.inr (by linarith)])]; ring
      · have := c2 h (by linarith)
        exact mul_pos hkl (by linarith)
  obtain ⟨k1, k2, k3⟩ := key
  have hc := cw_range ⟨a0, a8⟩ ⟨b0, b8⟩
  refine ⟨⟨fun h => ?_, k1⟩, ⟨fun h => ?_, k2⟩, ⟨fun h => ?_, k3⟩⟩
  · rcases lt_trichotomy (cw a b) 4 with c | c | c
    · refine ⟨lt_of_le_of_ne hc.1 fun e => ?_, c⟩
      have := k2 (Or.inl e.symm)
      linarith
    · have := k2 (Or.inr c); linarith
    · have := k3 c; linarith
  · rcases lt_trichotomy (cw a b) 4 with c | c | c
    · left
      by_contra hne
      have := k1 ⟨lt_of_le_of_ne hc.1 (Ne.symm hne), c⟩
      linarith
    · exact Or.inr c
    · have := k3 c; linarith
  · rcases lt_trichotomy (cw a b) 4 with c | c | c
    · exfalso
      rcases eq_or_lt_of_le hc.1 with e | e
      · have := k2 (Or.inl e.symm); linarith
      · have := k1 ⟨e, c⟩; linarith
    · have := k2 (Or.inr c); linarith
    · exact c

/-- Equal angles mean positive multiples. -/
theorem ang_eq {u w : Pt} (hu : u ≠ 0) (hw : w ≠ 0) (h : ang u = ang w) : ∃ k : ℚ, 0 < k ∧ w = k • u := by
  obtain ⟨_, _, _, k, hk, eu⟩ := ang_spec hu
  obtain ⟨_, _, _, l, hl, ew⟩ := ang_spec hw
  refine ⟨l / k, div_pos hl hk, ?_⟩
  conv_rhs => rw [eu]
  rw [ew, ← h, scale_smul, scale_smul, smul_smul, div_mul_cancel₀ _ hk.ne']

theorem ang_smul {u : Pt} {k : ℚ} (hk : 0 < k) : ang (k • u) = ang u := by
  unfold ang; rw [← scale_smul, frangle_scale hk]

theorem cw_neg {u : Pt} (hu : u ≠ 0) : cw (ang u) (ang (-u)) = 4 := by
  have hn : -u ≠ 0 := neg_ne_zero.2 hu
  have h := (cross_cw hu hn).2.1.1 (by unfold cross; simp only [Prod.fst_neg, Prod.snd_neg]; ring)
  rcases h with h | h
  · rw [cw_eq_zero (ang_range hu) (ang_range hn)] at h
    obtain ⟨k, hk, e⟩ := ang_eq hu hn h
    exfalso
    have e1 := congrArg Prod.fst e
    have e2 := congrArg Prod.snd e
    simp only [Prod.fst_neg, Prod.snd_neg, Prod.smul_fst, Prod.smul_snd, smul_eq_mul] at e1 e2
    apply hu
    have z1 : (k + 1) * u.1 = 0 := by linarith
    have z2 : (k + 1) * u.2 = 0 := by linarith
    have hk1 : k + 1 ≠ 0 := by linarith
    exact Prod.ext ((mul_eq_zero.1 z1).resolve_left hk1) ((mul_eq_zero.1 z2).resolve_left hk1)
  · exact h

/-! ### Arithmetic of touching corners -/

/-- Turning everything so that `f` becomes zero. -/
theorem cw_turn {f a b : ℚ} (hf : 0 ≤ f ∧ f < 8) (ha : 0 ≤ a ∧ a < 8) (hb : 0 ≤ b ∧ b < 8) :
    cw a b = cw (cw f a) (cw f b) := by
  obtain ⟨f0, f8⟩ := hf
  obtain ⟨a0, a8⟩ := ha
  obtain ⟨b0, b8⟩ := hb
  unfold cw
  split_ifs <;> linarith

theorem cw_zero {a : ℚ} (ha : 0 ≤ a) : cw 0 a = a := by unfold cw; rw [if_pos ha, sub_zero]

theorem corner_arith0 {p n q u f : ℚ} (hp : 0 ≤ p ∧ p < 8) (hn : 0 ≤ n ∧ n < 8) (hq : 0 ≤ q ∧ q < 8)
    (hu : u < 8) (h2 : 0 ≤ f) (hpq : cw p q = 4)
    (u1 : 4 + f < u) (n1 : n ≤ 4 + f) (q1 : q ≤ 4 + f)
    (s2 : cw q u < cw q n) :
    (cw p n < 4 ∧ ((0 < cw p 0 ∧ cw p 0 ≤ cw p n) ∨ (0 < cw p f ∧ cw p f ≤ cw p n))) ∨
    n < f ∨ p < f ∨ p = f := by
  obtain ⟨p0, p8⟩ := hp
  obtain ⟨n0, n8⟩ := hn
  obtain ⟨q0, q8⟩ := hq
  -- the opposite of `p` comes before `u`, so `n` comes after `u`
  have e1 : cw q u = u - q := by unfold cw; rw [if_pos (by linarith)]
  rw [e1] at s2
  have hnq : n < q := by
    by_contra h
    unfold cw at s2
    rw [if_pos (not_lt.1 h)] at s2
    linarith
  have e2 : cw q n = n - q + 8 := by unfold cw; rw [if_neg (not_le.2 hnq)]
  by_contra hc
  push Not at hc
  obtain ⟨c1, c2, c3, c4⟩ := hc
  have hfp : f < p := lt_of_le_of_ne c3 (Ne.symm c4)
  have hp4 : 4 ≤ p := by
    by_contra h
    have : cw p q = q - p := by
      unfold cw at hpq ⊢
      by_cases hpq' : p ≤ q
      · rw [if_pos hpq']
      · rw [if_neg hpq'] at hpq; linarith
    rw [this] at hpq
    linarith
  have hq' : q = p - 4 := by
    unfold cw at hpq
    split_ifs at hpq <;> linarith
  have e3 : cw p n = n - p + 8 := by unfold cw; rw [if_neg (by linarith)]
  have e4 : cw p 0 = 8 - p := by unfold cw; rw [if_neg (by linarith)]; ring
  have := (c1 (by rw [e3]; linarith)).1 (by rw [e4]; linarith)
  rw [e3, e4] at this
  linarith

/-- Corner lemma.  The convex polygon is touched in a point whose adjacent edges have angles `f1` and
`f2`; the centre is seen from the corner at angle `u`.  `p`, `n` are the angles of the edges into and out
of the corner, `q` is opposite to `p`. -/
theorem corner_arith {p n q u f1 f2 : ℚ} (hp : 0 ≤ p ∧ p < 8) (hn : 0 ≤ n ∧ n < 8) (hq : 0 ≤ q ∧ q < 8)
    (hu : 0 ≤ u ∧ u < 8) (h1 : 0 ≤ f1 ∧ f1 < 8) (h2 : 0 ≤ f2 ∧ f2 < 8) (hf : cw f1 f2 < 4) (hpq : cw p q = 4)
    (u1 : 4 < cw f1 u) (u2 : 4 < cw f2 u) (n1 : ¬ (4 < cw f1 n ∧ 4 < cw f2 n)) (q1 : ¬ (4 < cw f1 q ∧ 4 < cw f2 q))
    (s2 : cw q u < cw q n) :
    (cw p n < 4 ∧ ((0 < cw p f1 ∧ cw p f1 ≤ cw p n) ∨ (0 < cw p f2 ∧ cw p f2 ≤ cw p n))) ∨
    cw f1 n < cw f1 f2 ∨ cw f1 p < cw f1 f2 ∨ p = f2 := by
  have tp := cw_range h1 hp
  have tn := cw_range h1 hn
  have tq := cw_range h1 hq
  have tu := cw_range h1 hu
  have t2 := cw_range h1 h2
  have out : ∀ x, 0 ≤ x ∧ x < 8 → ¬ (4 < cw f1 x ∧ 4 < cw f2 x) → cw f1 x ≤ 4 + cw f1 f2 := by
    intro x hx h
    have tx := cw_range h1 hx
    rw [cw_turn h1 h2 hx] at h
    by_contra hc
    push Not at hc
    apply h
    refine ⟨by linarith [t2.1], ?_⟩
    generalize cw f1 x = X at *
    generalize cw f1 f2 = F at *
    unfold cw
    rw [if_pos (by linarith [t2.1])]
    linarith
  have tu' : 4 + cw f1 f2 < cw f1 u := by
    rw [cw_turn h1 h2 hu] at u2
    generalize cw f1 u = U at *
    generalize cw f1 f2 = F at *
    unfold cw at u2
    split_ifs at u2 <;> linarith
  rw [cw_turn h1 hp hq] at hpq
  rw [cw_turn h1 hq hu, cw_turn h1 hq hn] at s2
  have := corner_arith0 tp tn tq tu.2 t2.1 hpq tu' (out n hn n1) (out q hq q1) s2
  rw [cw_turn h1 hp hn, cw_turn h1 hp h1, cw_turn h1 hp h2, cw_self f1]
  rcases this with h | h | h | h
  · exact Or.inl h
  · exact Or.inr (Or.inl h)
  · exact Or.inr (Or.inr (Or.inl h))
  · refine Or.inr (Or.inr (Or.inr ?_))
    obtain ⟨p0, p8⟩ := hp
    obtain ⟨b0, b8⟩ := h2
    unfold cw at h
    split_ifs at h <;> linarith

/-- Edge lemma: an edge with angle `n`, `q` the opposite angle. -/
theorem edge_arith {n q u f1 f2 : ℚ} (hn : 0 ≤ n ∧ n < 8) (hq : 0 ≤ q ∧ q < 8)
    (hu : 0 ≤ u ∧ u < 8) (h1 : 0 ≤ f1 ∧ f1 < 8) (h2 : 0 ≤ f2 ∧ f2 < 8) (hf : cw f1 f2 < 4) (hnq : cw n q = 4)
    (u1 : 4 < cw f1 u) (u2 : 4 < cw f2 u) (n1 : ¬ (4 < cw f1 n ∧ 4 < cw f2 n)) (q1 : ¬ (4 < cw f1 q ∧ 4 < cw f2 q))
    (s1 : 4 < cw n u) : cw f1 n ≤ cw f1 f2 := by
  have tn := cw_range h1 hn
  have tq := cw_range h1 hq
  have tu := cw_range h1 hu
  have t2 := cw_range h1 h2
  rw [cw_turn h1 hn hq] at hnq
  rw [cw_turn h1 hn hu] at s1
  rw [cw_turn h1 h2 hu] at u2
  rw [cw_turn h1 h2 hn] at n1
  rw [cw_turn h1 h2 hq] at q1
  generalize cw f1 n = n at *
  generalize cw f1 q = q at *
  generalize cw f1 u = u at *
  generalize cw f1 f2 = f at *
  by_contra hc
  push Not at hc
  have n2 : n ≤ 4 + f := by
    by_contra h
    push Not at h
    exact n1 ⟨by linarith, by unfold cw; rw [if_pos hc.le]; linarith⟩
  have hnu : u - n + 8 > 4 + 8 ∨ u < n := by
    unfold cw at s1
    split_ifs at s1
    · left; linarith
    · right; linarith
  have hu' : 4 + f < u := by
    unfold cw at u2
    split_ifs at u2 <;> linarith
  rcases hnu with h | h
  · have : q = n + 4 := by
      unfold cw at hnq
      split_ifs at hnq <;> linarith
    apply q1
    refine ⟨by linarith, ?_⟩
    unfold cw
    rw [if_pos (by linarith)]
    linarith
  · linarith

end Ply
