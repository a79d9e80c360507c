import Verif.Proofs.Scan2DLoop

/-! States the sweep goes through. -/

namespace Ply

variable {S : List Seg}

/-- The states `(last height, queue, active)` at the head of the main loop. -/
inductive SweepReach (S : List Seg) : WithBot ℚ → EventQueue → List SweepKey → Prop
  | init {q} : initQueue [] S = .ok q → SweepReach S ⊥ q []
  | step {y pt st q act r} : SweepReach S y ((pt, st) :: q) act → sweepStep y pt st q act = .ok r →
      SweepReach S (pt.2 : WithBot ℚ) r.queue r.active

theorem reach_inv (hS : ∀ s ∈ S, NonH s) (hnd : S.Nodup) {y : WithBot ℚ} {q : EventQueue}
    {act : List SweepKey} (h : SweepReach S y q act) :
    ∃ p : Pt, Inv S p q act ∧ y ≤ (p.2 : WithBot ℚ) := by
  induction h with
  | init hq =>
    obtain ⟨q', p, hq', hinv, _⟩ := inv_init hS
    rw [hq] at hq'
    injection hq' with hq'
    subst hq'
    exact ⟨p, hinv, bot_le⟩
  | @step y pt st q act r _ hr ih =>
    obtain ⟨p, hinv, hy⟩ := ih
    obtain ⟨r', hr', hinv', _⟩ := step_spec hS hnd hinv hy
    rw [hr] at hr'
    injection hr' with hr'
    subst hr'
    exact ⟨pt, hinv', le_rfl⟩

theorem lineX_eq {s : Seg} (h : NonH s) (y : ℚ) : lineX s y = atY s y := by
  rw [atY_eq h]; unfold lineX slope; ring

theorem segKey_lt {s t : Seg} : segKey s < segKey t ↔ TupleLt s t := by
  unfold segKey TupleLt
  rw [Prod.Lex.lt_iff]
  simp only [ofLex_toLex]
  rw [Prod.Lex.lt_iff, Prod.Lex.lt_iff]
  simp only [ofLex_toLex, toLex_inj]
  constructor
  · rintro ((h | h) | ⟨h, h'⟩)
    · exact Or.inl h
    · exact Or.inr ⟨h.1, Or.inl h.2⟩
    · exact Or.inr ⟨congrArg Prod.fst h, Or.inr ⟨congrArg Prod.snd h, h'⟩⟩
  · rintro (h | ⟨h, h' | ⟨h', h''⟩⟩)
    · exact Or.inl (Or.inl h)
    · exact Or.inl (Or.inr ⟨h, h'⟩)
    · exact Or.inr ⟨Prod.ext h h', h''⟩

theorem leftOf_iff {p : Pt} {s t : Seg} (hs : NonH s) (ht : NonH t) :
    LeftOf p s t ↔ ordKey p s < ordKey p t := by
  unfold LeftOf
  rw [ordKey_lt]
  simp only [lineX_eq hs, lineX_eq ht]
  refine or_congr_right (and_congr_right fun e => ?_)
  have up : ∀ d, atY s (p.2 + d) < atY t (p.2 + d) ↔ slope s * d < slope t * d := by
    intro d
    rw [atY_add hs p.2, atY_add ht p.2, e]
    simp
  have down : ∀ d, atY s (p.2 - d) < atY t (p.2 - d) ↔ slope t * d < slope s * d := by
    intro d
    rw [atY_add hs p.2, atY_add ht p.2, e]
    have e1 : slope s * (p.2 - d - p.2) = -(slope s * d) := by ring
    have e2 : slope t * (p.2 - d - p.2) = -(slope t * d) := by ring
    rw [e1, e2]
    exact ⟨fun h => by linarith, fun h => by linarith⟩
  have u : (∀ d > 0, atY s (p.2 + d) < atY t (p.2 + d)) ↔ slope s < slope t := by
    constructor
    · intro h; have := (up 1).1 (h 1 one_pos); linarith
    · intro h d hd; exact (up d).2 (mul_lt_mul_of_pos_right h hd)
  have d : (∀ d > 0, atY s (p.2 - d) < atY t (p.2 - d)) ↔ slope t < slope s := by
    constructor
    · intro h; have := (down 1).1 (h 1 one_pos); linarith
    · intro h d hd; exact (down d).2 (mul_lt_mul_of_pos_right h hd)
  have eqv : (∀ y, atY s y = atY t y) ↔ slope s = slope t := by
    constructor
    · intro h
      have := h (p.2 + 1)
      rw [atY_add hs p.2, atY_add ht p.2, e] at this
      linarith
    · intro h y
      rw [atY_add hs p.2, atY_add ht p.2, e, h]
  rw [u, d, eqv, ← segKey_lt, ← e]
  by_cases hx : atY s p.2 ≤ p.1
  · rw [if_pos hx, if_pos hx]
    constructor
    · rintro (h | h | h)
      · exact Or.inl h.2
      · exact absurd h.1 (not_lt.2 hx)
      · exact Or.inr h
    · rintro (h | h)
      · exact Or.inl ⟨hx, h⟩
      · exact Or.inr (Or.inr h)
  · rw [if_neg hx, if_neg hx]
    rw [neg_lt_neg_iff, neg_inj]
    constructor
    · rintro (h | h | h)
      · exact absurd h.1 hx
      · exact Or.inl h.2
      · exact Or.inr h
    · rintro (h | h)
      · exact Or.inr (Or.inl ⟨not_le.1 hx, h⟩)
      · exact Or.inr (Or.inr h)

theorem sweepLt_iff {p q : Pt} : SweepLt p q ↔ ek p < ek q := ek_lt.symm

theorem alive_iff {s : Seg} (h : NonH s) {p : Pt} :
    Alive s p ↔ ek (lowPt s) ≤ ek p ∧ ek p < ek (topPt s) := by
  unfold Alive
  simp only [sweepLt_iff, not_lt]
  have hlt : ek (lowPt s) < ek (topPt s) := ek_lt.2 (Or.inl (by rw [lowPt_y, topPt_y]; exact h.lt))
  unfold lowPt topPt at *
  split_ifs at * with hc
  · constructor
    · rintro ⟨h1, h2⟩
      refine ⟨h1.elim (fun x => x) fun x => hlt.le.trans x, h2.elim (fun x => x.trans hlt) fun x => x⟩
    · rintro ⟨h1, h2⟩; exact ⟨Or.inl h1, Or.inr h2⟩
  · constructor
    · rintro ⟨h1, h2⟩
      refine ⟨h1.elim (fun x => hlt.le.trans x) fun x => x, h2.elim (fun x => x) fun x => x.trans hlt⟩
    · rintro ⟨h1, h2⟩; exact ⟨Or.inr h1, Or.inl h2⟩

/-- The search with the artificial vertical key is monotone along the active list. -/
theorem fake_mono (hS : ∀ s ∈ S, NonH s) {p e : Pt} {st : List SweepKey} {q : EventQueue}
    {act : List SweepKey} (h : Inv S p ((e, st) :: q) act) :
    act.Pairwise fun a b => (fakeKey e).lt a = true → (fakeKey e).lt b = true := by
  obtain ⟨hev, hpe, hst, hno⟩ := queue_head_min hS h
  have hpy : p.2 ≤ e.2 := ek_le_y hpe.le
  have key : ∀ k ∈ act, ((fakeKey e).lt k = true ↔
      (toLex (e.1, toLex (0, segKey (fakeKey e).segment)) : OrdK) < ordKeyB e k.segment) := by
    intro k hk
    have hko := h.keys k hk
    have hf := fake_lt (e := e) (hko.good hS) ((ek_le_y hko.le).trans hpy)
    unfold ordKeyB
    rw [lex3_lt]
    rcases lt_trichotomy (atY k.segment e.2) e.1 with hx | hx | hx
    · rw [hf.1 hx]
      constructor
      · intro hc; exact absurd hc (by simp)
      · rintro (hc | hc)
        · exact absurd hc (lt_asymm hx)
        · exact absurd hc.1 hx.ne'
    · have hne : ¬ (fakeKey e).pt.2 = k.pt.2 := by
        intro hc
        have hcy : e.2 = k.pt.2 := hc
        have hgood := (hko.good hS).2
        rw [← hcy, hx] at hgood
        have : k.pt = e := Prod.ext hgood hcy.symm
        have h2 := hko.le
        rw [this] at h2
        exact absurd hpe (not_lt.2 h2)
      have hmax : max (fakeKey e).pt.2 k.pt.2 = e.2 := max_eq_left ((ek_le_y hko.le).trans hpy)
      rw [lt_iff (fake_good e) (hko.good hS), hmax, if_neg hne]
      unfold lexKey
      have hx0 : atY (fakeKey e).segment e.2 = e.1 := (fake_good e).2.symm
      have hs0 : slope (fakeKey e).segment = 0 := by unfold slope fakeKey; simp
      rw [lex3_lt, hx0, hs0, hx, if_neg (lt_irrefl _), mul_zero, neg_one_mul]
    · rw [hf.2 hx]
      exact ⟨fun _ => Or.inl hx, fun _ => rfl⟩
  refine h.sorted.imp_of_mem ?_
  intro a b ha hb hab
  rw [key a ha, key b hb]
  intro h1
  exact h1.trans (ordB_of_ord hS hpe hno (h.keys a ha).active (h.keys b hb).active hab)

end Ply
