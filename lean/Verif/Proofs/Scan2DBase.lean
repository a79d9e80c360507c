import Verif.Model.Scan2D
import Verif.Spec.Sweep
import Mathlib.Data.Prod.Lex
import Mathlib.Data.List.Sort
import Mathlib.Tactic.Linarith
import Mathlib.Tactic.Ring
import Mathlib.Tactic.FieldSimp
import Mathlib.Tactic.LinearCombination

namespace Ply

/-- Event key as an element of a linear order. -/
def ek (p : Pt) : ℚ ×ₗ ℚ := toLex (p.2, p.1)

theorem ek_lt {p q : Pt} : ek p < ek q ↔ p.2 < q.2 ∨ p.2 = q.2 ∧ p.1 < q.1 := by
  unfold ek; rw [Prod.Lex.lt_iff]; rfl

theorem ek_le {p q : Pt} : ek p ≤ ek q ↔ p.2 < q.2 ∨ p.2 = q.2 ∧ p.1 ≤ q.1 := by
  unfold ek; rw [Prod.Lex.le_iff]; rfl

theorem ek_inj {p q : Pt} : ek p = ek q ↔ p = q := by
  unfold ek
  rw [toLex_inj, Prod.mk.injEq, Prod.ext_iff]
  exact and_comm

theorem evLt_iff {p q : Pt} : evLt p q = true ↔ ek p < ek q := by
  rw [ek_lt]; unfold evLt; simp

theorem ek_le_y {p q : Pt} (h : ek p ≤ ek q) : p.2 ≤ q.2 := by
  rcases ek_le.1 h with h | h
  · exact h.le
  · exact h.1.le

abbrev SegK := (ℚ ×ₗ ℚ) ×ₗ (ℚ ×ₗ ℚ)

def segKey (s : Seg) : SegK := toLex (toLex s.1, toLex s.2)

theorem segKey_inj {s t : Seg} : segKey s = segKey t ↔ s = t := by
  unfold segKey
  rw [toLex_inj, Prod.mk.injEq, toLex_inj, toLex_inj]
  exact Prod.ext_iff.symm

theorem segLt_iff {s t : Seg} : segLt s t = true ↔ segKey s < segKey t := by
  unfold segLt segKey ptLt
  rw [Prod.Lex.lt_iff]
  simp only [ofLex_toLex]
  rw [Prod.Lex.lt_iff, Prod.Lex.lt_iff]
  simp

def NonH (s : Seg) : Prop := s.1.2 ≠ s.2.2

def slope (s : Seg) : ℚ := (s.2.1 - s.1.1) / (s.2.2 - s.1.2)

theorem NonH.dy {s : Seg} (h : NonH s) : s.2.2 - s.1.2 ≠ 0 := fun hc => h (by linarith)

theorem atY_eq {s : Seg} (h : NonH s) (y : ℚ) : atY s y = s.1.1 + slope s * (y - s.1.2) := by
  have hd := h.dy
  unfold atY slope
  split_ifs with h1 h2
  · rw [h1]; ring
  · rw [h2]; field_simp; ring
  · ring

theorem atY_add {s : Seg} (h : NonH s) (y y' : ℚ) : atY s y' = atY s y + slope s * (y' - y) := by
  rw [atY_eq h, atY_eq h]; ring

theorem atYNoHorizontal_ok {s : Seg} (h : NonH s) (y : ℚ) : atYNoHorizontal s y = .ok (atY s y) := by
  unfold atYNoHorizontal atY
  split_ifs with h1 h2 h3
  · rfl
  · rfl
  · rfl
  · exact absurd h.dy h3

theorem mkSweepKey_ok {s : Seg} (h : NonH s) (p : Pt) : mkSweepKey s p = .ok ⟨s, p⟩ := if_pos h

def lowY (s : Seg) : ℚ := min s.1.2 s.2.2
def topY (s : Seg) : ℚ := max s.1.2 s.2.2
def lowPt (s : Seg) : Pt := if s.1.2 < s.2.2 then s.1 else s.2
def topPt (s : Seg) : Pt := if s.1.2 < s.2.2 then s.2 else s.1

theorem NonH.lt {s : Seg} (h : NonH s) : lowY s < topY s := by
  unfold lowY topY; exact min_lt_max.2 h

theorem lowPt_y (s : Seg) : (lowPt s).2 = lowY s := by
  unfold lowPt lowY
  split_ifs with h
  · rw [min_eq_left h.le]
  · rw [min_eq_right (not_lt.1 h)]

theorem topPt_y (s : Seg) : (topPt s).2 = topY s := by
  unfold topPt topY
  split_ifs with h
  · rw [max_eq_right h.le]
  · rw [max_eq_left (not_lt.1 h)]

theorem atY_fst {s : Seg} (h : NonH s) : atY s s.1.2 = s.1.1 := by rw [atY_eq h]; ring

theorem atY_snd {s : Seg} (h : NonH s) : atY s s.2.2 = s.2.1 := by
  have := h.dy
  rw [atY_eq h]; unfold slope; field_simp; ring

theorem lowPt_x {s : Seg} (h : NonH s) : (lowPt s).1 = atY s (lowPt s).2 := by
  unfold lowPt
  split_ifs
  · exact (atY_fst h).symm
  · exact (atY_snd h).symm

theorem topPt_x {s : Seg} (h : NonH s) : (topPt s).1 = atY s (topPt s).2 := by
  unfold topPt
  split_ifs
  · exact (atY_snd h).symm
  · exact (atY_fst h).symm

/-- Membership in a non-horizontal segment by height. -/
theorem onSeg_iff_y {s : Seg} (h : NonH s) (p : Pt) :
    OnSeg s p ↔ lowY s ≤ p.2 ∧ p.2 ≤ topY s ∧ p.1 = atY s p.2 := by
  have hd := h.dy
  constructor
  · rintro ⟨t, t0, t1, rfl⟩
    have hy : (along s t).2 = s.1.2 + t * (s.2.2 - s.1.2) := rfl
    have hx : (along s t).1 = s.1.1 + t * (s.2.1 - s.1.1) := rfl
    rw [hy, hx, atY_eq h]
    unfold lowY topY
    refine ⟨?_, ?_, ?_⟩
    · rw [min_le_iff]
      rcases le_total s.1.2 s.2.2 with hh | hh
      · left; nlinarith
      · right; nlinarith
    · rw [le_max_iff]
      rcases le_total s.1.2 s.2.2 with hh | hh
      · right; nlinarith
      · left; nlinarith
    · unfold slope; field_simp; ring
  · rintro ⟨h1, h2, h3⟩
    refine ⟨(p.2 - s.1.2) / (s.2.2 - s.1.2), ?_, ?_, ?_⟩
    · unfold lowY topY at *
      rcases lt_or_gt_of_ne h with hh | hh
      · rw [min_eq_left hh.le] at h1
        exact div_nonneg (by linarith) (by linarith)
      · rw [max_eq_left hh.le] at h2
        exact div_nonneg_of_nonpos (by linarith) (by linarith)
    · unfold lowY topY at *
      rcases lt_or_gt_of_ne h with hh | hh
      · rw [max_eq_right hh.le] at h2
        rw [div_le_one (by linarith)]; linarith
      · rw [min_eq_right hh.le] at h1
        rw [div_le_one_of_neg (by linarith)]; linarith
    · unfold along
      ext
      · rw [h3, atY_eq h]; unfold slope; simp only; field_simp
      · simp only; field_simp; ring

theorem parallel_iff {s t : Seg} (hs : NonH s) (ht : NonH t) : Parallel s t ↔ slope s = slope t := by
  have h1 := hs.dy
  have h2 := ht.dy
  unfold Parallel cross dir slope
  rw [div_eq_div_iff h1 h2]
  simp only
  constructor <;> intro h <;> linarith

theorem onSeg_low {s : Seg} (h : NonH s) : OnSeg s (lowPt s) :=
  (onSeg_iff_y h _).2 ⟨(lowPt_y s).ge, by rw [lowPt_y]; exact h.lt.le, lowPt_x h⟩

theorem onSeg_top {s : Seg} (h : NonH s) : OnSeg s (topPt s) :=
  (onSeg_iff_y h _).2 ⟨by rw [topPt_y]; exact h.lt.le, (topPt_y s).le, topPt_x h⟩

/-- Points of a non-horizontal segment are determined by their height. -/
theorem onSeg_ext {s : Seg} (h : NonH s) {p q : Pt} (hp : OnSeg s p) (hq : OnSeg s q) (e : p.2 = q.2) :
    p = q := by
  rw [onSeg_iff_y h] at hp hq
  ext
  · rw [hp.2.2, hq.2.2, e]
  · exact e

theorem low_le_of_onSeg {s : Seg} (h : NonH s) {p : Pt} (hp : OnSeg s p) : ek (lowPt s) ≤ ek p := by
  have := (onSeg_iff_y h p).1 hp
  rw [ek_le, lowPt_y]
  rcases this.1.eq_or_lt with e | e
  · right
    have : lowPt s = p := onSeg_ext h (onSeg_low h) hp (by rw [lowPt_y]; exact e)
    exact ⟨e, by rw [this]⟩
  · exact Or.inl e

theorem le_top_of_onSeg {s : Seg} (h : NonH s) {p : Pt} (hp : OnSeg s p) : ek p ≤ ek (topPt s) := by
  have := (onSeg_iff_y h p).1 hp
  rw [ek_le, topPt_y]
  rcases this.2.1.eq_or_lt with e | e
  · right
    have : topPt s = p := onSeg_ext h (onSeg_top h) hp (by rw [topPt_y]; exact e.symm)
    exact ⟨e, by rw [this]⟩
  · exact Or.inl e

theorem endpoint_cases (s : Seg) (p : Pt) : (p = s.1 ∨ p = s.2) ↔ (p = lowPt s ∨ p = topPt s) := by
  unfold lowPt topPt
  split_ifs
  · rfl
  · exact or_comm

/-! ### the comparison -/

theorem lex3_lt {α β γ : Type*} [LinearOrder α] [LinearOrder β] [LinearOrder γ] {a a' : α} {b b' : β}
    {c c' : γ} : (toLex (a, toLex (b, c)) : α ×ₗ β ×ₗ γ) < toLex (a', toLex (b', c')) ↔
    a < a' ∨ a = a' ∧ (b < b' ∨ b = b' ∧ c < c') := by
  rw [Prod.Lex.lt_iff]
  simp only [ofLex_toLex]
  rw [Prod.Lex.lt_iff]
  rfl

abbrev OrdK := ℚ ×ₗ ℚ ×ₗ SegK

/-- Lexicographic key: position at height `Y`, then slope with sign `sg`, then the tuple. -/
def lexKey (Y sg : ℚ) (s : Seg) : OrdK := toLex (atY s Y, toLex (sg * slope s, segKey s))

theorem lexKey_inj {Y sg : ℚ} {s t : Seg} : lexKey Y sg s = lexKey Y sg t ↔ s = t := by
  constructor
  · intro h
    unfold lexKey at h
    rw [toLex_inj, Prod.mk.injEq, toLex_inj, Prod.mk.injEq] at h
    exact segKey_inj.1 h.2.2
  · rintro rfl; rfl

/-- A well-made sweep key: non-horizontal segment, point on its line. -/
def SweepKey.Good (k : SweepKey) : Prop := NonH k.segment ∧ k.pt.1 = atY k.segment k.pt.2

/-- `__lt__` is comparison of lexicographic keys at the larger of the two heights. -/
theorem lt_iff {a b : SweepKey} (ha : a.Good) (hb : b.Good) :
    a.lt b = true ↔
      lexKey (max a.pt.2 b.pt.2) (if a.pt.2 = b.pt.2 then 1 else -1) a.segment <
      lexKey (max a.pt.2 b.pt.2) (if a.pt.2 = b.pt.2 then 1 else -1) b.segment := by
  obtain ⟨hna, hxa⟩ := ha
  obtain ⟨hnb, hxb⟩ := hb
  have core : ∀ (x x' Y d : ℚ), x = atY a.segment Y → x' = atY b.segment Y →
      ((if x < x' then true else if x > x' then false else
        if atY a.segment (Y + d) < atY b.segment (Y + d) then true
        else if atY a.segment (Y + d) > atY b.segment (Y + d) then false
        else segLt a.segment b.segment) = true ↔ lexKey Y d a.segment < lexKey Y d b.segment) := by
    intro x x' Y d hx hx'
    unfold lexKey
    rw [lex3_lt, atY_add hna Y (Y + d), atY_add hnb Y (Y + d), ← hx, ← hx', ← segLt_iff]
    have e : ∀ m : ℚ, m * (Y + d - Y) = d * m := fun m => by ring
    rw [e, e]
    rcases lt_trichotomy x x' with h | h | h
    · simp [h]
    · subst h
      simp only [lt_irrefl, gt_iff_lt, if_false, false_or, true_and]
      rcases lt_trichotomy (d * slope a.segment) (d * slope b.segment) with h' | h' | h'
      · simp [h']
      · simp [h']
      · simp [h', not_lt.2 h'.le, h'.ne']
    · simp [h, not_lt.2 h.le, h.ne']
  unfold SweepKey.lt
  rcases lt_trichotomy a.pt.2 b.pt.2 with h | h | h
  · rw [if_pos h, if_neg h.ne, max_eq_right h.le]
    simp only
    rw [if_neg h.ne']
    have := core (atY a.segment b.pt.2) b.pt.1 b.pt.2 (-1) rfl hxb
    rw [← sub_eq_add_neg] at this
    exact this
  · rw [if_neg (by rw [h]; exact lt_irrefl _), if_pos h, ← h, max_self]
    simp only [if_true]
    exact core a.pt.1 (atY b.segment a.pt.2) a.pt.2 1 hxa rfl
  · rw [if_neg (not_lt.2 h.le), if_neg h.ne', max_eq_left h.le]
    simp only
    rw [if_neg h.ne]
    have := core a.pt.1 (atY b.segment a.pt.2) a.pt.2 (-1) hxa rfl
    rw [← sub_eq_add_neg] at this
    exact this

/-! ### pairwise intersection -/

theorem along_unique {s t : Seg} (h : ¬ Parallel s t) {p q : Pt} (h1 : OnSeg s p) (h2 : OnSeg t p)
    (h3 : OnSeg s q) (h4 : OnSeg t q) : p = q := by
  obtain ⟨a, _, _, rfl⟩ := h1
  obtain ⟨b, _, _, e1⟩ := h2
  obtain ⟨c, _, _, rfl⟩ := h3
  obtain ⟨d, _, _, e2⟩ := h4
  unfold along at *
  rw [Prod.mk.injEq] at e1 e2
  have hk : (a - c) * (cross (dir s) (dir t)) = 0 := by
    unfold cross dir
    linear_combination (t.2.2 - t.1.2) * (e1.1 - e2.1) - (t.2.1 - t.1.1) * (e1.2 - e2.2)
  rcases mul_eq_zero.1 hk with h' | h'
  · have : a = c := by linarith
    rw [this]
  · exact absurd h' h

theorem nonparallel_spec (a b : Seg) :
    (Parallel a b → nonparallelIntersection a b = none) ∧
    (¬ Parallel a b → (∃ p, OnSeg a p ∧ OnSeg b p ∧ nonparallelIntersection a b = some p) ∨
      ((¬ ∃ p, OnSeg a p ∧ OnSeg b p) ∧ nonparallelIntersection a b = none)) := by
  have hden : det2 (a.2.1 - a.1.1, a.2.2 - a.1.2) (b.2.1 - b.1.1, b.2.2 - b.1.2) = cross (dir a) (dir b) := rfl
  constructor
  · intro h
    unfold nonparallelIntersection
    simp only
    rw [hden, if_pos (show cross (dir a) (dir b) = 0 from h)]
  · intro h
    have hd : cross (dir a) (dir b) ≠ 0 := h
    unfold nonparallelIntersection
    simp only
    rw [hden, if_neg hd]
    set D := cross (dir a) (dir b) with hD
    set T := det2 (b.2.1 - b.1.1, b.2.2 - b.1.2) (a.1.1 - b.1.1, a.1.2 - b.1.2) with hT
    set U := det2 (a.2.1 - a.1.1, a.2.2 - a.1.2) (a.1.1 - b.1.1, a.1.2 - b.1.2) with hU
    -- parameters of the common point
    have hcommon : along a (T / D) = along b (U / D) := by
      unfold along
      rw [Prod.mk.injEq]
      constructor
      · field_simp
        rw [hD, hT, hU]; unfold det2 cross dir; ring
      · field_simp
        rw [hD, hT, hU]; unfold det2 cross dir; ring
    have huniq : ∀ t u, along a t = along b u → t = T / D ∧ u = U / D := by
      intro t u e
      unfold along at e
      rw [Prod.mk.injEq] at e
      constructor
      · rw [eq_div_iff hd, hD, hT]
        unfold det2 cross dir
        linear_combination (b.2.2 - b.1.2) * e.1 - (b.2.1 - b.1.1) * e.2
      · rw [eq_div_iff hd, hD, hU]
        unfold det2 cross dir
        linear_combination (a.2.2 - a.1.2) * e.1 - (a.2.1 - a.1.1) * e.2
    have key : ∀ T' U' D' : ℚ, 0 < D' → T' / D' = T / D → U' / D' = U / D →
        ((∃ p, OnSeg a p ∧ OnSeg b p ∧
          (if 0 ≤ T' ∧ T' ≤ D' ∧ 0 ≤ U' ∧ U' ≤ D' then
            some (a.1.1 + T' / D' * (a.2.1 - a.1.1), a.1.2 + T' / D' * (a.2.2 - a.1.2)) else none)
            = some p) ∨
        ((¬ ∃ p, OnSeg a p ∧ OnSeg b p) ∧
          (if 0 ≤ T' ∧ T' ≤ D' ∧ 0 ≤ U' ∧ U' ≤ D' then
            some (a.1.1 + T' / D' * (a.2.1 - a.1.1), a.1.2 + T' / D' * (a.2.2 - a.1.2)) else none)
            = (none : Option Pt))) := by
      intro T' U' D' hD' eT eU
      by_cases hc : 0 ≤ T' ∧ T' ≤ D' ∧ 0 ≤ U' ∧ U' ≤ D'
      · left
        rw [if_pos hc]
        refine ⟨along a (T / D), ⟨T / D, ?_, ?_, rfl⟩, ⟨U / D, ?_, ?_, hcommon⟩, ?_⟩
        · rw [← eT]; exact div_nonneg hc.1 hD'.le
        · rw [← eT, div_le_one hD']; exact hc.2.1
        · rw [← eU]; exact div_nonneg hc.2.2.1 hD'.le
        · rw [← eU, div_le_one hD']; exact hc.2.2.2
        · rw [eT]; rfl
      · right
        rw [if_neg hc]
        refine ⟨?_, rfl⟩
        rintro ⟨p, ⟨t, t0, t1, rfl⟩, u, u0, u1, e⟩
        obtain ⟨rfl, rfl⟩ := huniq t u e
        rw [← eT] at t0 t1
        rw [← eU] at u0 u1
        rw [div_le_one hD'] at t1 u1
        have t0' := mul_nonneg t0 hD'.le
        have u0' := mul_nonneg u0 hD'.le
        rw [div_mul_cancel₀ _ hD'.ne'] at t0' u0'
        exact hc ⟨t0', t1, u0', u1⟩
    rcases lt_or_gt_of_ne hd with hneg | hpos
    · rw [if_pos hneg]
      exact key (-T) (-U) (-D) (by linarith) (neg_div_neg_eq _ _) (neg_div_neg_eq _ _)
    · rw [if_neg (not_lt.2 hpos.le)]
      exact key T U D hpos rfl rfl

theorem nonparallel_some {a b : Seg} {p : Pt} :
    nonparallelIntersection a b = some p ↔ ¬ Parallel a b ∧ OnSeg a p ∧ OnSeg b p := by
  obtain ⟨h1, h2⟩ := nonparallel_spec a b
  constructor
  · intro h
    have hn : ¬ Parallel a b := fun hp => by rw [h1 hp] at h; cases h
    rcases h2 hn with ⟨q, a1, a2, e⟩ | ⟨_, e⟩
    · rw [h, Option.some.injEq] at e
      subst e; exact ⟨hn, a1, a2⟩
    · rw [h] at e; cases e
  · rintro ⟨hn, a1, a2⟩
    rcases h2 hn with ⟨q, b1, b2, e⟩ | ⟨hno, _⟩
    · rw [e, along_unique hn a1 a2 b1 b2]
    · exact absurd ⟨p, a1, a2⟩ hno

end Ply
