import Verif.Proofs.Scan2DBase
import Mathlib.Data.Finset.Max

/-! Order of the segments along the sweep line. -/

namespace Ply

/-- Segments that start at or before and end after the sweep position `p`. -/
def ActiveAt (S : List Seg) (p : Pt) (s : Seg) : Prop :=
  s ∈ S ∧ ek (lowPt s) ≤ ek p ∧ ek p < ek (topPt s)

/-- Order just after `p`. -/
def ordKey (p : Pt) (s : Seg) : OrdK :=
  toLex (atY s p.2, toLex ((if atY s p.2 ≤ p.1 then slope s else -slope s), segKey s))

/-- Order just before `p`. -/
def ordKeyB (p : Pt) (s : Seg) : OrdK :=
  toLex (atY s p.2, toLex ((if atY s p.2 < p.1 then slope s else -slope s), segKey s))

theorem ordKey_lt {p : Pt} {s t : Seg} : ordKey p s < ordKey p t ↔ atY s p.2 < atY t p.2 ∨
    atY s p.2 = atY t p.2 ∧ ((if atY s p.2 ≤ p.1 then slope s else -slope s) <
      (if atY t p.2 ≤ p.1 then slope t else -slope t) ∨
      (if atY s p.2 ≤ p.1 then slope s else -slope s) =
      (if atY t p.2 ≤ p.1 then slope t else -slope t) ∧ segKey s < segKey t) := lex3_lt

theorem ordKeyB_lt {p : Pt} {s t : Seg} : ordKeyB p s < ordKeyB p t ↔ atY s p.2 < atY t p.2 ∨
    atY s p.2 = atY t p.2 ∧ ((if atY s p.2 < p.1 then slope s else -slope s) <
      (if atY t p.2 < p.1 then slope t else -slope t) ∨
      (if atY s p.2 < p.1 then slope s else -slope s) =
      (if atY t p.2 < p.1 then slope t else -slope t) ∧ segKey s < segKey t) := lex3_lt

theorem ordKey_inj {p : Pt} {s t : Seg} : ordKey p s = ordKey p t ↔ s = t := by
  constructor
  · intro h
    unfold ordKey at h
    rw [toLex_inj, Prod.mk.injEq, toLex_inj, Prod.mk.injEq] at h
    exact segKey_inj.1 h.2.2
  · rintro rfl; rfl

theorem ordKey_eq_B {e : Pt} {s : Seg} (h : atY s e.2 ≠ e.1) : ordKey e s = ordKeyB e s := by
  unfold ordKey ordKeyB
  have : (atY s e.2 ≤ e.1) ↔ (atY s e.2 < e.1) := ⟨fun h' => lt_of_le_of_ne h' h, le_of_lt⟩
  simp only [this]

theorem active_heights {S : List Seg} {p : Pt} {s : Seg} (h : ActiveAt S p s) :
    lowY s ≤ p.2 ∧ p.2 ≤ topY s := by
  rw [← lowPt_y, ← topPt_y]
  exact ⟨ek_le_y h.2.1, ek_le_y h.2.2.le⟩

theorem event_low {S : List Seg} {s : Seg} (h : s ∈ S) : EventPoint S (lowPt s) :=
  Or.inl ⟨s, h, (endpoint_cases s _).2 (Or.inl rfl)⟩

theorem event_top {S : List Seg} {s : Seg} (h : s ∈ S) : EventPoint S (topPt s) :=
  Or.inl ⟨s, h, (endpoint_cases s _).2 (Or.inr rfl)⟩

/-- Two segments of different slope that meet at height `h` within both make an event there. -/
theorem event_cross {S : List Seg} (hS : ∀ s ∈ S, NonH s) {s t : Seg} (hs : s ∈ S) (ht : t ∈ S)
    (hm : slope s ≠ slope t) {h : ℚ} (e : atY s h = atY t h) (s1 : lowY s ≤ h) (s2 : h ≤ topY s)
    (t1 : lowY t ≤ h) (t2 : h ≤ topY t) :
    EventPoint S (atY s h, h) ∧ OnSeg s (atY s h, h) ∧ OnSeg t (atY s h, h) := by
  have a1 : OnSeg s (atY s h, h) := (onSeg_iff_y (hS s hs) _).2 ⟨s1, s2, rfl⟩
  have a2 : OnSeg t (atY s h, h) := (onSeg_iff_y (hS t ht) _).2 ⟨t1, t2, e⟩
  exact ⟨Or.inr ⟨s, hs, t, ht, fun hp => hm ((parallel_iff (hS s hs) (hS t ht)).1 hp), a1, a2⟩, a1, a2⟩

/-- If the order of two lines changes between two heights, they cross in between. -/
theorem cross_between {s t : Seg} (hs : NonH s) (ht : NonH t) {y1 y2 : ℚ} (hy : y1 ≤ y2)
    (h1 : atY s y1 < atY t y1) (h2 : atY t y2 ≤ atY s y2) :
    slope t < slope s ∧ ∃ h, y1 < h ∧ h ≤ y2 ∧ atY s h = atY t h := by
  have e1 := atY_add hs y1 y2
  have e2 := atY_add ht y1 y2
  have hlt : slope t < slope s := by
    by_contra hc
    rw [not_lt] at hc
    have : slope s * (y2 - y1) ≤ slope t * (y2 - y1) := mul_le_mul_of_nonneg_right hc (by linarith)
    linarith
  refine ⟨hlt, y1 + (atY t y1 - atY s y1) / (slope s - slope t), ?_, ?_, ?_⟩
  · have : 0 < (atY t y1 - atY s y1) / (slope s - slope t) := div_pos (by linarith) (by linarith)
    linarith
  · have : (atY t y1 - atY s y1) / (slope s - slope t) ≤ y2 - y1 := by
      rw [div_le_iff₀ (by linarith)]
      rw [e1, e2] at h2
      linarith
    linarith
  · have hne : slope s - slope t ≠ 0 := by linarith
    set d := (atY t y1 - atY s y1) / (slope s - slope t) with hd
    have hd' : d * (slope s - slope t) = atY t y1 - atY s y1 := by rw [hd]; field_simp
    rw [atY_add hs y1 (y1 + d), atY_add ht y1 (y1 + d)]
    linarith

/-- A sweep key of an active segment: its point is the last event on the segment so far. -/
structure KeyOK (S : List Seg) (p : Pt) (k : SweepKey) : Prop where
  active : ActiveAt S p k.segment
  on : OnSeg k.segment k.pt
  le : ek k.pt ≤ ek p
  last : ∀ z, EventPoint S z → OnSeg k.segment z → ek z ≤ ek p → ek z ≤ ek k.pt

theorem KeyOK.good {S : List Seg} (hS : ∀ s ∈ S, NonH s) {p : Pt} {k : SweepKey} (h : KeyOK S p k) :
    k.Good :=
  ⟨hS _ h.active.1, ((onSeg_iff_y (hS _ h.active.1) _).1 h.on).2.2⟩

theorem ord_of_lex {S : List Seg} (hS : ∀ s ∈ S, NonH s) {p : Pt} {a b : SweepKey}
    (ha : KeyOK S p a) (hb : KeyOK S p b)
    (h : lexKey (max a.pt.2 b.pt.2) (if a.pt.2 = b.pt.2 then 1 else -1) a.segment <
      lexKey (max a.pt.2 b.pt.2) (if a.pt.2 = b.pt.2 then 1 else -1) b.segment) :
    ordKey p a.segment < ordKey p b.segment := by
  have na := hS _ ha.active.1
  have nb := hS _ hb.active.1
  set s := a.segment with hs
  set t := b.segment with ht
  set Y := max a.pt.2 b.pt.2 with hY
  have hYp : Y ≤ p.2 := max_le (ek_le_y ha.le) (ek_le_y hb.le)
  have sa := active_heights ha.active
  have sb := active_heights hb.active
  have la := (onSeg_iff_y na _).1 ha.on
  have lb := (onSeg_iff_y nb _).1 hb.on
  have aY : a.pt.2 ≤ Y := le_max_left _ _
  have bY : b.pt.2 ≤ Y := le_max_right _ _
  rw [ordKey_lt]
  unfold lexKey at h
  rw [lex3_lt] at h
  by_cases hm : slope s = slope t
  · -- parallel: the horizontal distance is constant
    have d : atY t p.2 - atY s p.2 = atY t Y - atY s Y := by
      rw [atY_add na Y p.2, atY_add nb Y p.2, hm]; ring
    rcases h with h | ⟨h, h'⟩
    · left; linarith
    · right
      have e : atY s p.2 = atY t p.2 := by linarith
      refine ⟨e, ?_⟩
      rw [hm] at h'
      rcases h' with h' | ⟨_, h'⟩
      · exact absurd h' (lt_irrefl _)
      · right
        rw [e, hm]
        exact ⟨rfl, h'⟩
  · rcases h with h | ⟨h, h'⟩
    · by_cases hlt : atY s p.2 < atY t p.2
      · exact Or.inl hlt
      · rw [not_lt] at hlt
        obtain ⟨hsl, c, c1, c2, c3⟩ := cross_between na nb hYp h hlt
        obtain ⟨ev, on1, on2⟩ := event_cross hS ha.active.1 hb.active.1 hm c3 (by linarith)
          (by linarith) (by linarith) (by linarith)
        have hnot : ¬ ek (atY s c, c) ≤ ek p := by
          intro hc
          have := ek_le_y (ha.last _ ev on1 hc)
          simp only at this
          linarith
        rw [ek_le] at hnot
        simp only [not_or, not_and, not_lt, not_le] at hnot
        have hcp : c = p.2 := le_antisymm c2 hnot.1
        have hx := hnot.2 hcp
        subst hcp
        right
        refine ⟨c3, Or.inl ?_⟩
        rw [if_neg (not_le.2 hx), if_neg (not_le.2 (c3 ▸ hx))]
        linarith
    · -- they meet at height Y, hence both keys are at that point
      obtain ⟨ev, on1, on2⟩ := event_cross hS ha.active.1 hb.active.1 hm h (by linarith)
        (by linarith) (by linarith) (by linarith)
      have hcp : ek (atY s Y, Y) ≤ ek p := by
        rcases max_choice a.pt.2 b.pt.2 with e | e
        · have : (atY s Y, Y) = a.pt := onSeg_ext na on1 ha.on (by simp only; rw [hY, e])
          rw [this]; exact ha.le
        · have : (atY s Y, Y) = b.pt := onSeg_ext nb on2 hb.on (by simp only; rw [hY, e])
          rw [this]; exact hb.le
      have ya := ek_le_y (ha.last _ ev on1 hcp)
      have yb := ek_le_y (hb.last _ ev on2 hcp)
      simp only at ya yb
      have e : a.pt.2 = b.pt.2 := by linarith
      rw [if_pos e] at h'
      have hsl : slope s < slope t := by
        rcases h' with h' | ⟨h', _⟩
        · linarith
        · exact absurd (by linarith) hm
      have ea := atY_add na Y p.2
      have eb := atY_add nb Y p.2
      rcases hYp.eq_or_lt with hYp | hYp
      · right
        rw [← hYp]
        refine ⟨h, Or.inl ?_⟩
        have hx : atY s Y ≤ p.1 := by
          rcases ek_le.1 hcp with hc | hc
          · simp only at hc; linarith
          · exact hc.2
        rw [if_pos hx, if_pos (h ▸ hx)]
        exact hsl
      · left
        rw [ea, eb, h]
        have : slope s * (p.2 - Y) < slope t * (p.2 - Y) := mul_lt_mul_of_pos_right hsl (by linarith)
        linarith

/-- On simultaneously active keys `__lt__` is the order along the sweep line. -/
theorem lt_active {S : List Seg} (hS : ∀ s ∈ S, NonH s) {p : Pt} {a b : SweepKey}
    (ha : KeyOK S p a) (hb : KeyOK S p b) :
    a.lt b = true ↔ ordKey p a.segment < ordKey p b.segment := by
  rw [lt_iff (ha.good hS) (hb.good hS)]
  refine ⟨ord_of_lex hS ha hb, fun h => ?_⟩
  by_contra hc
  rw [not_lt] at hc
  rcases hc.eq_or_lt with hc | hc
  · rw [lexKey_inj] at hc
    rw [hc] at h; exact lt_irrefl _ h
  · have := ord_of_lex hS hb ha (by rw [max_comm, if_congr eq_comm rfl rfl]; exact hc)
    exact lt_asymm h this

/-- Without events in between, the order just after `p` is the order just before `e`. -/
theorem ordB_of_ord {S : List Seg} (hS : ∀ s ∈ S, NonH s) {p e : Pt} (hpe : ek p < ek e)
    (hno : ∀ z, EventPoint S z → ek p < ek z → ek e ≤ ek z) {s t : Seg}
    (hs : ActiveAt S p s) (ht : ActiveAt S p t) (h : ordKey p s < ordKey p t) :
    ordKeyB e s < ordKeyB e t := by
  have na := hS _ hs.1
  have nb := hS _ ht.1
  have ts := hno _ (event_top hs.1) hs.2.2
  have tt := hno _ (event_top ht.1) ht.2.2
  have ts' := ek_le_y ts
  have tt' := ek_le_y tt
  rw [topPt_y] at ts' tt'
  have sa := active_heights hs
  have sb := active_heights ht
  have hy : p.2 ≤ e.2 := ek_le_y hpe.le
  rw [ordKey_lt] at h
  rw [ordKeyB_lt]
  have ea := atY_add na p.2 e.2
  have eb := atY_add nb p.2 e.2
  rcases h with h | ⟨h, h'⟩
  · by_cases hlt : atY s e.2 < atY t e.2
    · exact Or.inl hlt
    · rw [not_lt] at hlt
      obtain ⟨hsl, c, c1, c2, c3⟩ := cross_between na nb hy h hlt
      obtain ⟨ev, on1, on2⟩ := event_cross hS hs.1 ht.1 hsl.ne' c3 (by linarith)
        (by linarith) (by linarith) (by linarith)
      have := hno _ ev (ek_lt.2 (Or.inl c1))
      rw [ek_le] at this
      rcases this with hc | ⟨hc, hx⟩
      · simp only at hc; linarith
      · simp only at hc hx
        subst hc
        right
        refine ⟨c3, Or.inl ?_⟩
        rw [if_neg (not_lt.2 hx), if_neg (not_lt.2 (c3 ▸ hx))]
        linarith
  · by_cases hm : slope s = slope t
    · have e : atY s e.2 = atY t e.2 := by rw [ea, eb, h, hm]
      right
      refine ⟨e, ?_⟩
      rw [h, hm] at h'
      rcases h' with h' | ⟨_, h'⟩
      · exact absurd h' (lt_irrefl _)
      · right
        rw [e, hm]
        exact ⟨rfl, h'⟩
    · obtain ⟨ev, on1, on2⟩ := event_cross hS hs.1 ht.1 hm h (by linarith)
        (by linarith) (by linarith) (by linarith)
      rw [← h] at h'
      by_cases hx : atY s p.2 ≤ p.1
      · rw [if_pos hx, if_pos hx] at h'
        have hsl : slope s < slope t := by
          rcases h' with h' | ⟨h', _⟩
          · exact h'
          · exact absurd h' hm
        rcases hy.eq_or_lt with hy | hy
        · right
          rw [← hy]
          refine ⟨h, Or.inl ?_⟩
          have hlt : p.1 < e.1 := by
            rcases ek_lt.1 hpe with hc | hc
            · linarith
            · exact hc.2
          rw [if_pos (by linarith), if_pos (by linarith)]
          exact hsl
        · left
          rw [ea, eb, h]
          have : slope s * (e.2 - p.2) < slope t * (e.2 - p.2) :=
            mul_lt_mul_of_pos_right hsl (by linarith)
          linarith
      · rw [if_neg hx, if_neg hx] at h'
        have hsl : -slope s < -slope t := by
          rcases h' with h' | ⟨h', _⟩
          · exact h'
          · exact absurd (neg_injective h') hm
        have := hno _ ev (ek_lt.2 (Or.inr ⟨rfl, not_le.1 hx⟩))
        rw [ek_le] at this
        rcases this with hc | ⟨hc, hx'⟩
        · simp only at hc; linarith
        · simp only at hc hx'
          right
          rw [hc]
          refine ⟨h, Or.inl ?_⟩
          rw [if_neg (not_lt.2 hx'), if_neg (not_lt.2 (h ▸ hx'))]
          exact hsl

/-! ### list helpers -/

theorem split3 {α : Type*} (f : α → ℚ) (c : ℚ) (l : List α) (h : l.Pairwise fun a b => f a ≤ f b) :
    ∃ L T R, l = L ++ T ++ R ∧ (∀ a ∈ L, f a < c) ∧ (∀ a ∈ T, f a = c) ∧ ∀ a ∈ R, c < f a := by
  induction l with
  | nil => exact ⟨[], [], [], rfl, by simp, by simp, by simp⟩
  | cons a l ih =>
    obtain ⟨h1, h2⟩ := List.pairwise_cons.1 h
    obtain ⟨L, T, R, rfl, hL, hT, hR⟩ := ih h2
    rcases lt_trichotomy (f a) c with hc | hc | hc
    · exact ⟨a :: L, T, R, rfl, by simp [hc]; exact hL, hT, hR⟩
    · have : L = [] := List.eq_nil_iff_forall_not_mem.2 fun x hx => by
        have := h1 x (by simp [hx])
        have := hL x hx
        linarith
      subst this
      exact ⟨[], a :: T, R, rfl, by simp, by simp [hc]; exact hT, hR⟩
    · have e1 : L = [] := List.eq_nil_iff_forall_not_mem.2 fun x hx => by
        have := h1 x (by simp [hx])
        have := hL x hx
        linarith
      have e2 : T = [] := List.eq_nil_iff_forall_not_mem.2 fun x hx => by
        have := h1 x (by simp [hx])
        have := hT x hx
        linarith
      subst e1 e2
      exact ⟨[], [], a :: R, rfl, by simp, by simp, by simp [hc]; exact hR⟩

theorem exists_adjacent_ne {α β : Type*} (g : α → β) (l : List α) {u v : α} (hu : u ∈ l) (hv : v ∈ l)
    (h : g u ≠ g v) : ∃ l1 a b l2, l = l1 ++ a :: b :: l2 ∧ g a ≠ g b := by
  induction l generalizing u v with
  | nil => simp at hu
  | cons a l ih =>
    cases l with
    | nil => simp at hu hv; subst hu hv; exact absurd rfl h
    | cons b l =>
      by_cases hab : g a = g b
      · have key : ∀ w, w ∈ a :: b :: l → ∃ w' ∈ b :: l, g w' = g w := by
          intro w hw
          rcases List.mem_cons.1 hw with rfl | hw
          · exact ⟨b, by simp, hab.symm⟩
          · exact ⟨w, hw, rfl⟩
        obtain ⟨u', hu', eu⟩ := key u hu
        obtain ⟨v', hv', ev⟩ := key v hv
        obtain ⟨l1, x, y, l2, e, hne⟩ := ih hu' hv' (by rw [eu, ev]; exact h)
        exact ⟨a :: l1, x, y, l2, by rw [e]; rfl, hne⟩
      · exact ⟨[], a, b, l, rfl, hab⟩

/-! ### finiteness of the events -/

/-- All event points. -/
def evList (S : List Seg) : List Pt :=
  S.flatMap (fun s => [s.1, s.2]) ++
  S.flatMap fun s => S.filterMap fun t => nonparallelIntersection s t

theorem mem_evList {S : List Seg} {p : Pt} : p ∈ evList S ↔ EventPoint S p := by
  unfold evList EventPoint
  simp only [List.mem_append, List.mem_flatMap, List.mem_filterMap, nonparallel_some, List.mem_cons,
    List.not_mem_nil, or_false]

theorem exists_next {S : List Seg} {p : Pt} (h : ∃ z, EventPoint S z ∧ ek p < ek z) :
    ∃ e, EventPoint S e ∧ ek p < ek e ∧ ∀ z, EventPoint S z → ek p < ek z → ek e ≤ ek z := by
  classical
  obtain ⟨z, hz, hpz⟩ := h
  obtain ⟨e, he, hmin⟩ := Finset.exists_min_image
    (((evList S).toFinset).filter fun z => ek p < ek z) ek
    ⟨z, by simp [mem_evList, hz, hpz]⟩
  simp only [Finset.mem_filter, List.mem_toFinset, mem_evList] at he hmin
  exact ⟨e, he.1, he.2, fun z h1 h2 => hmin z ⟨h1, h2⟩⟩

end Ply
