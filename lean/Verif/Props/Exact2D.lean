import Verif.Props.BufferExact

/-!
# Exactly which points `|`, `&` and `-` give, on edges too
-/

namespace Ply

open Filter Topology Arr

/-- Near a point of a geom there are inner points of it that are on none of the segments. -/
theorem Geom2D.Fine.near_in {g : Geom2D} (hg : g.Fine) (S : List Seg) {p : Pt} (hp : g.Has p) {P : Pt → Prop}
    (hP : Stable P) (h0 : P 0) : ∃ v, P v ∧ Geom2D.locate g (p + v) = .ok 1 ∧ ¬ OnAny S (p + v) := by
  have step : ∃ v, P v ∧ Geom2D.locate g (p + v) = .ok 1 := by
    rcases (hg.crisp.has hg.proper.made p).1 hp with h | h
    · exact ⟨0, h0, by rwa [add_zero]⟩
    · exact (hg.crisp.near hg.proper.made h hP h0).1
  obtain ⟨v, v1, v2⟩ := step
  obtain ⟨u, hu⟩ := generic_dir S (p + v)
  obtain ⟨ε, -, e1, e2, e3⟩ := small_exists (hu.and ((hP v v1 u).and (stable_inside hg.proper.made p v v2 u)))
  exact ⟨v + ε • u, e2, e3, by rwa [← add_assoc]⟩

/-- Near a point that is not an inner point of the geom there are points outside it that are on none of the
segments. -/
theorem Geom2D.Fine.near_out {g : Geom2D} (hg : g.Fine) (S : List Seg) {p : Pt} (hp : Geom2D.locate g p ≠ .ok 1)
    {P : Pt → Prop} (hP : Stable P) (h0 : P 0) : ∃ v, P v ∧ Geom2D.locate g (p + v) = .ok (-1) ∧ ¬ OnAny S (p + v) := by
  have step : ∃ v, P v ∧ Geom2D.locate g (p + v) = .ok (-1) := by
    by_cases h : g.Has p
    · rcases (hg.crisp.has hg.proper.made p).1 h with h | h
      · exact absurd h hp
      · exact (hg.crisp.near hg.proper.made h hP h0).2
    · exact ⟨0, h0, by rw [add_zero]; exact (not_has hg.proper.made p).1 h⟩
  obtain ⟨v, v1, v2⟩ := step
  obtain ⟨u, hu⟩ := generic_dir S (p + v)
  obtain ⟨ε, -, e1, e2, e3⟩ := small_exists (hu.and ((hP v v1 u).and (stable_outside hg.proper.made p v v2 u)))
  exact ⟨v + ε • u, e2, e3, by rwa [← add_assoc]⟩

theorem off_pair {a b : Geom2D} {p : Pt} (h : ¬ OnAny (a.allSegments ++ b.allSegments) p) : ¬ a.OnEdge p ∧ ¬ b.OnEdge p := by
  rw [← onEdge_iff, ← onEdge_iff]
  exact ⟨fun hc => h (hc.mono fun s hs => List.mem_append_left _ hs),
    fun hc => h (hc.mono fun s hs => List.mem_append_right _ hs)⟩

/-- C78: a point is in `a | b` or on its edges if and only if it is in `a` or on its edges, or in `b` or on its edges. -/
theorem c78_or (ch : Choices) (hch : ch.Valid) {a b r : Geom2D} (ha : a.Fine) (hb : b.Fine)
    (h : Geom2D.or (arrangementOp ch) a b = .ok r) (p : Pt) : r.Has p ↔ a.Has p ∨ b.Has p := by
  have hr := or_fine ch hch ha hb h
  obtain ⟨-, -, h3⟩ := c35_operators ch hch a b ha.proper.made hb.proper.made r Or (Or.inl ⟨h, rfl⟩)
  constructor
  · intro hp
    by_contra hc
    push Not at hc
    obtain ⟨v, ⟨v1, v2⟩, v3, v4⟩ := hr.near_in (a.allSegments ++ b.allSegments) hp
      ((stable_outside ha.proper.made p).and (stable_outside hb.proper.made p)) (by
        rw [add_zero]; exact ⟨(not_has ha.proper.made p).1 hc.1, (not_has hb.proper.made p).1 hc.2⟩)
    obtain ⟨n1, n2⟩ := off_pair v4
    rcases (h3 _ n1 n2).1.1 v3 with h' | h'
    · rw [h'] at v1; cases v1
    · rw [h'] at v2; cases v2
  · intro hp
    by_contra hc
    have h0 : Geom2D.locate r (p + 0) = .ok (-1) := by rw [add_zero]; exact (not_has hr.proper.made p).1 hc
    rcases hp with hp | hp
    · obtain ⟨v, v1, v2, v3⟩ := ha.near_in (a.allSegments ++ b.allSegments) hp (stable_outside hr.proper.made p) h0
      obtain ⟨n1, n2⟩ := off_pair v3
      rw [(h3 _ n1 n2).1.2 (Or.inl v2)] at v1; cases v1
    · obtain ⟨v, v1, v2, v3⟩ := hb.near_in (a.allSegments ++ b.allSegments) hp (stable_outside hr.proper.made p) h0
      obtain ⟨n1, n2⟩ := off_pair v3
      rw [(h3 _ n1 n2).1.2 (Or.inr v2)] at v1; cases v1

/-- C78: the inner points of `a & b` are exactly the inner points of both. -/
theorem c78_and (ch : Choices) (hch : ch.Valid) {a b r : Geom2D} (ha : a.Fine) (hb : b.Fine)
    (h : Geom2D.and (arrangementOp ch) a b = .ok r) (p : Pt) :
    Geom2D.locate r p = .ok 1 ↔ Geom2D.locate a p = .ok 1 ∧ Geom2D.locate b p = .ok 1 := by
  have hr := and_fine ch hch ha.usable hb.usable h
  obtain ⟨-, -, h3⟩ := c35_operators ch hch a b ha.proper.made hb.proper.made r And (Or.inr (Or.inl ⟨h, rfl⟩))
  constructor
  · intro hp
    have h0 : Geom2D.locate r (p + 0) = .ok 1 := by rwa [add_zero]
    constructor
    · by_contra hc
      obtain ⟨v, v1, v2, v3⟩ := ha.near_out (a.allSegments ++ b.allSegments) hc (stable_inside hr.proper.made p) h0
      obtain ⟨n1, n2⟩ := off_pair v3
      rw [((h3 _ n1 n2).1.1 v1).1] at v2; cases v2
    · by_contra hc
      obtain ⟨v, v1, v2, v3⟩ := hb.near_out (a.allSegments ++ b.allSegments) hc (stable_inside hr.proper.made p) h0
      obtain ⟨n1, n2⟩ := off_pair v3
      rw [((h3 _ n1 n2).1.1 v1).2] at v2; cases v2
  · rintro ⟨h1, h2⟩
    by_contra hc
    obtain ⟨v, ⟨v1, v2⟩, v3, v4⟩ := hr.near_out (a.allSegments ++ b.allSegments) hc
      ((stable_inside ha.proper.made p).and (stable_inside hb.proper.made p)) (by rw [add_zero]; exact ⟨h1, h2⟩)
    obtain ⟨n1, n2⟩ := off_pair v4
    rw [(h3 _ n1 n2).1.2 ⟨v1, v2⟩] at v3; cases v3

/-- C78: the inner points of `a - b` are exactly the inner points of `a` that are outside `b`. -/
theorem c78_sub (ch : Choices) (hch : ch.Valid) {a b r : Geom2D} (ha : a.Fine) (hb : b.Fine)
    (h : Geom2D.sub (arrangementOp ch) a b = .ok r) (p : Pt) :
    Geom2D.locate r p = .ok 1 ↔ Geom2D.locate a p = .ok 1 ∧ Geom2D.locate b p = .ok (-1) := by
  have hr := sub_fine ch hch ha hb.usable h
  obtain ⟨-, -, h3⟩ := c35_operators ch hch a b ha.proper.made hb.proper.made r (fun x y => x ∧ ¬ y) (Or.inr (Or.inr ⟨h, rfl⟩))
  constructor
  · intro hp
    have h0 : Geom2D.locate r (p + 0) = .ok 1 := by rwa [add_zero]
    constructor
    · by_contra hc
      obtain ⟨v, v1, v2, v3⟩ := ha.near_out (a.allSegments ++ b.allSegments) hc (stable_inside hr.proper.made p) h0
      obtain ⟨n1, n2⟩ := off_pair v3
      rw [((h3 _ n1 n2).1.1 v1).1] at v2; cases v2
    · rw [← not_has hb.proper.made]
      intro hc
      obtain ⟨v, v1, v2, v3⟩ := hb.near_in (a.allSegments ++ b.allSegments) hc (stable_inside hr.proper.made p) h0
      obtain ⟨n1, n2⟩ := off_pair v3
      exact ((h3 _ n1 n2).1.1 v1).2 v2
  · rintro ⟨h1, h2⟩
    by_contra hc
    obtain ⟨v, ⟨v1, v2⟩, v3, v4⟩ := hr.near_out (a.allSegments ++ b.allSegments) hc
      ((stable_inside ha.proper.made p).and (stable_outside hb.proper.made p)) (by rw [add_zero]; exact ⟨h1, h2⟩)
    obtain ⟨n1, n2⟩ := off_pair v4
    rw [(h3 _ n1 n2).1.2 ⟨v1, by rw [v2]; decide⟩] at v3; cases v3

end Ply
