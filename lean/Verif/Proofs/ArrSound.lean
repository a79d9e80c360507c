import Verif.Props.Geom2D

/-!
# What is asked of the n-ary arrangement operation

Used as hypothesis by theorems about code that calls `_arrangement_op`.
-/

namespace Ply

/-- Every polygon passed the constructor. -/
def Geom2D.WellMade (g : Geom2D) : Prop := ∀ s ∈ g, SPWH.mk' s.outer s.holes = .ok s

/-- The point is on an edge of the geom. -/
def Geom2D.OnEdge (g : Geom2D) (p : Pt) : Prop :=
  ∃ s ∈ g, OnBoundary s.outer p ∨ ∃ h ∈ s.holes, OnBoundary h p

/-- When `_arrangement_op` returns, for a Boolean function not selecting the points outside everything,
the result passed the constructor, has its edges on edges of the operands, and off these contains
exactly the points selected by the Boolean function. -/
def ArrSound (arr : Geom2D.ArrOp) : Prop :=
  ∀ gs op r, op (gs.map fun _ => false) = false → (∀ g ∈ gs, Geom2D.WellMade g) → arr gs op = .ok r →
    r.WellMade ∧ (∀ p, r.OnEdge p → ∃ g ∈ gs, Geom2D.OnEdge g p) ∧
    ∀ p, (∀ g ∈ gs, ¬ Geom2D.OnEdge g p) →
      (Geom2D.locate r p = .ok 1 ↔ op (gs.map fun g => decide (Geom2D.locate g p = .ok 1)) = true)

/-- `union` of any number of geoms by a sound arrangement operation. -/
theorem union_sound (arr : Geom2D.ArrOp) (ha : ArrSound arr) (gs : List Geom2D)
    (hg : ∀ g ∈ gs, Geom2D.WellMade g) (fuel : ℕ) (hf : gs.length + 4 ≤ fuel) (r : Geom2D)
    (hr : Geom2D.union arr fuel gs = .ok r) :
    r.WellMade ∧ (∀ p, r.OnEdge p → ∃ g ∈ gs, Geom2D.OnEdge g p) ∧
    ∀ p, (∀ g ∈ gs, ¬ Geom2D.OnEdge g p) →
      (Geom2D.locate r p = .ok 1 ↔ ∃ g ∈ gs, Geom2D.locate g p = .ok 1) := by
  have key : ∀ p, (∀ g ∈ gs, ¬ Geom2D.OnEdge g p) →
      (r.WellMade ∧ ∀ q, r.OnEdge q → ∃ g ∈ gs, Geom2D.OnEdge g q) ∧
      (Geom2D.locate r p = .ok 1 ↔ ∃ g ∈ gs, Geom2D.locate g p = .ok 1) := by
    intro p hp
    have := (c34_union arr p (fun g => Geom2D.WellMade g ∧ ∀ q, g.OnEdge q → ∃ g' ∈ gs, Geom2D.OnEdge g' q)
      ⟨by intro s hs; simp at hs, by rintro q ⟨s, hs, _⟩; simp at hs⟩ (by
        intro gs' r' h' hgood
        obtain ⟨a, b, c⟩ := ha gs' _ r' (by simp) (fun g hg => (hgood g hg).1) h'
        refine ⟨⟨a, fun q hq => ?_⟩, ?_⟩
        · obtain ⟨g, hg, hq'⟩ := b q hq
          exact (hgood g hg).2 q hq'
        · rw [c p (fun g hg hq => by
            obtain ⟨g', hg', hq'⟩ := (hgood g hg).2 p hq
            exact hp g' hg' hq')]
          simp) gs fuel hf).2
    rcases this with ⟨r', h1, h2⟩ | ⟨e, _, h1, _⟩
    · rw [hr] at h1
      cases h1
      exact h2 fun g hg' => ⟨hg g hg', fun q hq => ⟨g, hg', hq⟩⟩
    · rw [hr] at h1; cases h1
  have hex : r.WellMade ∧ ∀ q, r.OnEdge q → ∃ g ∈ gs, Geom2D.OnEdge g q := by
    have harr : ∀ gs' r', arr gs' (fun args => args.any id) = .ok r' →
        (∀ g ∈ gs', Geom2D.WellMade g ∧ ∀ q, g.OnEdge q → ∃ g' ∈ gs, Geom2D.OnEdge g' q) →
        (Geom2D.WellMade r' ∧ ∀ q, r'.OnEdge q → ∃ g' ∈ gs, Geom2D.OnEdge g' q) ∧
        (False ↔ ∃ g ∈ gs', False) := by
      intro gs' r' h' hgood
      obtain ⟨a, b, _⟩ := ha gs' _ r' (by simp) (fun g hg => (hgood g hg).1) h'
      refine ⟨⟨a, fun q hq => ?_⟩, by simp⟩
      obtain ⟨g, hg, hq'⟩ := b q hq
      exact (hgood g hg).2 q hq'
    have hgs : ∀ g ∈ gs, Geom2D.WellMade g ∧ ∀ q, g.OnEdge q → ∃ g' ∈ gs, Geom2D.OnEdge g' q :=
      fun g hg' => ⟨hg g hg', fun q hq => ⟨g, hg', hq⟩⟩
    obtain ⟨f, rfl⟩ : ∃ f, fuel = f + 1 := ⟨fuel - 1, by omega⟩
    rw [Geom2D.union] at hr
    split_ifs at hr with hl
    · rcases Geom2D.unionTree_spec arr (fun _ => False) _ harr
        ⟨by intro s hs; simp [Geom2D.empty] at hs, by rintro q ⟨s, hs, _⟩; simp [Geom2D.empty] at hs⟩
        (by simp) f gs (by omega) with ⟨r', h1, h2⟩ | ⟨e, _, h1, _⟩
      · rw [hr] at h1
        cases h1
        exact (h2 hgs).1
      · rw [hr] at h1; cases h1
    · exact (harr gs r hr hgs).1
  exact ⟨hex.1, hex.2, fun p hp => (key p hp).2⟩

end Ply
