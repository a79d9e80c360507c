import Mathlib.Logic.Relation
import Verif.Spec.Touch

/-!
# Specification: rings that cover an area side by side

Independent of the model's functions.
-/

namespace Ply

/-- From each point the edges of the rings go in at most three directions: of any four points that are reached from it along
edges, one is on the way to another. -/
def Threeway (Ls : List (List Pt)) : Prop :=
  ∀ (v : Pt) (x : Fin 4 → Pt), (∀ i, v ≠ x i ∧ ∃ L ∈ Ls, ∃ e ∈ polyEdges L, OnSeg e v ∧ OnSeg e (x i)) →
    ∃ i j, i ≠ j ∧ OnSeg (v, x i) (x j)

/-- The straight way between the points meets no boundary of a ring. -/
def FreeStep (Ls : List (List Pt)) (p q : Pt) : Prop := ∀ x, OnSeg (p, q) x → ∀ L ∈ Ls, ¬ OnBoundary L x

/-- From the point one gets away arbitrarily far without meeting a boundary. -/
def Escapes (Ls : List (List Pt)) (p : Pt) : Prop := ∀ M : ℚ, ∃ q : Pt, M < q.1 ∧ Relation.ReflTransGen (FreeStep Ls) p q

/-- Rings whose insides are apart, with at most three edges at a point.  Together they have no holes: one gets away from each
point outside of them. -/
structure Tiles (Ls : List (List Pt)) : Prop where
  clear : Clear Ls
  three : Threeway Ls
  open_ : ∀ p, (∀ L ∈ Ls, ¬ OnBoundary L p) → (∀ L ∈ Ls, ¬ InPoly L p) → Escapes Ls p

end Ply
