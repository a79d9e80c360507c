import Verif.Spec.Minkowski
import Verif.Spec.Region

/-!
# Specification: rings that touch along straight stretches

Independent of the model's functions.
-/

namespace Ply

/-- Simple clockwise rings whose insides are apart. -/
structure Clear (Ls : List (List Pt)) : Prop where
  simple : ∀ L ∈ Ls, SimpleRing L
  cw : ∀ L ∈ Ls, shoelace L < 0
  apart : ∀ L ∈ Ls, ∀ M ∈ Ls, ∀ p, InPoly L p → InPoly M p → L = M

/-- The boundaries have a common point. -/
def Meet (L M : List Pt) : Prop := ∃ p, OnBoundary L p ∧ OnBoundary M p

/-- Rings whose insides are apart.  Two of them have at most one common point, or their common points are one
straight stretch.  They make no closed chain: among any of them there is one that meets at most one other. -/
structure Touching (Ls : List (List Pt)) : Prop where
  clear : Clear Ls
  seam : ∀ L ∈ Ls, ∀ M ∈ Ls, L ≠ M →
    (∀ p q, OnBoundary L p ∧ OnBoundary M p → OnBoundary L q ∧ OnBoundary M q → p = q) ∨
    ∃ x y, x ≠ y ∧ ∀ p, OnBoundary L p ∧ OnBoundary M p ↔ OnSeg (x, y) p
  forest : ∀ F : List (List Pt), F ≠ [] → F.Nodup → (∀ L ∈ F, L ∈ Ls) →
    ∃ L ∈ F, ∀ M ∈ F, ∀ N ∈ F, M ≠ L → N ≠ L → Meet L M → Meet L N → M = N

/-- A plate and fingers.  The fingers are apart from each other.  Each of them touches the plate along one straight
stretch. -/
structure Star (P : List Pt) (Fs : List (List Pt)) : Prop where
  clear : Clear (P :: Fs)
  other : P ∉ Fs
  apart : ∀ F ∈ Fs, ∀ G ∈ Fs, F ≠ G → ¬ Meet F G
  seam : ∀ F ∈ Fs, ∃ x y, x ≠ y ∧ ∀ p, OnBoundary P p ∧ OnBoundary F p ↔ OnSeg (x, y) p

/-- The rings of a plate given by its outline and its holes, all of them clockwise: the outline, and the holes turned round. -/
def plateRings (P : List Pt × List (List Pt)) : List (List Pt) := P.1 :: P.2.map List.reverse

/-- Plates with holes whose insides are apart.  The rings of one plate do not meet. -/
structure ClearPlates (Ps : List (List Pt × List (List Pt))) : Prop where
  simple : ∀ P ∈ Ps, ∀ L ∈ P.1 :: P.2, SimpleRing L ∧ shoelace L < 0
  within : ∀ P ∈ Ps, ∀ H ∈ P.2, ∀ p, InPoly H p → InPoly P.1 p
  holes : ∀ P ∈ Ps, P.2.Pairwise fun H K => ∀ p, ¬ (InPoly H p ∧ InPoly K p)
  free : ∀ P ∈ Ps, (P.1 :: P.2).Pairwise fun L M => ¬ Meet L M
  apart : ∀ P ∈ Ps, ∀ Q ∈ Ps, ∀ p, InRegion P.1 P.2 p → InRegion Q.1 Q.2 p → P = Q

/-- Plates with holes.  Two rings have at most one common point, or their common points are one straight stretch.  The rings make
no closed chain. -/
structure TouchingPlates (Ps : List (List Pt × List (List Pt))) : Prop extends ClearPlates Ps where
  seam : ∀ L ∈ Ps.flatMap plateRings, ∀ M ∈ Ps.flatMap plateRings, L ≠ M →
    (∀ p q, OnBoundary L p ∧ OnBoundary M p → OnBoundary L q ∧ OnBoundary M q → p = q) ∨
    ∃ x y, x ≠ y ∧ ∀ p, OnBoundary L p ∧ OnBoundary M p ↔ OnSeg (x, y) p
  forest : ∀ F : List (List Pt), F ≠ [] → F.Nodup → (∀ L ∈ F, L ∈ Ps.flatMap plateRings) →
    ∃ L ∈ F, ∀ M ∈ F, ∀ N ∈ F, M ≠ L → N ≠ L → Meet L M → Meet L N → M = N

/-- Rings of the two plates have a common point. -/
def PlatesMeet (P Q : List Pt × List (List Pt)) : Prop := ∃ L ∈ plateRings P, ∃ M ∈ plateRings Q, Meet L M

/-- Plates with holes.  Two plates meet in at most one ring of each.  These rings have one common point, or their common points
are one straight stretch.  The plates make no closed chain: among any of them there is one that meets at most one other. -/
structure PlateForest (Ps : List (List Pt × List (List Pt))) : Prop extends ClearPlates Ps where
  seam : ∀ P ∈ Ps, ∀ Q ∈ Ps, P ≠ Q → ∀ L ∈ plateRings P, ∀ M ∈ plateRings Q,
    (∀ p q, OnBoundary L p ∧ OnBoundary M p → OnBoundary L q ∧ OnBoundary M q → p = q) ∨
    ∃ x y, x ≠ y ∧ ∀ p, OnBoundary L p ∧ OnBoundary M p ↔ OnSeg (x, y) p
  pair : ∀ P ∈ Ps, ∀ Q ∈ Ps, P ≠ Q → ∀ L ∈ plateRings P, ∀ M ∈ plateRings Q, ∀ L' ∈ plateRings P, ∀ M' ∈ plateRings Q,
    Meet L M → Meet L' M' → L = L' ∧ M = M'
  forest : ∀ F : List (List Pt × List (List Pt)), F ≠ [] → F.Nodup → (∀ P ∈ F, P ∈ Ps) →
    ∃ P ∈ F, ∀ Q ∈ F, ∀ R ∈ F, Q ≠ P → R ≠ P → PlatesMeet P Q → PlatesMeet P R → Q = R

/-- A plate with holes and the fingers on its edge and on the edges of its holes.  No two fingers meet.  A finger meets one ring
of the plate, along a straight stretch. -/
structure PlateStar (P : List Pt × List (List Pt)) (Fs : List (List Pt)) : Prop where
  simple : ∀ L ∈ P.1 :: (P.2 ++ Fs), SimpleRing L ∧ shoelace L < 0
  within : ∀ H ∈ P.2, ∀ p, InPoly H p → InPoly P.1 p
  holes : P.2.Pairwise fun H K => ∀ p, ¬ (InPoly H p ∧ InPoly K p)
  free : (P.1 :: P.2).Pairwise fun L M => ¬ Meet L M
  apart : ∀ F ∈ Fs, ∀ p, InRegion P.1 P.2 p → ¬ InPoly F p
  fingers : ∀ F ∈ Fs, ∀ G ∈ Fs, (∃ p, InPoly F p ∧ InPoly G p) ∨ Meet F G → F = G
  seam : ∀ F ∈ Fs, ∃ R ∈ plateRings P, (∀ M ∈ plateRings P, Meet M F → M = R) ∧
    ∃ x y, x ≠ y ∧ ∀ p, OnBoundary R p ∧ OnBoundary F p ↔ OnSeg (x, y) p

end Ply
