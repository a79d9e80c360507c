import Verif.Spec.Plane

/-!
# Oriented boundaries of collections of cells

A cell is a closed walk, given by its list of vertices; `polyEdges` are its directed edges.
-/

namespace Ply

variable {V : Type}

/-- All directed edges of the cells. -/
def allEdges (cells : List (List V)) : List (V × V) := cells.flatMap polyEdges

/-- How often `u → v` occurs in the cells, minus how often `v → u` does. -/
def signedContent [DecidableEq V] (cells : List (List V)) (u v : V) : ℤ :=
  ((allEdges cells).count (u, v) : ℤ) - ((allEdges cells).count (v, u) : ℤ)

/-- Two cells are adjacent: some edge of one is the reverse of an edge of the other. -/
def Adjacent (a b : List V) : Prop := ∃ u v, (u, v) ∈ polyEdges a ∧ (v, u) ∈ polyEdges b

end Ply
