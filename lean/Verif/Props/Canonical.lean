import Verif.Model.CellMerger
import Mathlib.Data.List.Rotate
import Mathlib.Order.Defs.LinearOrder
import Mathlib.Data.Nat.Basic

/-!
# `canonicalize_cell` gives one form for all ways to write down a cell (C107)
-/

namespace Ply.CellMerger

variable {V : Type} [LinearOrder V]

/-- The order of the vertices. -/
def ordLt (a b : V) : Bool := decide (a < b)

/-- `v` is the least vertex of the cell and the cell goes through it once. -/
def LeastOnce (c : List V) (v : V) : Prop := c.count v = 1 ∧ ∀ u ∈ c, v ≤ u

/-- The loop finds the place of the least vertex, the first if there are several. -/
theorem mini_spec {c : List V} (hc : c ≠ []) (k : ℕ) (hk : k ≤ c.length) :
    ∃ m : Fin c.length, (List.range k).foldl (fun (mini i : ℕ) =>
      match c[i]?, c[mini]? with
      | some a, some b => if ordLt a b then i else mini
      | _, _ => mini) 0 = m.1 ∧ (∀ j : Fin c.length, j.1 < k → c[m] ≤ c[j]) ∧ ∀ j : Fin c.length, j < m → c[m] < c[j] := by
  have h0 : 0 < c.length := List.length_pos_iff.2 hc
  induction k with
  | zero => exact ⟨⟨0, h0⟩, rfl, fun j hj => absurd hj (by omega), fun j hj => absurd hj (by simp [Fin.lt_def])⟩
  | succ k ih =>
    obtain ⟨m, h1, h2, h3⟩ := ih (by omega)
    have hk' : k < c.length := by omega
    rw [List.range_succ, List.foldl_append, h1]
    simp only [List.foldl_cons, List.foldl_nil, List.getElem?_eq_getElem hk', List.getElem?_eq_getElem m.2]
    by_cases hlt : c[k] < c[m.1]
    · refine ⟨⟨k, hk'⟩, by simp [ordLt, hlt], fun j hj => ?_, fun j hj => ?_⟩
      · rcases Nat.lt_succ_iff_lt_or_eq.1 hj with hj | hj
        · exact hlt.le.trans (h2 j hj)
        · simp [hj]
      · exact lt_of_lt_of_le hlt (h2 j hj)
    · refine ⟨m, by simp [ordLt, hlt], fun j hj => ?_, h3⟩
      rcases Nat.lt_succ_iff_lt_or_eq.1 hj with hj | hj
      · exact h2 j hj
      · have := not_lt.1 hlt
        simpa [hj] using this

theorem canonical_eq {c : List V} (hc : c ≠ []) :
    ∃ m : Fin c.length, canonicalizeCell ordLt c = c.drop m ++ c.take m ∧ ∀ j : Fin c.length, c[m] ≤ c[j] := by
  obtain ⟨m, h1, h2, -⟩ := mini_spec hc c.length le_rfl
  refine ⟨m, ?_, fun j => h2 j j.2⟩
  rw [← h1]
  rfl

/-- C107: the result is the same cell, written down from another vertex. -/
theorem c107_rotated (c : List V) : canonicalizeCell ordLt c ~r c := by
  rcases eq_or_ne c [] with rfl | hc
  · exact List.IsRotated.refl _
  · obtain ⟨m, h1, -⟩ := canonical_eq hc
    rw [h1, ← List.rotate_eq_drop_append_take m.2.le]
    exact (List.IsRotated.forall c m)

/-- C107: it starts with the least vertex. -/
theorem c107_least {c : List V} (hc : c ≠ []) : ∃ v rest, canonicalizeCell ordLt c = v :: rest ∧ ∀ u ∈ c, v ≤ u := by
  obtain ⟨m, h1, h2⟩ := canonical_eq hc
  refine ⟨c[m], c.drop (m + 1) ++ c.take m, ?_, fun u hu => ?_⟩
  · rw [h1, List.drop_eq_getElem_cons m.2]
    rfl
  · obtain ⟨j, hj, rfl⟩ := List.mem_iff_getElem.1 hu
    exact h2 ⟨j, hj⟩

/-- C107: if the cell passes the least vertex several times, the form starts with the first of them. -/
theorem c107_first {c : List V} (hc : c ≠ []) : ∃ pre v post, c = pre ++ v :: post ∧ canonicalizeCell ordLt c = v :: post ++ pre ∧
    (∀ u ∈ pre, v < u) ∧ ∀ u ∈ post, v ≤ u := by
  obtain ⟨m, h1, h2, h3⟩ := mini_spec hc c.length le_rfl
  refine ⟨c.take m, c[m], c.drop (m + 1), ?_, ?_, fun u hu => ?_, fun u hu => ?_⟩
  · show c = c.take m ++ c[m.1] :: c.drop (m.1 + 1)
    rw [← List.drop_eq_getElem_cons m.2, List.take_append_drop]
  · show canonicalizeCell ordLt c = (c[m.1] :: c.drop (m.1 + 1)) ++ c.take m
    rw [← List.drop_eq_getElem_cons m.2, ← h1]
    rfl
  · obtain ⟨j, hj, rfl⟩ := List.mem_iff_getElem.1 hu
    rw [List.length_take] at hj
    rw [List.getElem_take]
    exact h3 ⟨j, by omega⟩ (by show j < m.1; omega)
  · obtain ⟨j, hj, rfl⟩ := List.mem_iff_getElem.1 (List.mem_of_mem_drop hu)
    exact h2 ⟨j, hj⟩ hj

omit [LinearOrder V] in
theorem rotated_head {v : V} {s t : List V} (h : v :: s ~r v :: t) (hv : v ∉ s) : v :: s = v :: t := by
  obtain ⟨n, hn, h⟩ := List.isRotated_iff_mod.1 h
  rcases Nat.eq_zero_or_pos n with rfl | hpos
  · rwa [List.rotate_zero] at h
  · rcases Nat.lt_or_ge n (v :: s).length with hlt | hge
    · exfalso
      obtain ⟨k, rfl⟩ : ∃ k, n = k + 1 := ⟨n - 1, by omega⟩
      rw [List.rotate_eq_drop_append_take hlt.le, List.drop_succ_cons] at h
      have hk : k < s.length := by simpa using hlt
      rw [List.drop_eq_getElem_cons hk, List.cons_append] at h
      exact hv ((List.cons.inj h).1 ▸ List.getElem_mem hk)
    · have : n = (v :: s).length := le_antisymm hn hge
      rwa [this, List.rotate_length] at h

/-- C107: two cells, each going once through its least vertex, have the same canonical form exactly if they
are one cell written down from two vertices. -/
theorem c107_same {c d : List V} {v w : V} (hc : LeastOnce c v) (hd : LeastOnce d w) :
    canonicalizeCell ordLt c = canonicalizeCell ordLt d ↔ c ~r d := by
  constructor
  · intro h
    exact (c107_rotated c).symm.trans (h ▸ c107_rotated d)
  · intro h
    have mem : ∀ {c : List V} {v : V}, LeastOnce c v → v ∈ c := fun h => List.count_pos_iff.1 (by rw [h.1]; exact Nat.one_pos)
    have shape : ∀ {c : List V} {v : V}, LeastOnce c v → ∃ s, canonicalizeCell ordLt c = v :: s ∧ v ∉ s := by
      intro c v hc
      obtain ⟨u, s, h1, h2⟩ := c107_least (List.ne_nil_of_mem (mem hc))
      have hp := (c107_rotated c).perm
      rw [h1] at hp
      have : u = v := le_antisymm (h2 v (mem hc)) (hc.2 u (hp.subset (List.mem_cons_self ..)))
      subst this
      refine ⟨s, h1, fun hs => ?_⟩
      have := hp.count_eq u
      rw [hc.1, List.count_cons_self] at this
      exact absurd (List.count_pos_iff.2 hs) (by omega)
    have : v = w := le_antisymm (hc.2 w (h.perm.symm.subset (mem hd))) (hd.2 v (h.perm.subset (mem hc)))
    subst this
    obtain ⟨s, h1, h2⟩ := shape hc
    obtain ⟨t, h3, -⟩ := shape hd
    have hr := (c107_rotated c).trans (h.trans (c107_rotated d).symm)
    rw [h1, h3] at hr ⊢
    exact rotated_head hr h2

/-- With the least vertex passed twice this fails: the form depends on where the cell is written down from. -/
theorem c107_twice : ([0, 1, 0, 2] : List ℕ) ~r [0, 2, 0, 1] ∧
    canonicalizeCell ordLt ([0, 1, 0, 2] : List ℕ) ≠ canonicalizeCell ordLt ([0, 2, 0, 1] : List ℕ) :=
  ⟨⟨2, rfl⟩, by decide⟩

/-! ### Example -/

theorem c107_run : canonicalizeCell ordLt ([3, 1, 2, 5] : List ℕ) = [1, 2, 5, 3] ∧ LeastOnce ([3, 1, 2, 5] : List ℕ) 1 ∧
    canonicalizeCell ordLt ([5, 3, 1, 2] : List ℕ) = [1, 2, 5, 3] := by
  refine ⟨by decide, ⟨by decide, by decide⟩, by decide⟩

end Ply.CellMerger
