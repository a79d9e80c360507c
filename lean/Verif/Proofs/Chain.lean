import Verif.Spec.Plane
import Mathlib.Data.List.Rotate
import Mathlib.Tactic.Ring

/-! Helper lemmas about edge lists of closed polygons. -/

namespace Ply

variable {α : Type*}

/-- Edges of the path starting at `prev` and visiting the vertices in order. -/
def chain : α → List α → List (α × α)
  | _, [] => []
  | prev, v :: rest => (prev, v) :: chain v rest

@[simp] theorem chain_nil (a : α) : chain a [] = [] := rfl
@[simp] theorem chain_cons (a v : α) (l : List α) : chain a (v :: l) = (a, v) :: chain v l := rfl

theorem chain_append (a : α) (l m : List α) :
    chain a (l ++ m) = chain a l ++ chain ((a :: l).getLast (by simp)) m := by
  induction l generalizing a with
  | nil => simp
  | cons b l ih => simp [ih b]

theorem chain_append_singleton (a b : α) (l : List α) :
    chain a (l ++ [b]) = chain a l ++ [((a :: l).getLast (by simp), b)] := by
  rw [chain_append]; rfl

theorem polyEdges_cons (a : α) (rest : List α) : polyEdges (a :: rest) = chain a (rest ++ [a]) := by
  unfold polyEdges
  have : ∀ (b : α) (l : List α), (b :: l).zip (l ++ [a]) = chain b (l ++ [a]) := by
    intro b l
    induction l generalizing b with
    | nil => rfl
    | cons c l ih => simp only [List.cons_append, List.zip_cons_cons, chain_cons, ih c]
  exact this a rest

/-- The cyclic edges as the loops in the code visit them: starting with `(last, first)`. -/
theorem chain_last_perm (l : List α) (h : l ≠ []) :
    (chain (l.getLast h) l).Perm (polyEdges l) := by
  cases l with
  | nil => exact absurd rfl h
  | cons a rest =>
    rw [polyEdges_cons, chain_append_singleton, chain_cons]
    exact (List.perm_append_singleton _ _).symm

theorem polyEdges_rotate_one (l : List α) : (polyEdges (l.rotate 1)).Perm (polyEdges l) := by
  cases l with
  | nil => simp
  | cons a rest =>
    cases rest with
    | nil => simp
    | cons b rest =>
      have : (a :: b :: rest).rotate 1 = b :: (rest ++ [a]) := by simp
      rw [this, polyEdges_cons, polyEdges_cons, chain_append_singleton, List.cons_append, chain_cons]
      have hl : (b :: (rest ++ [a])).getLast (by simp) = a := by
        simp [List.getLast_cons]
      rw [hl]
      exact List.perm_append_singleton _ _

theorem polyEdges_rotate (l : List α) (n : ℕ) : (polyEdges (l.rotate n)).Perm (polyEdges l) := by
  induction n with
  | zero => simp
  | succ n ih =>
    rw [← List.rotate_rotate]
    exact (polyEdges_rotate_one _).trans ih

theorem chain_swap (a b : α) (l : List α) :
    ((chain a (l ++ [b])).map Prod.swap).Perm (chain b (l.reverse ++ [a])) := by
  induction l generalizing a with
  | nil => simp
  | cons c l ih =>
    simp only [List.cons_append, chain_cons, List.map_cons, Prod.swap_prod_mk, List.reverse_cons]
    rw [chain_append_singleton b a (l.reverse ++ [c])]
    have hl : (b :: (l.reverse ++ [c])).getLast (by simp) = c := by
      simp [List.getLast_cons]
    rw [hl]
    exact ((List.perm_append_singleton _ _).trans ((ih c).symm.cons _)).symm

theorem polyEdges_reverse (l : List α) :
    (polyEdges l.reverse).Perm ((polyEdges l).map Prod.swap) := by
  cases l with
  | nil => simp [polyEdges]
  | cons a rest =>
    have h1 : (polyEdges (a :: rest).reverse).Perm (polyEdges (a :: rest.reverse)) := by
      have : (a :: rest.reverse).rotate 1 = (a :: rest).reverse := by simp
      rw [← this]
      exact polyEdges_rotate_one _
    refine h1.trans ?_
    rw [polyEdges_cons, polyEdges_cons]
    exact (chain_swap a a rest).symm

theorem chain_map {β : Type*} (f : α → β) (a : α) (l : List α) :
    chain (f a) (l.map f) = (chain a l).map (Prod.map f f) := by
  induction l generalizing a with
  | nil => rfl
  | cons b l ih => simp [ih b]

theorem polyEdges_map {β : Type*} (f : α → β) (l : List α) :
    polyEdges (l.map f) = (polyEdges l).map (Prod.map f f) := by
  cases l with
  | nil => simp [polyEdges]
  | cons a l =>
    rw [List.map_cons, polyEdges_cons, polyEdges_cons, ← chain_map]
    simp

/-- Telescoping along a path. -/
theorem chain_telescope {M : Type*} [AddCommGroup M] (f : α → M) (a : α) (l : List α) :
    ((chain a l).map fun e => f e.2 - f e.1).sum = f ((a :: l).getLast (by simp)) - f a := by
  induction l generalizing a with
  | nil => simp
  | cons b l ih =>
    simp only [chain_cons, List.map_cons, List.sum_cons, ih b]
    simp only [List.getLast_cons_cons]
    abel

theorem polyEdges_telescope {M : Type*} [AddCommGroup M] (f : α → M) (l : List α) :
    ((polyEdges l).map fun e => f e.2 - f e.1).sum = 0 := by
  cases l with
  | nil => simp [polyEdges]
  | cons a l =>
    rw [polyEdges_cons, chain_telescope]
    simp [List.getLast_cons]

theorem mem_chain_fst {a : α} {l : List α} {e : α × α} (h : e ∈ chain a l) :
    e.1 = a ∨ e.1 ∈ l := by
  induction l generalizing a with
  | nil => simp at h
  | cons b l ih =>
    rcases List.mem_cons.1 h with rfl | h
    · exact Or.inl rfl
    · rcases ih h with h | h
      · exact Or.inr (by simp [h])
      · exact Or.inr (by simp [h])

theorem mem_chain_snd {a : α} {l : List α} {e : α × α} (h : e ∈ chain a l) : e.2 ∈ l := by
  induction l generalizing a with
  | nil => simp at h
  | cons b l ih =>
    rcases List.mem_cons.1 h with rfl | h
    · simp
    · exact List.mem_cons_of_mem _ (ih h)

theorem exists_chain_snd {a v : α} {l : List α} (h : v ∈ l) : ∃ e ∈ chain a l, e.2 = v := by
  induction l generalizing a with
  | nil => simp at h
  | cons b l ih =>
    rcases List.mem_cons.1 h with rfl | h
    · exact ⟨(a, v), by simp, rfl⟩
    · obtain ⟨e, he, h2⟩ := ih (a := b) h
      exact ⟨e, by simp [he], h2⟩

theorem polyEdges_mem {l : List α} {e : α × α} (h : e ∈ polyEdges l) : e.1 ∈ l ∧ e.2 ∈ l := by
  cases l with
  | nil => simp [polyEdges] at h
  | cons a l =>
    rw [polyEdges_cons] at h
    constructor
    · rcases mem_chain_fst h with h | h
      · simp [h]
      · simp only [List.mem_append, List.mem_singleton] at h
        rcases h with h | h <;> simp [h]
    · have := mem_chain_snd h
      simp only [List.mem_append, List.mem_singleton] at this
      rcases this with h | h <;> simp [h]

theorem polyEdges_snd {l : List α} {v : α} (h : v ∈ l) : ∃ e ∈ polyEdges l, e.2 = v := by
  cases l with
  | nil => simp at h
  | cons a l =>
    rw [polyEdges_cons]
    apply exists_chain_snd
    simp only [List.mem_cons] at h
    simp only [List.mem_append, List.mem_singleton]
    exact h.symm

theorem polyEdges_fst {l : List α} {v : α} (h : v ∈ l) : ∃ e ∈ polyEdges l, e.1 = v := by
  obtain ⟨e, he, h2⟩ := polyEdges_snd (l := l.reverse) (v := v) (by simpa using h)
  have := (polyEdges_reverse l).mem_iff.1 he
  obtain ⟨e', he', rfl⟩ := List.mem_map.1 this
  exact ⟨e', he', h2⟩

end Ply
