import Verif.Model.PMap
import Mathlib.Tactic.Tauto
import Mathlib.Data.List.Basic

/-! # Persistent maps -/

namespace Ply

variable {κ α : Type} [DecidableEq κ]

theorem PMap.get_set_same (m : PMap κ α) (k : κ) (v : α) : (m.set k v).get k = .ok v := by
  induction m with
  | nil => simp [PMap.set, PMap.get]
  | cons e m ih =>
    obtain ⟨k', w⟩ := e
    rw [PMap.set]
    split_ifs with h
    · simp [PMap.get, h]
    · rw [PMap.get, if_neg h, ih]

theorem PMap.get_set_other (m : PMap κ α) (k k' : κ) (v : α) (h : k' ≠ k) :
    (m.set k v).get k' = m.get k' := by
  induction m with
  | nil => simp [PMap.set, PMap.get, Ne.symm h]
  | cons e m ih =>
    obtain ⟨k'', w⟩ := e
    rw [PMap.set]
    split_ifs with h1
    · subst h1
      rw [PMap.get, PMap.get, if_neg (Ne.symm h), if_neg (Ne.symm h)]
    · rw [PMap.get, PMap.get, ih]

theorem PMap.mem_set (m : PMap κ α) (k : κ) (v : α) (e : κ × α) (h : e ∈ m.set k v) :
    e = (k, v) ∨ e ∈ m := by
  induction m with
  | nil => left; simpa [PMap.set] using h
  | cons e' m ih =>
    obtain ⟨k', w⟩ := e'
    rw [PMap.set] at h
    split_ifs at h with h1
    · subst h1
      rcases List.mem_cons.1 h with h | h
      · exact Or.inl h
      · exact Or.inr (by simp [h])
    · rcases List.mem_cons.1 h with h | h
      · exact Or.inr (by simp [h])
      · rcases ih h with h | h
        · exact Or.inl h
        · exact Or.inr (by simp [h])

theorem PMap.mem_set_keys (m : PMap κ α) (k k' : κ) (v : α) :
    k' ∈ (m.set k v).map Prod.fst ↔ k' = k ∨ k' ∈ m.map Prod.fst := by
  induction m with
  | nil => simp [PMap.set]
  | cons e' m ih =>
    obtain ⟨k'', w⟩ := e'
    rw [PMap.set]
    split_ifs with h1
    · subst h1
      simp only [List.map_cons, List.mem_cons]
      tauto
    · simp only [List.map_cons, List.mem_cons, ih]
      tauto

theorem PMap.nodup_set (m : PMap κ α) (k : κ) (v : α) (h : (m.map Prod.fst).Nodup) :
    ((m.set k v).map Prod.fst).Nodup := by
  induction m with
  | nil => simp [PMap.set]
  | cons e' m ih =>
    obtain ⟨k', w⟩ := e'
    rw [PMap.set]
    rw [List.map_cons, List.nodup_cons] at h
    split_ifs with h1
    · rw [List.map_cons, List.nodup_cons]
      exact h
    · rw [List.map_cons, List.nodup_cons, PMap.mem_set_keys]
      refine ⟨?_, ih h.2⟩
      rintro (h' | h')
      · exact h1 h'
      · exact h.1 h'

theorem PMap.set_new (m : PMap κ α) (k : κ) (v : α) (h : k ∉ m.map Prod.fst) :
    m.set k v = m ++ [(k, v)] := by
  induction m with
  | nil => rfl
  | cons e' m ih =>
    obtain ⟨k', w⟩ := e'
    simp only [List.map_cons, List.mem_cons, not_or] at h
    rw [PMap.set, if_neg (Ne.symm h.1), ih h.2, List.cons_append]

theorem PMap.get_of_mem (m : PMap κ α) (h : (m.map Prod.fst).Nodup) (e : κ × α) (he : e ∈ m) :
    m.get e.1 = .ok e.2 := by
  induction m with
  | nil => simp at he
  | cons e' m ih =>
    obtain ⟨k', w⟩ := e'
    rw [List.map_cons, List.nodup_cons] at h
    rw [PMap.get]
    rcases List.mem_cons.1 he with rfl | he'
    · rw [if_pos rfl]
    · rw [if_neg, ih h.2 he']
      rintro rfl
      exact h.1 (List.mem_map.2 ⟨e, he', rfl⟩)

theorem PMap.mem_of_get (m : PMap κ α) (k : κ) (v : α) (h : m.get k = .ok v) : (k, v) ∈ m := by
  induction m with
  | nil => simp [PMap.get] at h
  | cons e' m ih =>
    obtain ⟨k', w⟩ := e'
    rw [PMap.get] at h
    split_ifs at h with h1
    · subst h1
      cases h
      simp
    · simp [ih h]

theorem PMap.get_eq (m : PMap κ α) (k : κ) :
    m.get k = match m.get? k with
      | some v => .ok v
      | none => .error .keyError := by
  induction m with
  | nil => rfl
  | cons e m ih =>
    obtain ⟨k', w⟩ := e
    rw [PMap.get, PMap.get?]
    by_cases h : k' = k
    · rw [if_pos h, if_pos h]
    · rw [if_neg h, if_neg h, ih]

theorem PMap.get_ok (m : PMap κ α) (k : κ) (v : α) : m.get k = .ok v ↔ m.get? k = some v := by
  rw [PMap.get_eq]
  cases m.get? k <;> simp

theorem PMap.get?_set_same (m : PMap κ α) (k : κ) (v : α) : (m.set k v).get? k = some v :=
  (PMap.get_ok _ _ _).1 (PMap.get_set_same m k v)

theorem PMap.get?_set_other (m : PMap κ α) (k k' : κ) (v : α) (h : k' ≠ k) :
    (m.set k v).get? k' = m.get? k' := by
  have := PMap.get_set_other m k k' v h
  rw [PMap.get_eq, PMap.get_eq] at this
  cases h1 : (PMap.set m k v).get? k' <;> cases h2 : m.get? k' <;> rw [h1, h2] at this <;>
    first | rfl | cases this
  rfl

theorem PMap.get?_set (m : PMap κ α) (k k' : κ) (v : α) :
    (m.set k v).get? k' = if k' = k then some v else m.get? k' := by
  split_ifs with h
  · rw [h, PMap.get?_set_same]
  · exact PMap.get?_set_other m k k' v h

theorem PMap.get?_none (m : PMap κ α) (k : κ) : m.get? k = none ↔ k ∉ m.map Prod.fst := by
  induction m with
  | nil => simp [PMap.get?]
  | cons e m ih =>
    obtain ⟨k', w⟩ := e
    rw [PMap.get?]
    by_cases h : k' = k
    · simp [h]
    · rw [if_neg h, ih]
      simp [Ne.symm h]

theorem PMap.mem_of_get? (m : PMap κ α) (k : κ) (v : α) (h : m.get? k = some v) : (k, v) ∈ m :=
  PMap.mem_of_get m k v ((PMap.get_ok m k v).2 h)

theorem PMap.get?_of_mem (m : PMap κ α) (h : (m.map Prod.fst).Nodup) (e : κ × α) (he : e ∈ m) :
    m.get? e.1 = some e.2 := (PMap.get_ok _ _ _).1 (PMap.get_of_mem m h e he)

theorem PMap.set_keys (m : PMap κ α) (k : κ) (v : α) (h : k ∈ m.map Prod.fst) :
    (m.set k v).map Prod.fst = m.map Prod.fst := by
  induction m with
  | nil => simp at h
  | cons e m ih =>
    obtain ⟨k', w⟩ := e
    rw [PMap.set]
    split_ifs with h1
    · rfl
    · rw [List.map_cons, List.map_cons, ih]
      rcases List.mem_cons.1 h with h | h
      · exact absurd h.symm h1
      · exact h

theorem PMap.get?_del (m : PMap κ α) (h : (m.map Prod.fst).Nodup) (k k' : κ) :
    (m.del k).get? k' = if k' = k then none else m.get? k' := by
  induction m with
  | nil => simp [PMap.del, PMap.get?]
  | cons e m ih =>
    obtain ⟨k'', w⟩ := e
    rw [List.map_cons, List.nodup_cons] at h
    rw [PMap.del]
    by_cases h1 : k'' = k
    · rw [if_pos h1]
      subst h1
      split_ifs with h2
      · rw [h2]
        exact (PMap.get?_none _ _).2 h.1
      · rw [PMap.get?, if_neg (Ne.symm h2)]
    · rw [if_neg h1, PMap.get?, ih h.2, PMap.get?]
      by_cases h2 : k'' = k'
      · subst h2
        rw [if_pos rfl, if_neg h1, if_pos rfl]
      · rw [if_neg h2, if_neg h2]

theorem PMap.nodup_del (m : PMap κ α) (h : (m.map Prod.fst).Nodup) (k : κ) :
    ((m.del k).map Prod.fst).Nodup := by
  have : (m.del k).Sublist m := by
    clear h
    induction m with
    | nil => exact List.Sublist.refl _
    | cons e m ih =>
      obtain ⟨k', w⟩ := e
      rw [PMap.del]
      split_ifs
      · exact List.sublist_cons_self _ _
      · exact ih.cons_cons _
  exact h.sublist (this.map _)

end Ply
