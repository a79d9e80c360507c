import Verif.Model.SheetBuild
import Verif.Proofs.PMap
import Verif.Props.Geom1D

/-! # C57: maps of geoms -/

namespace Ply

variable {κ α : Type} [DecidableEq κ]

/-- C57: `map_or_geom` changes one key; a missing value counts as empty. -/
theorem c57_or_geom (or : α → α → Except PyErr α) (empty : Except PyErr α) (m r : PMap κ α) (key : κ) (g : α)
    (h : mapOrGeom or empty m key g = .ok r) :
    (∃ base v, (m.get? key = some base ∨ (m.get? key = none ∧ empty = .ok base)) ∧ or base g = .ok v ∧
      r.get? key = some v) ∧ ∀ k, k ≠ key → r.get? k = m.get? k := by
  unfold mapOrGeom at h
  have step : ∀ base, (m.get? key = some base ∨ (m.get? key = none ∧ empty = .ok base)) →
      (do let r ← or base g; .ok (m.set key r) : Except PyErr (PMap κ α)) = .ok r →
      (∃ base v, (m.get? key = some base ∨ (m.get? key = none ∧ empty = .ok base)) ∧ or base g = .ok v ∧
        r.get? key = some v) ∧ ∀ k, k ≠ key → r.get? k = m.get? k := by
    intro base hb h
    cases ho : or base g with
    | error e => rw [ho] at h; cases h
    | ok v =>
      rw [ho] at h
      cases h
      exact ⟨⟨base, v, hb, ho, PMap.get?_set_same _ _ _⟩, fun k hk => PMap.get?_set_other _ _ _ _ hk⟩
  cases hm : m.get? key with
  | some w =>
    rw [hm] at h
    have := step w (Or.inl hm) h
    rwa [hm] at this
  | none =>
    rw [hm] at h
    cases he : empty with
    | error e => rw [he] at h; cases h
    | ok w =>
      rw [he] at h
      have := step w (Or.inr ⟨hm, he⟩) h
      rwa [hm, he] at this

/-- C57: `map_sub_geom` (and `map_and_geom`) changes one key, which has to be present. -/
theorem c57_op_geom (op : α → α → Except PyErr α) (m r : PMap κ α) (key : κ) (g : α)
    (h : mapOpGeom op m key g = .ok r) :
    (∃ w v, m.get? key = some w ∧ op w g = .ok v ∧ r.get? key = some v) ∧
      ∀ k, k ≠ key → r.get? k = m.get? k := by
  unfold mapOpGeom at h
  cases hm : m.get? key with
  | none => rw [hm] at h; cases h
  | some w =>
    rw [hm] at h
    dsimp only at h
    cases ho : op w g with
    | error e => rw [ho] at h; cases h
    | ok v =>
      rw [ho] at h
      cases h
      exact ⟨⟨w, v, rfl, ho, PMap.get?_set_same _ _ _⟩, fun k hk => PMap.get?_set_other _ _ _ _ hk⟩

/-- What `map_or` has to give at a key. -/
def OrAt (or : α → α → Except PyErr α) (empty : Except PyErr α) (a b r : Option α) : Prop :=
  match a, b with
  | a, none => r = a
  | some x, some y => ∃ v, or x y = .ok v ∧ r = some v
  | none, some y => ∃ e v, empty = .ok e ∧ or e y = .ok v ∧ r = some v

/-- C57: `map_or` unites the values key by key over the union of the keys. -/
theorem c57_or (or : α → α → Except PyErr α) (empty : Except PyErr α) (m1 m2 r : PMap κ α)
    (hd : (m2.map Prod.fst).Nodup) (h : mapOr or empty m1 m2 = .ok r) (k : κ) :
    OrAt or empty (m1.get? k) (m2.get? k) (r.get? k) := by
  induction m2 generalizing m1 with
  | nil =>
    cases h
    unfold OrAt
    simp [PMap.get?]
  | cons e m2 ih =>
    obtain ⟨k', v⟩ := e
    rw [List.map_cons, List.nodup_cons] at hd
    rw [mapOr] at h
    cases hg : mapOrGeom or empty m1 k' v with
    | error e => rw [hg] at h; cases h
    | ok m =>
      rw [hg] at h
      obtain ⟨⟨base, w, hb, hw, hr⟩, hk⟩ := c57_or_geom or empty m1 m k' v hg
      have := ih m hd.2 h
      rw [PMap.get?]
      by_cases hkk : k' = k
      · subst hkk
        rw [if_pos rfl]
        rw [(PMap.get?_none _ _).2 hd.1, hr] at this
        have h' : r.get? k' = some w := by
          unfold OrAt at this
          exact this
        rw [h']
        unfold OrAt
        rcases hb with hb | ⟨hb, he⟩
        · rw [hb]; exact ⟨w, hw, rfl⟩
        · rw [hb]; exact ⟨base, w, he, hw, rfl⟩
      · rw [if_neg hkk]
        rwa [hk k (Ne.symm hkk)] at this

/-- C57: `map_and` keeps exactly the common keys with a non-empty intersection. -/
theorem c57_and (and : α → α → Except PyErr α) (isEmpty : α → Bool) (m1 m2 r : PMap κ α)
    (hd : (m1.map Prod.fst).Nodup) (h : mapAnd and isEmpty m2 m1 = .ok r) :
    (∀ k v, r.get? k = some v ↔
      ∃ x y, m1.get? k = some x ∧ m2.get? k = some y ∧ and x y = .ok v ∧ isEmpty v = false) ∧
    (r.map Prod.fst).Nodup := by
  suffices hs : (∀ k v, r.get? k = some v ↔
      ∃ x y, m1.get? k = some x ∧ m2.get? k = some y ∧ and x y = .ok v ∧ isEmpty v = false) ∧
      (r.map Prod.fst).Sublist (m1.map Prod.fst) from ⟨hs.1, hd.sublist hs.2⟩
  induction m1 generalizing r with
  | nil =>
    cases h
    simp [PMap.get?]
  | cons e m1 ih =>
    obtain ⟨k', v1⟩ := e
    rw [List.map_cons, List.nodup_cons] at hd
    rw [mapAnd] at h
    cases h2 : m2.get? k' with
    | none =>
      rw [h2] at h
      obtain ⟨i1, i2⟩ := ih r hd.2 h
      refine ⟨fun k v => ?_, i2.cons _⟩
      rw [i1, PMap.get?]
      by_cases hk : k' = k
      · subst hk
        rw [if_pos rfl, (PMap.get?_none _ _).2 hd.1, h2]
        simp
      · rw [if_neg hk]
    | some v2 =>
      rw [h2] at h
      dsimp only at h
      cases ha : and v1 v2 with
      | error e => rw [ha] at h; cases h
      | ok w =>
        rw [ha] at h
        replace h : (do
          let tail ← mapAnd and isEmpty m2 m1
          .ok (if isEmpty w then tail else (k', w) :: tail) : Except PyErr (PMap κ α)) = .ok r := h
        cases ht : mapAnd and isEmpty m2 m1 with
        | error e => rw [ht] at h; cases h
        | ok tail =>
          rw [ht] at h
          replace h := Except.ok.inj h
          obtain ⟨i1, i2⟩ := ih tail hd.2 ht
          have hnone : PMap.get? tail k' = none := by
            rw [PMap.get?_none]
            exact fun hc => hd.1 (i2.subset hc)
          cases hw : isEmpty w with
          | true =>
            rw [hw, if_pos rfl] at h
            subst h
            refine ⟨fun k v => ?_, i2.cons _⟩
            rw [PMap.get?]
            by_cases hk : k' = k
            · subst hk
              rw [if_pos rfl, hnone, h2]
              constructor
              · intro h; cases h
              · rintro ⟨x, y, hx, hy, hxy, hv⟩
                cases hx; cases hy
                rw [ha] at hxy; cases hxy
                rw [hw] at hv; cases hv
            · rw [if_neg hk, i1]
          | false =>
            rw [hw, if_neg (by simp)] at h
            subst h
            refine ⟨fun k v => ?_, i2.cons_cons _⟩
            rw [PMap.get?, PMap.get?]
            by_cases hk : k' = k
            · subst hk
              rw [if_pos rfl, if_pos rfl, h2]
              constructor
              · intro h; cases h; exact ⟨v1, v2, rfl, rfl, ha, hw⟩
              · rintro ⟨x, y, hx, hy, hxy, hv⟩
                cases hx; cases hy
                rw [ha] at hxy; cases hxy
                rfl
            · rw [if_neg hk, if_neg hk, i1]

/-! ### Maps of Geom1D objects -/

/-- The points stored under a key, none if the key is missing. -/
def pts {κ : Type} [DecidableEq κ] (m : PMap κ Geom1D) (k : κ) : Set ℝ :=
  match m.get? k with
  | some g => pointsOf g.intervals
  | none => ∅

/-- All values are made by the constructor. -/
def MadeMap {κ : Type} [DecidableEq κ] (m : PMap κ Geom1D) : Prop := ∀ k g, m.get? k = some g → Geom1D.Made g

open Geom1D in
/-- C57 for joints: `map_or_geom` never fails on maps of 1D geoms and adds the points at the key. -/
theorem c57_or_geom_1d (m : PMap κ Geom1D) (hm : MadeMap m) (key : κ) (g : Geom1D) (hg : Made g) :
    ∃ r, mapOrGeom Geom1D.or Geom1D.empty m key g = .ok r ∧ MadeMap r ∧
      (∀ k, pts r k = if k = key then pts m k ∪ pointsOf g.intervals else pts m k) ∧
      (∀ k, k ∈ r.map Prod.fst ↔ k = key ∨ k ∈ m.map Prod.fst) ∧
      ((m.map Prod.fst).Nodup → (r.map Prod.fst).Nodup) := by
  have key' : ∀ base, Made base → pointsOf base.intervals = pts m key →
      ∃ r, (do let r ← base.or g; .ok (m.set key r) : Except PyErr (PMap κ Geom1D)) = .ok r ∧ MadeMap r ∧
        (∀ k, pts r k = if k = key then pts m k ∪ pointsOf g.intervals else pts m k) ∧
        (∀ k, k ∈ r.map Prod.fst ↔ k = key ∨ k ∈ m.map Prod.fst) ∧
        ((m.map Prod.fst).Nodup → (r.map Prod.fst).Nodup) := by
    intro base hb hp
    obtain ⟨u, u1, u2, u3⟩ := or_denotes hb.nf hg.nf
    refine ⟨m.set key u, by rw [u1]; rfl, ?_, ?_, fun k => PMap.mem_set_keys m key k u, fun h => PMap.nodup_set m key u h⟩
    · intro k v hv
      rw [PMap.get?_set] at hv
      split_ifs at hv with hk
      · cases hv
        exact (made_iff_nf _).2 u2
      · exact hm k v hv
    · intro k
      unfold pts
      rw [PMap.get?_set]
      split_ifs with hk
      · subst hk
        dsimp only
        rw [u3, hp]
        rfl
      · rfl
  unfold mapOrGeom
  cases hk : m.get? key with
  | some w => exact key' w (hm key w hk) (by unfold pts; rw [hk])
  | none =>
    obtain ⟨e, e1, e2, e3⟩ := empty_denotes
    rw [e1]
    exact key' e ((made_iff_nf _).2 e2) (by unfold pts; rw [hk, e3])

open Geom1D in
/-- C57 for joints: `map_or` unites the points key by key. -/
theorem c57_or_1d (m1 m2 : PMap κ Geom1D) (h1 : MadeMap m1) (h2 : MadeMap m2) (hd : (m2.map Prod.fst).Nodup) :
    ∃ r, mapOr Geom1D.or Geom1D.empty m1 m2 = .ok r ∧ MadeMap r ∧ (∀ k, pts r k = pts m1 k ∪ pts m2 k) ∧
      (∀ k, k ∈ r.map Prod.fst ↔ k ∈ m1.map Prod.fst ∨ k ∈ m2.map Prod.fst) ∧
      ((m1.map Prod.fst).Nodup → (r.map Prod.fst).Nodup) := by
  induction m2 generalizing m1 with
  | nil => exact ⟨m1, rfl, h1, by simp [pts, PMap.get?], by simp, id⟩
  | cons e m2 ih =>
    obtain ⟨k', v⟩ := e
    rw [List.map_cons, List.nodup_cons] at hd
    have hv : Made v := h2 k' v (by simp [PMap.get?])
    have h2' : MadeMap m2 := by
      intro k g hg
      refine h2 k g ?_
      rw [PMap.get?, if_neg, hg]
      rintro rfl
      rw [(PMap.get?_none _ _).2 hd.1] at hg
      cases hg
    obtain ⟨m, a1, a2, a3, a4, a5⟩ := c57_or_geom_1d m1 h1 k' v hv
    obtain ⟨r, b1, b2, b3, b4, b5⟩ := ih m a2 h2' hd.2
    refine ⟨r, by rw [mapOr, a1]; exact b1, b2, ?_, ?_, fun h => b5 (a5 h)⟩
    · intro k
      rw [b3, a3]
      by_cases hk : k = k'
      · subst hk
        have e1 : pts ((k, v) :: m2) k = pointsOf v.intervals := by
          unfold pts; rw [PMap.get?, if_pos rfl]
        have e2 : pts m2 k = ∅ := by
          unfold pts; rw [(PMap.get?_none _ _).2 hd.1]
        rw [if_pos rfl, e1, e2, Set.union_empty]
      · have e1 : pts ((k', v) :: m2) k = pts m2 k := by
          unfold pts; rw [PMap.get?, if_neg (Ne.symm hk)]
        rw [if_neg hk, e1]
    · intro k
      rw [b4, a4, List.map_cons, List.mem_cons]
      tauto

open Geom1D in
/-- C57 for joints: `map_and` intersects the points and keeps the keys where the intersection is not empty. -/
theorem c57_and_1d (m1 m2 : PMap κ Geom1D) (h1 : MadeMap m1) (h2 : MadeMap m2) (hd : (m1.map Prod.fst).Nodup) :
    ∃ r, mapAnd Geom1D.and Geom1D.isEmpty m2 m1 = .ok r ∧ MadeMap r ∧ (∀ k, pts r k = pts m1 k ∩ pts m2 k) ∧
      (∀ k, k ∈ r.map Prod.fst ↔ (pts m1 k ∩ pts m2 k).Nonempty) := by
  have hok : ∀ m : PMap κ Geom1D, MadeMap m → (m.map Prod.fst).Nodup →
      ∃ r, mapAnd Geom1D.and Geom1D.isEmpty m2 m = .ok r := by
    intro m hm hd
    induction m with
    | nil => exact ⟨[], rfl⟩
    | cons e m ih =>
      obtain ⟨k', v⟩ := e
      rw [List.map_cons, List.nodup_cons] at hd
      have hm' : MadeMap m := by
        intro k g hg
        refine hm k g ?_
        rw [PMap.get?, if_neg, hg]
        rintro rfl
        rw [(PMap.get?_none _ _).2 hd.1] at hg
        cases hg
      obtain ⟨t, ht⟩ := ih hm' hd.2
      rw [mapAnd]
      cases hk : m2.get? k' with
      | none => exact ⟨t, ht⟩
      | some v2 =>
        obtain ⟨u, u1, u2, u3⟩ := and_denotes (hm k' v (by simp [PMap.get?])).nf (h2 k' v2 hk).nf
        dsimp only
        rw [u1, ht]
        exact ⟨_, rfl⟩
  obtain ⟨r, hr⟩ := hok m1 h1 hd
  obtain ⟨s, hnd⟩ := c57_and Geom1D.and Geom1D.isEmpty m1 m2 r hd hr
  have hval : ∀ k v, r.get? k = some v → Made v ∧ pointsOf v.intervals = pts m1 k ∩ pts m2 k ∧
      (pts m1 k ∩ pts m2 k).Nonempty := by
    intro k v hv
    obtain ⟨x, y, hx, hy, hxy, he⟩ := (s k v).1 hv
    obtain ⟨u, u1, u2, u3⟩ := and_denotes (h1 k x hx).nf (h2 k y hy).nf
    rw [u1] at hxy
    cases hxy
    have hp : pointsOf v.intervals = pts m1 k ∩ pts m2 k := by
      unfold pts
      rw [hx, hy, u3]
    refine ⟨(made_iff_nf _).2 u2, hp, ?_⟩
    rw [← hp, Set.nonempty_iff_ne_empty]
    intro h0
    have := (c10_isEmpty v ((made_iff_nf _).2 u2)).2 (by rw [h0]; simp)
    rw [this] at he
    cases he
  have hmem : ∀ k, (pts m1 k ∩ pts m2 k).Nonempty → ∃ v, r.get? k = some v := by
    rintro k ⟨x, hx1, hx2⟩
    cases e1 : m1.get? k with
    | none => unfold pts at hx1; rw [e1] at hx1; simp at hx1
    | some a =>
      cases e2 : m2.get? k with
      | none => unfold pts at hx2; rw [e2] at hx2; simp at hx2
      | some b =>
        obtain ⟨u, u1, u2, u3⟩ := and_denotes (h1 k a e1).nf (h2 k b e2).nf
        refine ⟨u, (s k u).2 ⟨a, b, e1, e2, u1, ?_⟩⟩
        cases hu : u.isEmpty with
        | false => rfl
        | true =>
          exfalso
          have := (c10_isEmpty u ((made_iff_nf _).2 u2)).1 hu
          unfold pts at hx1 hx2
          rw [e1] at hx1
          rw [e2] at hx2
          have hx : x ∈ pointsOf u.intervals := by rw [u3]; exact ⟨hx1, hx2⟩
          simpa using this x hx
  refine ⟨r, hr, fun k g hg => (hval k g hg).1, fun k => ?_, fun k => ?_⟩
  · cases e : r.get? k with
    | some v =>
      rw [← (hval k v e).2.1]
      unfold pts; rw [e]
    | none =>
      have : ¬ (pts m1 k ∩ pts m2 k).Nonempty := fun h => by
        obtain ⟨v, hv⟩ := hmem k h
        rw [e] at hv; cases hv
      rw [Set.not_nonempty_iff_eq_empty.1 this]
      unfold pts; rw [e]
  · rw [← not_iff_not, ← PMap.get?_none]
    constructor
    · intro h hn
      obtain ⟨v, hv⟩ := hmem k hn
      rw [h] at hv; cases hv
    · intro h
      cases e : r.get? k with
      | none => rfl
      | some v => exact absurd (hval k v e).2.2 h

/-- Two overlapping maps: key 1 in both, key 2 and 3 in one each. -/
example :
    (mapOr Geom1D.or Geom1D.empty [(1, Geom1D.sampleB), (2, Geom1D.sampleB)] [(1, Geom1D.sampleA), (3, Geom1D.sampleA)]).isOk
      = true ∧
    ∃ r, mapOr Geom1D.or Geom1D.empty [(1, Geom1D.sampleB), (2, Geom1D.sampleB)]
      [(1, Geom1D.sampleA), (3, Geom1D.sampleA)] = .ok r ∧
      (∀ k, k ∈ r.map Prod.fst ↔ k = 1 ∨ k = 2 ∨ k = 3) := by
  have ha : MadeMap [(1, Geom1D.sampleB), (2, Geom1D.sampleB)] := by
    intro k g hg
    rcases List.mem_cons.1 (PMap.mem_of_get? _ _ _ hg) with h | h
    · cases h; exact Geom1D.sampleB_made
    · simp at h; rw [h.2]; exact Geom1D.sampleB_made
  have hb : MadeMap [(1, Geom1D.sampleA), (3, Geom1D.sampleA)] := by
    intro k g hg
    rcases List.mem_cons.1 (PMap.mem_of_get? _ _ _ hg) with h | h
    · cases h; exact Geom1D.sampleA_made
    · simp at h; rw [h.2]; exact Geom1D.sampleA_made
  obtain ⟨r, h1, _, _, h4, _⟩ := c57_or_1d _ _ ha hb (by decide)
  refine ⟨by rw [h1]; rfl, r, h1, fun k => ?_⟩
  rw [h4]
  simp
  tauto

end Ply
