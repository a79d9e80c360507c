import Verif.Model.Heuristics
import Verif.Props.Maps
import Verif.Props.Fingers
import Verif.Props.SheetBuildAccept
import Mathlib.Logic.Relation

/-!
# Clusters of interactions (C50)
-/

namespace Ply

open Geom1D Heu

theorem bind_okC {α β : Type} (x : α) (f : α → Except PyErr β) : (Except.ok x >>= f) = f x := rfl

/-- A well formed cluster. -/
def GoodCluster (v : Cluster) : Prop := MadeMap v ∧ (v.map Prod.fst).Nodup

/-- All clusters are well formed and their keys distinct. -/
def GoodClusters (m : PMap ℕ Cluster) : Prop :=
  (m.map Prod.fst).Nodup ∧ ∀ k v, m.get? k = some v → GoodCluster v

/-- `x` is a point of cluster `k` on intersection `a`. -/
def InCluster (m : PMap ℕ Cluster) (k : ℕ) (a : Name) (x : ℝ) : Prop :=
  ∃ v, m.get? k = some v ∧ x ∈ pts v a

theorem belongsTo_spec (cmap : Cluster) (hc : GoodCluster cmap) : ∀ m : PMap ℕ Cluster, GoodClusters m →
    ∃ l, belongsTo cmap m = .ok l ∧ l.Sublist (m.map Prod.fst) ∧
      ∀ k, k ∈ l ↔ ∃ a x, InCluster m k a x ∧ x ∈ pts cmap a
  | [], _ => ⟨[], rfl, List.Sublist.refl _, by simp [InCluster, PMap.get?]⟩
  | (k, v) :: rest, h => by
    have hnd : k ∉ rest.map Prod.fst ∧ (rest.map Prod.fst).Nodup := List.nodup_cons.1 h.1
    have hv : GoodCluster v := h.2 k v (by simp [PMap.get?])
    have hrest : GoodClusters rest := by
      refine ⟨hnd.2, fun k' v' h' => h.2 k' v' ?_⟩
      rw [PMap.get?, if_neg]
      · exact h'
      · rintro rfl
        have := (PMap.get?_none rest k).2 hnd.1
        rw [this] at h'
        cases h'
    obtain ⟨r, r1, _, _, r4⟩ := c57_and_1d v cmap hv.1 hc.1 hv.2
    obtain ⟨l, l1, l2, l3⟩ := belongsTo_spec cmap hc rest hrest
    have hone : r.length > 0 ↔ ∃ a x, InCluster ((k, v) :: rest) k a x ∧ x ∈ pts cmap a := by
      constructor
      · intro hl
        obtain ⟨e, he⟩ := List.exists_mem_of_length_pos hl
        obtain ⟨x, x1, x2⟩ := (r4 e.1).1 (List.mem_map_of_mem he)
        exact ⟨e.1, x, ⟨v, by simp [PMap.get?], x1⟩, x2⟩
      · rintro ⟨a, x, ⟨v', hv', x1⟩, x2⟩
        simp only [PMap.get?, if_true, Option.some.injEq] at hv'
        subst hv'
        have := (r4 a).2 ⟨x, x1, x2⟩
        rw [List.mem_map] at this
        obtain ⟨e, he, _⟩ := this
        exact List.length_pos_of_mem he
    have hother : ∀ k', k' ≠ k → ∀ a x, InCluster ((k, v) :: rest) k' a x ↔ InCluster rest k' a x := by
      intro k' hk a x
      simp only [InCluster, PMap.get?, if_neg (Ne.symm hk)]
    refine ⟨if r.length > 0 then k :: l else l, ?_, ?_, ?_⟩
    · unfold belongsTo
      rw [r1, bind_okC, l1, bind_okC]
    · split_ifs
      · exact l2.cons_cons k
      · exact l2.cons k
    · intro k'
      by_cases hk : k' = k
      · subst hk
        rw [← hone]
        have hn : k' ∉ l := fun hm => hnd.1 (l2.subset hm)
        split_ifs with hl
        · simp [hl]
        · simp [hn, hl]
      · have : (∃ a x, InCluster ((k, v) :: rest) k' a x ∧ x ∈ pts cmap a) ↔
            ∃ a x, InCluster rest k' a x ∧ x ∈ pts cmap a := by
          simp only [hother k' hk]
        rw [this, ← l3]
        split_ifs
        · simp [hk]
        · rfl

theorem good_set (m : PMap ℕ Cluster) (h : GoodClusters m) (k : ℕ) (v : Cluster) (hv : GoodCluster v) :
    GoodClusters (m.set k v) := by
  refine ⟨PMap.nodup_set m k v h.1, fun k' v' h' => ?_⟩
  rw [PMap.get?_set] at h'
  split_ifs at h' with hk
  · cases h'
    exact hv
  · exact h.2 k' v' h'

theorem mem_keys_iff (m : PMap ℕ Cluster) (k : ℕ) : k ∈ m.map Prod.fst ↔ ∃ v, m.get? k = some v := by
  rw [← not_iff_not, ← PMap.get?_none]
  cases m.get? k <;> simp

theorem mergeInto_spec (b : ℕ) : ∀ (rest : List ℕ) (m : PMap ℕ Cluster), GoodClusters m →
    b ∈ m.map Prod.fst → (∀ k ∈ rest, k ∈ m.map Prod.fst ∧ k ≠ b) → rest.Nodup →
    ∃ m', mergeInto b rest m = .ok m' ∧ GoodClusters m' ∧
      (∀ k, k ∈ m'.map Prod.fst ↔ k ∈ m.map Prod.fst ∧ k ∉ rest) ∧
      (∀ a x, InCluster m' b a x ↔ InCluster m b a x ∨ ∃ k ∈ rest, InCluster m k a x) ∧
      (∀ k, k ≠ b → k ∉ rest → m'.get? k = m.get? k)
  | [], m, h, _, _, _ => ⟨m, rfl, h, by simp, by simp, by simp⟩
  | k :: rest, m, h, hb, hr, hn => by
    obtain ⟨hk, hkb⟩ := hr k List.mem_cons_self
    obtain ⟨vb, hvb⟩ := (mem_keys_iff m b).1 hb
    obtain ⟨vk, hvk⟩ := (mem_keys_iff m k).1 hk
    have gb := h.2 b vb hvb
    have gk := h.2 k vk hvk
    obtain ⟨r, r1, r2, r3, _, r5⟩ := c57_or_1d vb vk gb.1 gk.1 gk.2
    have hset : GoodClusters (m.set b r) := good_set m h b r ⟨r2, r5 gb.2⟩
    have hget : ∀ k', ((m.set b r).del k).get? k' =
        if k' = k then none else if k' = b then some r else m.get? k' := by
      intro k'
      rw [PMap.get?_del _ hset.1, PMap.get?_set]
    have hgood : GoodClusters ((m.set b r).del k) := by
      refine ⟨PMap.nodup_del _ hset.1 k, fun k' v' h' => ?_⟩
      rw [PMap.get?_del _ hset.1] at h'
      split_ifs at h'
      exact hset.2 k' v' h'
    have hkeys : ∀ k', k' ∈ ((m.set b r).del k).map Prod.fst ↔ k' ∈ m.map Prod.fst ∧ k' ≠ k := by
      intro k'
      rw [mem_keys_iff, hget, mem_keys_iff]
      split_ifs with h1 h2
      · simp [h1]
      · subst h2
        simp [hvb, h1]
      · simp [h1]
    have hn' := List.nodup_cons.1 hn
    obtain ⟨m', m1, m2, m3, m4, m5⟩ := mergeInto_spec b rest ((m.set b r).del k) hgood
      ((hkeys b).2 ⟨hb, Ne.symm hkb⟩)
      (fun k' hk' => ⟨(hkeys k').2 ⟨(hr k' (List.mem_cons_of_mem _ hk')).1, fun e => hn'.1 (e ▸ hk')⟩,
        (hr k' (List.mem_cons_of_mem _ hk')).2⟩) hn'.2
    refine ⟨m', ?_, m2, ?_, ?_, ?_⟩
    · unfold mergeInto
      rw [(PMap.get_ok m b vb).2 hvb, bind_okC, (PMap.get_ok m k vk).2 hvk, bind_okC, r1, bind_okC, m1]
    · intro k'
      rw [m3, hkeys]
      simp only [List.mem_cons, not_or]
      tauto
    · intro a x
      rw [m4]
      have e1 : InCluster ((m.set b r).del k) b a x ↔ InCluster m b a x ∨ InCluster m k a x := by
        unfold InCluster
        rw [hget, if_neg (Ne.symm hkb), if_pos rfl, hvb, hvk]
        simp [r3]
      have e2 : ∀ k' ∈ rest, InCluster ((m.set b r).del k) k' a x ↔ InCluster m k' a x := by
        intro k' hk'
        unfold InCluster
        rw [hget, if_neg (fun e : k' = k => hn'.1 (e ▸ hk')), if_neg (hr k' (List.mem_cons_of_mem _ hk')).2]
      rw [e1]
      constructor
      · rintro ((h | h) | ⟨k', hk', h⟩)
        · exact Or.inl h
        · exact Or.inr ⟨k, List.mem_cons_self, h⟩
        · exact Or.inr ⟨k', List.mem_cons_of_mem _ hk', (e2 k' hk').1 h⟩
      · rintro (h | ⟨k', hk', h⟩)
        · exact Or.inl (Or.inl h)
        · rcases List.mem_cons.1 hk' with rfl | hk'
          · exact Or.inl (Or.inr h)
          · exact Or.inr ⟨k', hk', (e2 k' hk').2 h⟩
    · intro k' hb' hr'
      rw [m5 k' hb' fun hm => hr' (List.mem_cons_of_mem _ hm), hget,
        if_neg (fun e : k' = k => hr' (e ▸ List.mem_cons_self)), if_neg hb']

/-! ### The invariant -/

/-- Two contents share a point of some intersection. -/
def Touch (c : ℕ → Name → Set ℝ) (i j : ℕ) : Prop := ∃ a x, x ∈ c i a ∧ x ∈ c j a

/-- Linked by a chain of touching contents with indices below `N`. -/
def Linked (c : ℕ → Name → Set ℝ) (N i j : ℕ) : Prop :=
  Relation.ReflTransGen (fun i j => i < N ∧ j < N ∧ Touch c i j) i j

theorem Linked.symm {c : ℕ → Name → Set ℝ} {N i j : ℕ} (h : Linked c N i j) : Linked c N j i := by
  induction h with
  | refl => exact Relation.ReflTransGen.refl
  | tail _ hs ih =>
    obtain ⟨h1, h2, a, x, h3, h4⟩ := hs
    exact Relation.ReflTransGen.head ⟨h2, h1, a, x, h4, h3⟩ ih

theorem Linked.mono {c : ℕ → Name → Set ℝ} {N i j : ℕ} (h : Linked c N i j) : Linked c (N + 1) i j := by
  induction h with
  | refl => exact Relation.ReflTransGen.refl
  | tail _ hs ih => exact ih.tail ⟨by omega, by omega, hs.2.2⟩

/-- The state after `N` interactions with contents `c`: `f` tells the cluster of every interaction. -/
structure ClusterInv (c : ℕ → Name → Set ℝ) (N : ℕ) (m : PMap ℕ Cluster) (n : ℕ) (f : ℕ → ℕ) : Prop where
  good : GoodClusters m
  fresh : ∀ k ∈ m.map Prod.fst, k < n
  dom : ∀ i < N, f i ∈ m.map Prod.fst
  used : ∀ k ∈ m.map Prod.fst, ∃ i < N, f i = k
  content : ∀ k ∈ m.map Prod.fst, ∀ a x, InCluster m k a x ↔ ∃ i < N, f i = k ∧ x ∈ c i a
  touch : ∀ i < N, ∀ j < N, Touch c i j → f i = f j
  linked : ∀ i < N, ∀ j < N, f i = f j → Linked c N i j

theorem addInteraction_step (c : ℕ → Name → Set ℝ) (N : ℕ) (m : PMap ℕ Cluster) (n : ℕ) (f : ℕ → ℕ)
    (h : ClusterInv c N m n f) (cmap : Cluster) (hc : GoodCluster cmap) (hcN : ∀ a, pts cmap a = c N a) :
    ∃ m' n' f', addInteraction cmap m n = .ok (m', n') ∧ ClusterInv c (N + 1) m' n' f' := by
  obtain ⟨l, l1, l2, l3⟩ := belongsTo_spec cmap hc m h.good
  have hl : ∀ k, k ∈ l ↔ k ∈ m.map Prod.fst ∧ ∃ i < N, f i = k ∧ Touch c i N := by
    intro k
    rw [l3]
    constructor
    · rintro ⟨a, x, hx, hy⟩
      have hk : k ∈ m.map Prod.fst := by
        obtain ⟨v, hv, _⟩ := hx
        exact (mem_keys_iff m k).2 ⟨v, hv⟩
      obtain ⟨i, hi, e, hm⟩ := (h.content k hk a x).1 hx
      exact ⟨hk, i, hi, e, a, x, hm, hcN a ▸ hy⟩
    · rintro ⟨hk, i, hi, e, a, x, h1, h2⟩
      exact ⟨a, x, (h.content k hk a x).2 ⟨i, hi, e, h1⟩, (hcN a).symm ▸ h2⟩
  unfold addInteraction
  rw [l1, bind_okC]
  cases l with
  | nil =>
    have hno : ∀ i < N, ¬ Touch c i N := fun i hi ht => by
      have := (hl (f i)).2 ⟨h.dom i hi, i, hi, rfl, ht⟩
      simp at this
    have hnn : n ∉ m.map Prod.fst := fun hm => lt_irrefl _ (h.fresh n hm)
    have hf : ∀ i < N, Function.update f N n i = f i := fun i hi => Function.update_of_ne (by omega) _ _
    have hfN : Function.update f N n N = n := Function.update_self _ _ _
    refine ⟨m.set n cmap, n + 1, Function.update f N n, rfl, ⟨good_set m h.good n cmap hc, ?_, ?_, ?_, ?_, ?_, ?_⟩⟩
    · intro k hk
      rcases (PMap.mem_set_keys m n k cmap).1 hk with rfl | hk
      · omega
      · have := h.fresh k hk; omega
    · intro i hi
      rw [PMap.mem_set_keys]
      by_cases hiN : i = N
      · rw [hiN, hfN]; exact Or.inl rfl
      · rw [hf i (by omega)]; exact Or.inr (h.dom i (by omega))
    · intro k hk
      rcases (PMap.mem_set_keys m n k cmap).1 hk with rfl | hk
      · exact ⟨N, by omega, hfN⟩
      · obtain ⟨i, hi, e⟩ := h.used k hk
        exact ⟨i, by omega, by rw [hf i hi, e]⟩
    · intro k hk a x
      by_cases hkn : k = n
      · subst hkn
        have e : InCluster (m.set k cmap) k a x ↔ x ∈ c N a := by
          unfold InCluster
          rw [PMap.get?_set_same]
          simp [hcN]
        rw [e]
        constructor
        · intro hx
          exact ⟨N, by omega, hfN, hx⟩
        · rintro ⟨i, hi, e, hx⟩
          by_cases hiN : i = N
          · exact hiN ▸ hx
          · rw [hf i (by omega)] at e
            exact absurd (h.fresh _ (h.dom i (by omega))) (by omega)
      · have hk' : k ∈ m.map Prod.fst := ((PMap.mem_set_keys m n k cmap).1 hk).resolve_left hkn
        have e : InCluster (m.set n cmap) k a x ↔ InCluster m k a x := by
          unfold InCluster
          rw [PMap.get?_set_other _ _ _ _ hkn]
        rw [e, h.content k hk']
        constructor
        · rintro ⟨i, hi, e, hx⟩
          exact ⟨i, by omega, by rw [hf i hi, e], hx⟩
        · rintro ⟨i, hi, e, hx⟩
          by_cases hiN : i = N
          · rw [hiN, hfN] at e
            exact absurd e.symm hkn
          · exact ⟨i, by omega, by rw [← hf i (by omega), e], hx⟩
    · intro i hi j hj ht
      by_cases hiN : i = N <;> by_cases hjN : j = N
      · rw [hiN, hjN]
      · obtain ⟨a, x, h1, h2⟩ := ht
        exact absurd ⟨a, x, h2, hiN ▸ h1⟩ (hno j (by omega))
      · exact absurd (hjN ▸ ht) (hno i (by omega))
      · rw [hf i (by omega), hf j (by omega)]
        exact h.touch i (by omega) j (by omega) ht
    · intro i hi j hj e
      by_cases hiN : i = N <;> by_cases hjN : j = N
      · rw [hiN, hjN]
        exact Relation.ReflTransGen.refl
      · rw [hiN, hfN, hf j (by omega)] at e
        exact absurd (h.fresh _ (h.dom j (by omega))) (by omega)
      · rw [hjN, hfN, hf i (by omega)] at e
        exact absurd (h.fresh _ (h.dom i (by omega))) (by omega)
      · rw [hf i (by omega), hf j (by omega)] at e
        exact (h.linked i (by omega) j (by omega) e).mono
  | cons b rest =>
    have hb : b ∈ m.map Prod.fst := ((hl b).1 List.mem_cons_self).1
    obtain ⟨vb, hvb⟩ := (mem_keys_iff m b).1 hb
    have gb := h.good.2 b vb hvb
    obtain ⟨r, r1, r2, r3, _, r5⟩ := c57_or_1d vb cmap gb.1 hc.1 hc.2
    have hnd : (b :: rest).Nodup := l2.nodup h.good.1
    have hn' := List.nodup_cons.1 hnd
    have hset := good_set m h.good b r ⟨r2, r5 gb.2⟩
    have hkeys : ∀ k, k ∈ (m.set b r).map Prod.fst ↔ k ∈ m.map Prod.fst := by
      intro k
      rw [PMap.set_keys _ _ _ hb]
    obtain ⟨m', m1, m2, m3, m4, m5⟩ := mergeInto_spec b rest (m.set b r) hset ((hkeys b).2 hb)
      (fun k hk => ⟨(hkeys k).2 ((hl k).1 (List.mem_cons_of_mem _ hk)).1, fun e => hn'.1 (e ▸ hk)⟩) hn'.2
    let f' : ℕ → ℕ := fun i => if i = N ∨ f i ∈ b :: rest then b else f i
    have f1 : ∀ i, (i = N ∨ f i ∈ b :: rest) → f' i = b := fun i hi => if_pos hi
    have f2 : ∀ i, ¬ (i = N ∨ f i ∈ b :: rest) → f' i = f i := fun i hi => if_neg hi
    have f3 : ∀ i, f' i = b → (i = N ∨ f i ∈ b :: rest) := by
      intro i hi
      by_contra hne
      rw [f2 i hne] at hi
      exact hne (Or.inr (hi ▸ List.mem_cons_self))
    have hNlink : ∀ i < N + 1, (i = N ∨ f i ∈ b :: rest) → Linked c (N + 1) i N := by
      rintro i hi (rfl | hm)
      · exact Relation.ReflTransGen.refl
      · by_cases hiN : i = N
        · rw [hiN]; exact Relation.ReflTransGen.refl
        · obtain ⟨_, j, hj, e, ht⟩ := (hl _).1 hm
          exact (h.linked i (by omega) j hj e.symm).mono.tail ⟨by omega, by omega, ht⟩
    have hb1 : ∀ a x, InCluster (m.set b r) b a x ↔ InCluster m b a x ∨ x ∈ c N a := by
      intro a x
      unfold InCluster
      rw [PMap.get?_set_same, hvb]
      simp [r3, hcN]
    have hb2 : ∀ k, k ≠ b → ∀ a x, InCluster (m.set b r) k a x ↔ InCluster m k a x := by
      intro k hk a x
      unfold InCluster
      rw [PMap.get?_set_other _ _ _ _ hk]
    refine ⟨m', n, f', ?_, ⟨m2, ?_, ?_, ?_, ?_, ?_, ?_⟩⟩
    · show (m.get b >>= _) = _
      rw [(PMap.get_ok m b vb).2 hvb, bind_okC, r1, bind_okC, m1, bind_okC]
    · intro k hk
      exact h.fresh k ((hkeys k).1 ((m3 k).1 hk).1)
    · intro i hi
      rw [m3]
      by_cases hi2 : i = N ∨ f i ∈ b :: rest
      · rw [f1 i hi2]
        exact ⟨(hkeys b).2 hb, hn'.1⟩
      · rw [f2 i hi2]
        push Not at hi2
        exact ⟨(hkeys _).2 (h.dom i (by omega)), fun hm => hi2.2 (List.mem_cons_of_mem _ hm)⟩
    · intro k hk
      rw [m3, hkeys] at hk
      by_cases hkb : k = b
      · exact ⟨N, by omega, by rw [hkb]; exact f1 N (Or.inl rfl)⟩
      · obtain ⟨i, hi, e⟩ := h.used k hk.1
        refine ⟨i, by omega, ?_⟩
        rw [f2, e]
        rintro (hiN | hm)
        · omega
        · rw [e] at hm
          exact (List.mem_cons.1 hm).elim hkb hk.2
    · intro k hk a x
      rw [m3, hkeys] at hk
      by_cases hkb : k = b
      · subst hkb
        rw [m4, hb1]
        have e2 : (∃ j ∈ rest, InCluster (m.set k r) j a x) ↔ ∃ j ∈ rest, InCluster m j a x := by
          refine exists_congr fun j => and_congr_right fun hj => hb2 j (fun e => hn'.1 (e ▸ hj)) a x
        rw [e2]
        constructor
        · rintro ((h1 | h1) | ⟨j, hj, h1⟩)
          · obtain ⟨i, hi, e, hx⟩ := (h.content k hb a x).1 h1
            exact ⟨i, by omega, f1 i (Or.inr (e ▸ List.mem_cons_self)), hx⟩
          · exact ⟨N, by omega, f1 N (Or.inl rfl), h1⟩
          · obtain ⟨i, hi, e, hx⟩ := (h.content j ((hl j).1 (List.mem_cons_of_mem _ hj)).1 a x).1 h1
            exact ⟨i, by omega, f1 i (Or.inr (e ▸ List.mem_cons_of_mem _ hj)), hx⟩
        · rintro ⟨i, hi, e, hx⟩
          by_cases hiN : i = N
          · exact Or.inl (Or.inr (hiN ▸ hx))
          · have hm := (f3 i e).resolve_left hiN
            have hin := (h.content (f i) (h.dom i (by omega)) a x).2 ⟨i, by omega, rfl, hx⟩
            rcases List.mem_cons.1 hm with e1 | hm
            · exact Or.inl (Or.inl (e1 ▸ hin))
            · exact Or.inr ⟨f i, hm, hin⟩
      · have e1 : InCluster m' k a x ↔ InCluster m k a x := by
          unfold InCluster
          rw [m5 k hkb hk.2, PMap.get?_set_other _ _ _ _ hkb]
        rw [e1, h.content k hk.1]
        constructor
        · rintro ⟨i, hi, e, hx⟩
          refine ⟨i, by omega, ?_, hx⟩
          rw [f2, e]
          rintro (hiN | hm)
          · omega
          · rw [e] at hm
            exact (List.mem_cons.1 hm).elim hkb hk.2
        · rintro ⟨i, hi, e, hx⟩
          have hne : ¬ (i = N ∨ f i ∈ b :: rest) := fun hi2 => hkb (by rw [← e, f1 i hi2])
          rw [f2 i hne] at e
          push Not at hne
          exact ⟨i, by omega, e, hx⟩
    · have key : ∀ i < N, Touch c i N → f' i = b := fun i hi ht =>
        f1 i (Or.inr ((hl (f i)).2 ⟨h.dom i hi, i, hi, rfl, ht⟩))
      intro i hi j hj ht
      by_cases hiN : i = N <;> by_cases hjN : j = N
      · rw [hiN, hjN]
      · obtain ⟨a, x, h1, h2⟩ := ht
        rw [f1 i (Or.inl hiN), key j (by omega) ⟨a, x, h2, hiN ▸ h1⟩]
      · rw [f1 j (Or.inl hjN), key i (by omega) (hjN ▸ ht)]
      · have e := h.touch i (by omega) j (by omega) ht
        show (if _ then _ else _) = (if _ then _ else _)
        simp only [hiN, hjN, e]
    · intro i hi j hj e
      by_cases hi2 : i = N ∨ f i ∈ b :: rest
      · rw [f1 i hi2] at e
        exact (hNlink i hi hi2).trans (hNlink j hj (f3 j e.symm)).symm
      · by_cases hj2 : j = N ∨ f j ∈ b :: rest
        · rw [f1 j hj2] at e
          exact absurd (f3 i e) hi2
        · rw [f2 i hi2, f2 j hj2] at e
          push Not at hi2 hj2
          exact (h.linked i (by omega) j (by omega) e).mono

/-! ### C50 -/

/-- The points of intersection `a` covered by the interaction `x`. -/
def reach (sp : SheetPlex) (x : Interaction) (a : Name) : Set ℝ :=
  {p | (∃ s, sp.interside x.interside = .ok s ∧ s.intersection = a ∧ p ∈ pointsOf x.range.intervals) ∨
    ∃ s, sp.interside x.other = .ok s ∧ s.intersection = a ∧ p ∈ pointsOf x.otherRange.intervals}

/-- An interaction between sides of two different joints. -/
structure ProperInteraction (sp : SheetPlex) (x : Interaction) : Prop where
  made : x.range.Made
  madeOther : x.otherRange.Made
  joints : ∃ s t, sp.interside x.interside = .ok s ∧ sp.interside x.other = .ok t ∧
    s.intersection ≠ t.intersection

theorem interactionMap_spec (sp : SheetPlex) (x : Interaction) (h : ProperInteraction sp x) :
    ∃ cmap, interactionMap sp x = .ok cmap ∧ GoodCluster cmap ∧ ∀ a, pts cmap a = reach sp x a := by
  obtain ⟨s, t, h1, h2, hne⟩ := h.joints
  refine ⟨PMap.set [(s.intersection, x.range)] t.intersection x.otherRange, ?_, ⟨?_, ?_⟩, ?_⟩
  · unfold interactionMap
    rw [h1, bind_okC, h2, bind_okC]
  · intro k g hg
    rw [PMap.get?_set] at hg
    split_ifs at hg with hk
    · cases hg
      exact h.madeOther
    · rw [PMap.get?] at hg
      split_ifs at hg
      · cases hg
        exact h.made
      · cases hg
  · exact PMap.nodup_set _ _ _ (by simp)
  · intro a
    ext p
    unfold pts reach
    rw [PMap.get?_set, h1, h2, Set.mem_ofPred_eq]
    by_cases ht : a = t.intersection
    · subst ht
      simp [hne]
    · by_cases hs : s.intersection = a
      · simp [PMap.get?, ht, hs, Ne.symm ht]
      · simp [PMap.get?, ht, hs, Ne.symm ht]

theorem clusterLoop_spec (sp : SheetPlex) (c : ℕ → Name → Set ℝ) : ∀ (xs : List Interaction) (N : ℕ)
    (m : PMap ℕ Cluster) (n : ℕ) (f : ℕ → ℕ), ClusterInv c N m n f →
    (∀ x ∈ xs, ProperInteraction sp x) →
    (∀ i (hi : i < xs.length) a, c (N + i) a = reach sp xs[i] a) →
    ∃ m' n' f', clusterLoop sp xs m n = .ok (m', n') ∧ ClusterInv c (N + xs.length) m' n' f'
  | [], N, m, n, f, h, _, _ => ⟨m, n, f, rfl, h⟩
  | x :: xs, N, m, n, f, h, hx, hc => by
    obtain ⟨cmap, c1, c2, c3⟩ := interactionMap_spec sp x (hx x List.mem_cons_self)
    obtain ⟨m1, n1, f1, e1, h1⟩ := addInteraction_step c N m n f h cmap c2
      (fun a => by rw [c3]; exact (hc 0 (by simp) a).symm)
    obtain ⟨m', n', f', e2, h2⟩ := clusterLoop_spec sp c xs (N + 1) m1 n1 f1 h1
      (fun y hy => hx y (List.mem_cons_of_mem _ hy)) (fun i hi a => by
        have := hc (i + 1) (by simpa using hi) a
        rw [List.getElem_cons_succ] at this
        rw [← this]
        congr 1
        omega)
    refine ⟨m', n', f', ?_, ?_⟩
    · unfold clusterLoop
      rw [c1, bind_okC, e1, bind_okC]
      exact e2
    · have : N + (x :: xs).length = N + 1 + xs.length := by simp; omega
      rw [this]
      exact h2

/-- C50: for interactions between sides of different joints the clusters are computed without failure
and are the connected components: every interaction `i` lies in a cluster `f i`, a cluster covers on every
joint just the ranges of its interactions (and has at least one), and two interactions are in the same
cluster iff a chain of overlapping interactions leads from one to the other. -/
theorem c50_components (sp : SheetPlex) (inters : Interactions)
    (hx : ∀ e ∈ inters, ∀ x ∈ e.2, ProperInteraction sp x) :
    ∃ (m : PMap ℕ Cluster) (f : ℕ → ℕ), findClusters sp inters = .ok m ∧ (m.map Prod.fst).Nodup ∧
      (∀ e ∈ m, MadeMap e.2 ∧ (e.2.map Prod.fst).Nodup) ∧
      (∀ i, i < (inters.flatMap Prod.snd).length → f i ∈ m.map Prod.fst) ∧
      (∀ e ∈ m, (∃ i, i < (inters.flatMap Prod.snd).length ∧ f i = e.1) ∧
        ∀ a, pts e.2 a = {p | ∃ i, ∃ h : i < (inters.flatMap Prod.snd).length,
          f i = e.1 ∧ p ∈ reach sp (inters.flatMap Prod.snd)[i] a}) ∧
      (∀ i j, i < (inters.flatMap Prod.snd).length → j < (inters.flatMap Prod.snd).length →
        (f i = f j ↔ Relation.ReflTransGen (fun i j => ∃ (hi : i < (inters.flatMap Prod.snd).length)
          (hj : j < (inters.flatMap Prod.snd).length), ∃ a,
            (reach sp (inters.flatMap Prod.snd)[i] a ∩ reach sp (inters.flatMap Prod.snd)[j] a).Nonempty) i j)) := by
  generalize hxs : inters.flatMap Prod.snd = xs
  have hx' : ∀ x ∈ xs, ProperInteraction sp x := by
    intro x h
    rw [← hxs, List.mem_flatMap] at h
    obtain ⟨e, he, hm⟩ := h
    exact hx e he x hm
  let c : ℕ → Name → Set ℝ := fun i a => {p | ∃ h : i < xs.length, p ∈ reach sp xs[i] a}
  have hcr : ∀ i (hi : i < xs.length) a, c i a = reach sp xs[i] a := by
    intro i hi a
    ext p
    exact ⟨fun ⟨_, h⟩ => h, fun h => ⟨hi, h⟩⟩
  obtain ⟨m, n, f, h1, h2⟩ := clusterLoop_spec sp c xs 0 [] 0 (fun _ => 0)
    ⟨⟨by simp, fun k v h => by simp [PMap.get?] at h⟩, by simp, by simp, by simp, by simp, by simp, by simp⟩ hx'
    (fun i hi a => by rw [Nat.zero_add]; exact hcr i hi a)
  rw [Nat.zero_add] at h2
  have hrel : ∀ i j, (i < xs.length ∧ j < xs.length ∧ Touch c i j) ↔
      ∃ (hi : i < xs.length) (hj : j < xs.length), ∃ a, (reach sp xs[i] a ∩ reach sp xs[j] a).Nonempty := by
    intro i j
    constructor
    · rintro ⟨hi, hj, a, x, x1, x2⟩
      exact ⟨hi, hj, a, x, (hcr i hi a) ▸ x1, (hcr j hj a) ▸ x2⟩
    · rintro ⟨hi, hj, a, x, x1, x2⟩
      exact ⟨hi, hj, a, x, (hcr i hi a).symm ▸ x1, (hcr j hj a).symm ▸ x2⟩
  refine ⟨m, f, ?_, h2.good.1, ?_, h2.dom, ?_, ?_⟩
  · unfold findClusters
    rw [hxs, h1]
    rfl
  · intro e he
    exact h2.good.2 e.1 e.2 (PMap.get?_of_mem m h2.good.1 e he)
  · intro e he
    have hk : e.1 ∈ m.map Prod.fst := List.mem_map_of_mem he
    refine ⟨h2.used e.1 hk, fun a => ?_⟩
    ext p
    have := h2.content e.1 hk a p
    have e1 : InCluster m e.1 a p ↔ p ∈ pts e.2 a := by
      unfold InCluster
      rw [PMap.get?_of_mem m h2.good.1 e he]
      simp
    rw [← e1, this]
    constructor
    · rintro ⟨i, hi, e, hp⟩
      exact ⟨i, hi, e, (hcr i hi a) ▸ hp⟩
    · rintro ⟨i, hi, e, hp⟩
      exact ⟨i, hi, e, (hcr i hi a).symm ▸ hp⟩
  · intro i j hi hj
    have hfun : (fun i j => i < xs.length ∧ j < xs.length ∧ Touch c i j) =
        fun i j => ∃ (hi : i < xs.length) (hj : j < xs.length), ∃ a,
          (reach sp xs[i] a ∩ reach sp xs[j] a).Nonempty := by
      funext i j
      exact propext (hrel i j)
    rw [← hfun]
    constructor
    · exact h2.linked i hi j hj
    · intro hl
      induction hl with
      | refl => rfl
      | tail _ hs ih => exact (ih hs.1).trans (h2.touch _ hs.1 _ hs.2.1 hs.2.2)

/-- C50: different clusters do not overlap on any joint. -/
theorem c50_disjoint (sp : SheetPlex) (inters : Interactions)
    (hx : ∀ e ∈ inters, ∀ x ∈ e.2, ProperInteraction sp x) (m : PMap ℕ Cluster)
    (hm : findClusters sp inters = .ok m) (e1 e2 : ℕ × Cluster) (h1 : e1 ∈ m) (h2 : e2 ∈ m)
    (hne : e1.1 ≠ e2.1) (a : Name) : Disjoint (pts e1.2 a) (pts e2.2 a) := by
  obtain ⟨m', f, e, _, _, _, g1, g2⟩ := c50_components sp inters hx
  rw [hm] at e
  cases e
  rw [Set.disjoint_left]
  intro p p1 p2
  rw [(g1 e1 h1).2] at p1
  rw [(g1 e2 h2).2] at p2
  obtain ⟨i, hi, ei, pi⟩ := p1
  obtain ⟨j, hj, ej, pj⟩ := p2
  exact hne (ei ▸ ej ▸ (g2 i j hi hj).2 (Relation.ReflTransGen.single ⟨hi, hj, a, p, pi, pj⟩))

/-! ### The interactions found -/

variable {G : Type}

/-- `x` is in the list of intersection `k`. -/
def Has (m : Interactions) (k : Name) (x : Interaction) : Prop := x ∈ (m.get? k).getD []

/-- `x` is the interaction stored under `k` for the overlap of the fingers of `i` and `j`. -/
def Found (o : G2Ops G) (sb : SheetBuild G) (i j : InterSide) (k : Name) (x : Interaction) : Prop :=
  ∃ vi vj fi fj d ri rj, sb.interOk.get i.id = .ok vi ∧ sb.interOk.get j.id = .ok vj ∧
    o.fingers i vi = .ok fi ∧ o.fingers j vj = .ok fj ∧ o.and fi fj = .ok d ∧ o.isEmpty d = false ∧
    o.project i d = .ok ri ∧ o.project j d = .ok rj ∧
    ((k = i.intersection ∧ x = ⟨i.id, ri, j.id, rj⟩) ∨ (k = j.intersection ∧ x = ⟨j.id, rj, i.id, ri⟩))

theorem has_append (m : Interactions) (k : Name) (x : Interaction) (k' : Name) (x' : Interaction) :
    Has (appendTo m k x) k' x' ↔ Has m k' x' ∨ (k' = k ∧ x' = x) := by
  unfold Has appendTo
  rw [PMap.get?_set]
  split_ifs with h
  · subst h
    simp
  · simp [h]

theorem findInner_spec (o : G2Ops G) (sb : SheetBuild G) (i : InterSide) (vi : Geom1D) (fi : G)
    (hi : sb.interOk.get i.id = .ok vi) (hf : o.fingers i vi = .ok fi) : ∀ (l : List InterSide) (m r : Interactions),
    (m.map Prod.fst).Nodup → findInner o sb i fi l m = .ok r →
    (r.map Prod.fst).Nodup ∧ ∀ k x, Has r k x ↔ Has m k x ∨ ∃ j ∈ l, Found o sb i j k x
  | [], m, r, hn, h => by
    cases h
    exact ⟨hn, by simp⟩
  | j :: l, m, r, hn, h => by
    rw [findInner, bind_ok] at h
    obtain ⟨vj, h1, h⟩ := h
    rw [bind_ok] at h
    obtain ⟨fj, h2, h⟩ := h
    rw [bind_ok] at h
    obtain ⟨d, h3, h⟩ := h
    have hfound : ∀ k x, Found o sb i j k x ↔ o.isEmpty d = false ∧ ∃ ri rj, o.project i d = .ok ri ∧
        o.project j d = .ok rj ∧
        ((k = i.intersection ∧ x = ⟨i.id, ri, j.id, rj⟩) ∨ (k = j.intersection ∧ x = ⟨j.id, rj, i.id, ri⟩)) := by
      intro k x
      constructor
      · rintro ⟨vi', vj', fi', fj', d', ri, rj, e1, e2, e3, e4, e5, e6, e7, e8, e9⟩
        rw [hi] at e1
        cases e1
        rw [h1] at e2
        cases e2
        rw [hf] at e3
        cases e3
        rw [h2] at e4
        cases e4
        rw [h3] at e5
        cases e5
        exact ⟨e6, ri, rj, e7, e8, e9⟩
      · rintro ⟨e6, ri, rj, e7, e8, e9⟩
        exact ⟨vi, vj, fi, fj, d, ri, rj, hi, h1, hf, h2, h3, e6, e7, e8, e9⟩
    by_cases hd : o.isEmpty d = true
    · rw [if_pos hd] at h
      obtain ⟨g1, g2⟩ := findInner_spec o sb i vi fi hi hf l m r hn h
      refine ⟨g1, fun k x => ?_⟩
      rw [g2]
      have : ¬ Found o sb i j k x := by
        rw [hfound, hd]
        simp
      simp [this]
    · rw [if_neg hd, bind_ok] at h
      obtain ⟨ri, h4, h⟩ := h
      rw [bind_ok] at h
      obtain ⟨rj, h5, h⟩ := h
      obtain ⟨g1, g2⟩ := findInner_spec o sb i vi fi hi hf l
        (appendTo (appendTo m i.intersection ⟨i.id, ri, j.id, rj⟩) j.intersection ⟨j.id, rj, i.id, ri⟩) r
        (PMap.nodup_set _ _ _ (PMap.nodup_set _ _ _ hn)) h
      refine ⟨g1, fun k x => ?_⟩
      rw [g2, has_append, has_append]
      have : Found o sb i j k x ↔ (k = i.intersection ∧ x = ⟨i.id, ri, j.id, rj⟩) ∨
          (k = j.intersection ∧ x = ⟨j.id, rj, i.id, ri⟩) := by
        rw [hfound]
        constructor
        · rintro ⟨_, ri', rj', e7, e8, e9⟩
          rw [h4] at e7
          cases e7
          rw [h5] at e8
          cases e8
          exact e9
        · intro e9
          exact ⟨by simpa using hd, ri, rj, h4, h5, e9⟩
      simp only [List.mem_cons, exists_eq_or_imp, this]
      tauto

theorem findSheet_spec (o : G2Ops G) (sb : SheetBuild G) : ∀ (l : List InterSide) (m r : Interactions),
    (m.map Prod.fst).Nodup → findSheet o sb l m = .ok r →
    (r.map Prod.fst).Nodup ∧ ∀ k x, Has r k x ↔ Has m k x ∨ ∃ i j, [i, j].Sublist l ∧ Found o sb i j k x
  | [], m, r, hn, h => by
    cases h
    exact ⟨hn, by simp⟩
  | i :: l, m, r, hn, h => by
    rw [findSheet, bind_ok] at h
    obtain ⟨vi, h1, h⟩ := h
    rw [bind_ok] at h
    obtain ⟨fi, h2, h⟩ := h
    rw [bind_ok] at h
    obtain ⟨m', h3, h⟩ := h
    obtain ⟨a1, a2⟩ := findInner_spec o sb i vi fi h1 h2 l m m' hn h3
    obtain ⟨b1, b2⟩ := findSheet_spec o sb l m' r a1 h
    refine ⟨b1, fun k x => ?_⟩
    rw [b2, a2]
    constructor
    · rintro ((h | ⟨j, hj, h⟩) | ⟨i', j, hs, h⟩)
      · exact Or.inl h
      · exact Or.inr ⟨i, j, (List.singleton_sublist.2 hj).cons_cons i, h⟩
      · exact Or.inr ⟨i', j, hs.cons i, h⟩
    · rintro (h | ⟨i', j, hs, h⟩)
      · exact Or.inl (Or.inl h)
      · cases hs with
        | cons _ hs => exact Or.inr ⟨i', j, hs, h⟩
        | cons_cons _ hs => exact Or.inl (Or.inr ⟨j, List.singleton_sublist.1 hs, h⟩)

theorem findSheets_spec (o : G2Ops G) (sb : SheetBuild G) : ∀ (l : List (Name × Sheet)) (m r : Interactions),
    (m.map Prod.fst).Nodup → findSheets o sb l m = .ok r →
    (r.map Prod.fst).Nodup ∧ ∀ k x, Has r k x ↔ Has m k x ∨
      ∃ e ∈ l, ∃ i j, [i, j].Sublist (sidesOf sb.sheetplex e.2.id) ∧ Found o sb i j k x
  | [], m, r, hn, h => by
    cases h
    exact ⟨hn, by simp⟩
  | e :: l, m, r, hn, h => by
    rw [findSheets, bind_ok] at h
    obtain ⟨m', h3, h⟩ := h
    obtain ⟨a1, a2⟩ := findSheet_spec o sb _ m m' hn h3
    obtain ⟨b1, b2⟩ := findSheets_spec o sb l m' r a1 h
    refine ⟨b1, fun k x => ?_⟩
    rw [b2, a2]
    simp only [List.mem_cons, exists_eq_or_imp]
    exact or_assoc

/-- Projections are made by the constructor. -/
def ProjectMade (o : G2Ops G) : Prop := ∀ s g v, o.project s g = .ok v → v.Made

theorem projectLoop_made (vec : Pt) (offs : ℚ) : ∀ (g : List SPWH) (acc r : Geom1D), acc.Made →
    Geom2D.projectLoop vec offs acc g = .ok r → r.Made
  | [], acc, r, ha, h => by
    cases h
    exact ha
  | s :: g, acc, r, ha, h => by
    rw [Geom2D.projectLoop.eq_def] at h
    dsimp only at h
    split at h
    · cases h
    · rw [bind_ok] at h
      obtain ⟨iv, h1, h⟩ := h
      rw [bind_ok] at h
      obtain ⟨r1, h2, h⟩ := h
      exact projectLoop_made vec offs g r1 r ⟨_, h2⟩ h

/-- The projections of `Geom2D` are. -/
theorem geom2d_projectMade (arr : Geom2D.ArrOp) (buffer : Geom2D → ℚ → Except PyErr Geom2D) :
    ProjectMade (geom2dOps arr buffer) := by
  intro s g v h
  have h' : Geom2D.projectTo1d g s.direction (-s.originOffset) = .ok v := h
  unfold Geom2D.projectTo1d at h'
  rw [bind_ok] at h'
  obtain ⟨e, h1, h'⟩ := h'
  exact projectLoop_made _ _ g e v ⟨_, h1⟩ h'

/-- C50: the interactions found on a build are interactions between sides of two different joints on
one sheet, each the overlap of the fingers of the two sides as seen from one of them, and every overlap of
the fingers of two sides of a sheet is found. -/
theorem c50_found {o : G2Ops G} (hpm : ProjectMade o) (sb : SheetBuild G) (hsp : sb.sheetplex.Paired)
    (xs : Interactions) (h : findInteractions o sb = .ok xs) :
    (∀ e ∈ xs, ∀ x ∈ e.2, ProperInteraction sb.sheetplex x) ∧
    (∀ e ∈ xs, ∀ x ∈ e.2, ∃ i j, i.sheet = j.sheet ∧ sb.sheetplex.interside i.id = .ok i ∧
      sb.sheetplex.interside j.id = .ok j ∧ i.id ≠ j.id ∧ Found o sb i j e.1 x) ∧
    (∀ i j, i.sheet = j.sheet → (∃ e ∈ sb.sheetplex.sheets, e.2.id = i.sheet) →
      sb.sheetplex.interside i.id = .ok i → sb.sheetplex.interside j.id = .ok j → i.id ≠ j.id →
      (∀ k x, Found o sb i j k x → ∃ e ∈ xs, e.1 = k ∧ x ∈ e.2) ∨
      (∀ k x, Found o sb j i k x → ∃ e ∈ xs, e.1 = k ∧ x ∈ e.2)) := by
  unfold findInteractions at h
  obtain ⟨h1, h2⟩ := findSheets_spec o sb _ [] xs (by simp) h
  have hsides : ∀ sheet i j, [i, j].Sublist (sidesOf sb.sheetplex sheet) →
      i.sheet = sheet ∧ j.sheet = sheet ∧ sb.sheetplex.interside i.id = .ok i ∧
      sb.sheetplex.interside j.id = .ok j ∧ i.id ≠ j.id := by
    intro sheet i j hs
    obtain ⟨p1, _, p3, _⟩ := paired_intersides _ hsp _ (List.Perm.refl _) sheet
    have hi := (p1 i).1 (hs.subset (by simp))
    have hj := (p1 j).1 (hs.subset (by simp))
    refine ⟨hi.1, hj.1, hi.2, hj.2, ?_⟩
    have := (hs.map InterSide.id).nodup p3
    simpa using this
  have hjoint : ∀ s, sb.sheetplex.interside s.id = .ok s → s.id = (s.intersection, s.sheet) := by
    intro s hs
    have hm : s ∈ sidesOf sb.sheetplex s.sheet :=
      ((paired_intersides _ hsp _ (List.Perm.refl _) s.sheet).1 s).2 ⟨rfl, hs⟩
    unfold sidesOf intersides at hm
    rw [List.mem_flatMap] at hm
    obtain ⟨inter, hi, hm⟩ := hm
    obtain ⟨e, he, rfl⟩ := List.mem_map.1 hi
    obtain ⟨_, s0, s1, e2, _, _, _, e6⟩ := hsp.2 e he
    have := e6 s (by rw [← e2]; exact List.mem_of_mem_filter hm)
    rw [this.2, this.1]
  have hmem : ∀ k x, (∃ e ∈ xs, e.1 = k ∧ x ∈ e.2) ↔ Has xs k x := by
    intro k x
    constructor
    · rintro ⟨e, he, rfl, hx⟩
      unfold Has
      rw [PMap.get?_of_mem xs h1 e he]
      exact hx
    · intro hx
      unfold Has at hx
      cases hk : xs.get? k with
      | none => rw [hk] at hx; simp at hx
      | some v =>
        rw [hk] at hx
        exact ⟨(k, v), PMap.mem_of_get? xs k v hk, rfl, hx⟩
  have hsound : ∀ e ∈ xs, ∀ x ∈ e.2, ∃ i j, i.sheet = j.sheet ∧ sb.sheetplex.interside i.id = .ok i ∧
      sb.sheetplex.interside j.id = .ok j ∧ i.id ≠ j.id ∧ Found o sb i j e.1 x := by
    intro e he x hx
    have := (h2 e.1 x).1 ((hmem e.1 x).1 ⟨e, he, rfl, hx⟩)
    rcases this with h' | ⟨e', _, i, j, hs, hf⟩
    · simp [Has, PMap.get?] at h'
    · obtain ⟨a1, a2, a3, a4, a5⟩ := hsides _ i j hs
      exact ⟨i, j, a1.trans a2.symm, a3, a4, a5, hf⟩
  refine ⟨?_, hsound, ?_⟩
  · intro e he x hx
    obtain ⟨i, j, e1, e2, e3, e4, vi, vj, fi, fj, d, ri, rj, f1, f2, f3, f4, f5, f6, f7, f8, f9⟩ := hsound e he x hx
    have m1 := hpm i d ri f7
    have m2 := hpm j d rj f8
    have hne : i.intersection ≠ j.intersection := by
      intro h'
      apply e4
      rw [hjoint i e2, hjoint j e3, h', e1]
    rcases f9 with ⟨_, rfl⟩ | ⟨_, rfl⟩
    · exact ⟨m1, m2, i, j, e2, e3, hne⟩
    · exact ⟨m2, m1, j, i, e3, e2, Ne.symm hne⟩
  · rintro i j e1 ⟨e, he, ee⟩ e2 e3 e4
    obtain ⟨p1, _, _, _⟩ := paired_intersides _ hsp _ (List.Perm.refl _) e.2.id
    have hi := (p1 i).2 ⟨ee.symm, e2⟩
    have hj := (p1 j).2 ⟨(ee.trans e1).symm, e3⟩
    have hor : [i, j].Sublist (sidesOf sb.sheetplex e.2.id) ∨ [j, i].Sublist (sidesOf sb.sheetplex e.2.id) := by
      have hij : i ≠ j := fun h' => e4 (h' ▸ rfl)
      revert hi hj
      unfold sidesOf
      generalize intersides (sb.sheetplex.intersections.map Prod.snd) (some e.2.id) = l
      intro hi hj
      induction l with
      | nil => simp at hi
      | cons a l ih =>
        rcases List.mem_cons.1 hi with rfl | hi'
        · have hj' := (List.mem_cons.1 hj).resolve_left (Ne.symm hij)
          exact Or.inl ((List.singleton_sublist.2 hj').cons_cons _)
        · rcases List.mem_cons.1 hj with rfl | hj
          · exact Or.inr ((List.singleton_sublist.2 hi').cons_cons _)
          · exact (ih hi' hj).imp (fun h => h.cons a) fun h => h.cons a
    rcases hor with hs | hs
    · left
      intro k x hf
      exact (hmem k x).2 ((h2 k x).2 (Or.inr ⟨e, he, i, j, hs, hf⟩))
    · right
      intro k x hf
      exact (hmem k x).2 ((h2 k x).2 (Or.inr ⟨e, he, j, i, hs, hf⟩))

/-- Three sheets, the last meeting the other two. -/
def plex3 : SheetPlex := createSheetplex geo3 [⟨"s0".toList⟩, ⟨"s1".toList⟩, ⟨"s2".toList⟩]

/-- Three interactions of the two joints of `s2`; the first two overlap. -/
def inters3 : Interactions :=
  [("s0,s2".toList, [⟨("s0,s2".toList, "s2".toList), ivl 0 4, ("s1,s2".toList, "s2".toList), ivl 0 3⟩,
    ⟨("s0,s2".toList, "s2".toList), ivl 3 5, ("s1,s2".toList, "s2".toList), ivl 7 9⟩]),
   ("s1,s2".toList, [⟨("s1,s2".toList, "s2".toList), ivl 20 21, ("s0,s2".toList, "s2".toList), ivl 30 31⟩])]

theorem inters3_proper : ∀ e ∈ inters3, ∀ x ∈ e.2, ProperInteraction plex3 x := by
  have h1 : ∃ s, plex3.interside ("s0,s2".toList, "s2".toList) = .ok s ∧ s.intersection = "s0,s2".toList :=
    ⟨_, rfl, rfl⟩
  have h2 : ∃ s, plex3.interside ("s1,s2".toList, "s2".toList) = .ok s ∧ s.intersection = "s1,s2".toList :=
    ⟨_, rfl, rfl⟩
  obtain ⟨s, s1, s2⟩ := h1
  obtain ⟨t, t1, t2⟩ := h2
  have hne : s.intersection ≠ t.intersection := by rw [s2, t2]; decide
  intro e he x hx
  simp only [inters3, List.mem_cons, List.not_mem_nil, or_false] at he
  rcases he with rfl | rfl <;> simp only [List.mem_cons, List.not_mem_nil, or_false] at hx
  · rcases hx with rfl | rfl
    · exact ⟨(ivl_valid 0 4 (by norm_num)).1, (ivl_valid 0 3 (by norm_num)).1, s, t, s1, t1, hne⟩
    · exact ⟨(ivl_valid 3 5 (by norm_num)).1, (ivl_valid 7 9 (by norm_num)).1, s, t, s1, t1, hne⟩
  · subst hx
    exact ⟨(ivl_valid 20 21 (by norm_num)).1, (ivl_valid 30 31 (by norm_num)).1, t, s, t1, s1, Ne.symm hne⟩

/-- The first two interactions end in one cluster. -/
example : ∃ (m : PMap ℕ Cluster) (f : ℕ → ℕ), findClusters plex3 inters3 = .ok m ∧ f 0 = f 1 := by
  obtain ⟨m, f, h1, _, _, _, _, h2⟩ := c50_components plex3 inters3 inters3_proper
  refine ⟨m, f, h1, (h2 0 1 (by decide) (by decide)).2 (Relation.ReflTransGen.single
    ⟨by decide, by decide, "s0,s2".toList, 3, ?_, ?_⟩)⟩
  · refine Or.inl ⟨_, rfl, rfl, ?_⟩
    show (3 : ℝ) ∈ pointsOf (ivl 0 4).intervals
    rw [ivl_points]
    constructor <;> norm_num
  · refine Or.inl ⟨_, rfl, rfl, ?_⟩
    show (3 : ℝ) ∈ pointsOf (ivl 3 5).intervals
    rw [ivl_points]
    constructor <;> norm_num

end Ply
