import Verif.Proofs.FindVertex
import Verif.Proofs.Fan
import Verif.Proofs.Simplify

/-! # The pieces along a loop -/

namespace Ply

/-- Consecutive elements. -/
def links {α : Type*} (l : List α) : List (α × α) := l.zip l.tail

theorem mem_links {α : Type*} {l : List α} {e : α × α} :
    e ∈ links l ↔ ∃ (i : ℕ) (h : i + 1 < l.length), e = (l[i], l[i + 1]) := by
  unfold links
  constructor
  · intro h
    obtain ⟨i, hi, rfl⟩ := List.getElem_of_mem h
    simp only [List.length_zip, List.length_tail, lt_inf_iff] at hi
    exact ⟨i, by omega, by simp⟩
  · rintro ⟨i, h, rfl⟩
    refine List.mem_iff_getElem.2 ⟨i, by simp; omega, by simp⟩

theorem mem_links_append {α : Type*} (l m : List α) (x : α) (e : α × α) :
    e ∈ links (l ++ x :: m) ↔ e ∈ links (l ++ [x]) ∨ e ∈ links (x :: m) := by
  induction l with
  | nil => simp [links]
  | cons a l ih =>
    cases l with
    | nil => simp [links]
    | cons b l =>
      have h : ∀ t : List α, links (a :: b :: t) = (a, b) :: links (b :: t) := fun t => rfl
      simp only [List.cons_append] at ih ⊢
      rw [h, h, List.mem_cons, List.mem_cons, ih, or_assoc]

theorem polyEdges_links {α : Type*} (a : α) (l : List α) : polyEdges (a :: l) = links (a :: l ++ [a]) := by
  unfold polyEdges links
  simp only [List.cons_append, List.tail_cons]
  have : ∀ (b : α) (l : List α), (b :: l).zip (l ++ [a]) = (b :: (l ++ [a])).zip (l ++ [a]) := by
    intro b l
    induction l generalizing b with
    | nil => rfl
    | cons c l ih => simp only [List.cons_append, List.zip_cons_cons, ih c]
  exact this a l

theorem mem_links_map {α β : Type*} {f : α → β} {l : List α} {e : β × β} :
    e ∈ links (l.map f) ↔ ∃ x ∈ links l, e = (f x.1, f x.2) := by
  constructor
  · intro h
    obtain ⟨i, hi, rfl⟩ := mem_links.1 h
    simp only [List.length_map] at hi
    exact ⟨_, mem_links.2 ⟨i, hi, rfl⟩, by simp⟩
  · rintro ⟨x, hx, rfl⟩
    obtain ⟨i, hi, rfl⟩ := mem_links.1 hx
    exact mem_links.2 ⟨i, by simpa using hi, by simp⟩

theorem mem_links_reverse {α : Type*} {l : List α} {a b : α} : (a, b) ∈ links l.reverse ↔ (b, a) ∈ links l := by
  have key : ∀ (l : List α) (a b : α), (b, a) ∈ links l → (a, b) ∈ links l.reverse := by
    intro l a b h
    obtain ⟨i, hi, e⟩ := mem_links.1 h
    refine mem_links.2 ⟨l.length - 2 - i, by rw [List.length_reverse]; omega, ?_⟩
    rw [Prod.mk.injEq] at e
    rw [List.getElem_reverse, List.getElem_reverse, e.1, e.2]
    congr 2 <;> omega
  refine ⟨fun h => ?_, key l a b⟩
  have := key _ _ _ h
  rwa [List.reverse_reverse] at this

theorem InTri.swap {q x y p : Pt} (h : InTri q x y p) : InTri q y x p := by
  obtain ⟨α, β, a, b, c, e⟩ := h
  exact ⟨β, α, b, a, by linarith, by rw [e]; abel⟩

/-- The point is in the parallelogram. -/
def InPar (v d c p : Pt) : Prop := ∃ x τ : ℚ, 0 ≤ x ∧ x ≤ 1 ∧ 0 ≤ τ ∧ τ ≤ 1 ∧ p = v + x • d + τ • c

theorem InPar.of_tri1 {v d c p : Pt} (h : InTri v (v + c) (v + d + c) p) : InPar v d c p := by
  obtain ⟨α, β, a, b, k, e⟩ := h
  exact ⟨β, α + β, b.le, by linarith, by linarith, k.le, by rw [e]; ext <;> simp <;> ring⟩

theorem InPar.of_tri2 {v d c p : Pt} (h : InTri v (v + d + c) (v + d) p) : InPar v d c p := by
  obtain ⟨α, β, a, b, k, e⟩ := h
  exact ⟨α + β, α, by linarith, k.le, a.le, by linarith, by rw [e]; ext <;> simp <;> ring⟩

/-- A point in the parallelogram is in one of its halves. -/
theorem InPar.split {v d c p : Pt} (h : InPar v d c p) :
    (∃ α β : ℚ, 0 ≤ α ∧ 0 ≤ β ∧ α + β ≤ 1 ∧ p = v + α • (v + c - v) + β • (v + d + c - v)) ∨
    ∃ α β : ℚ, 0 ≤ α ∧ 0 ≤ β ∧ α + β ≤ 1 ∧ p = v + α • (v + d + c - v) + β • (v + d - v) := by
  obtain ⟨x, τ, x0, x1, t0, t1, e⟩ := h
  rcases le_total x τ with h | h
  · left
    exact ⟨τ - x, x, by linarith, x0, by linarith, by rw [e]; ext <;> simp <;> ring⟩
  · right
    exact ⟨τ, x - τ, t0, by linarith, by linarith, by rw [e]; ext <;> simp <;> ring⟩

theorem orient_base (v x y : Pt) : orient v x y = cross (x - v) (y - v) := by
  unfold orient cross; simp

theorem orient_par1 (v d c : Pt) : orient v (v + c) (v + d + c) = cross c d := by
  rw [orient_base, add_sub_cancel_left, add_assoc, add_sub_cancel_left, cross_add_right, cross_self, add_zero]

theorem orient_par2 (v d c : Pt) : orient v (v + d + c) (v + d) = cross c d := by
  rw [orient_base, add_sub_cancel_left, add_assoc, add_sub_cancel_left, cross_add_left, cross_self, zero_add]

theorem sgn3_flip (q x y p : Pt) : sgn3 (orient q y p) (orient y x p) (orient x q p) =
    -sgn3 (orient q x p) (orient x y p) (orient y q p) := by
  rw [orient_swap y q, orient_swap x y, orient_swap q x]
  unfold sgn3
  simp only [Left.neg_pos_iff, Left.neg_neg_iff]
  have h1 : (orient y q p < 0 ∧ orient x y p < 0 ∧ orient q x p < 0) ↔
      (orient q x p < 0 ∧ orient x y p < 0 ∧ orient y q p < 0) := by tauto
  have h2 : (0 < orient y q p ∧ 0 < orient x y p ∧ 0 < orient q x p) ↔
      (0 < orient q x p ∧ 0 < orient x y p ∧ 0 < orient y q p) := by tauto
  simp only [h1, h2]
  split_ifs with a b
  · exact absurd a.1 (by linarith [b.1])
  · rfl
  · rfl
  · rfl

theorem sgn3_at (v x p : Pt) : sgn3 (orient v v p) (orient v x p) (orient x v p) = 0 ∧
    sgn3 (orient v x p) (orient x v p) (orient v v p) = 0 := by
  have : orient v v p = 0 := by unfold orient; ring
  rw [this]
  unfold sgn3
  constructor <;> simp

/-- The parallelogram of an edge as the code lists it at a corner turning the other way. -/
theorem plain_iff {v d c p : Pt} (hc : cross c d ≠ 0) (hb : ¬ OnBoundary [v + c, v, v + d, v + d + c] p)
    (hq : ∀ x ∈ [v + c, v, v + d, v + d + c], ¬ OnSeg (v, x) p) :
    windingNumber [v + c, v, v + d, v + d + c] p ≠ 0 ↔ InPar v d c p := by
  have hE : polyEdges [v + c, v, v + d, v + d + c] =
      [(v + c, v), (v, v + d), (v + d, v + d + c), (v + d + c, v + c)] := rfl
  obtain ⟨σ, hσ, hs⟩ : ∃ σ : ℤ, (σ = 1 ∨ σ = -1) ∧ 0 ≤ -(σ : ℚ) * cross c d := by
    rcases lt_or_gt_of_ne hc with h | h
    · exact ⟨1, Or.inl rfl, by push_cast; linarith⟩
    · exact ⟨-1, Or.inr rfl, by push_cast; linarith⟩
  have o1 := orient_par1 v d c
  have o2 := orient_par2 v d c
  have fl : ∀ x y, orient v y x = -orient v x y := fun x y => by unfold orient; ring
  rw [winding_fan_iff hb hq hσ (by
    rw [hE]
    intro e he
    simp only [List.mem_cons, List.not_mem_nil, or_false] at he
    rcases he with rfl | rfl | rfl | rfl
    · have : orient v (v + c) v = 0 := by unfold orient; ring
      simp [this]
    · have : orient v v (v + d) = 0 := by unfold orient; ring
      simp [this]
    · dsimp only; rw [fl, o2]; linarith
    · dsimp only; rw [fl, o1]; linarith), hE]
  have z1 := (sgn3_at v (v + c) p).2
  have z2 := (sgn3_at v (v + d) p).1
  constructor
  · rintro ⟨e, he, hne⟩
    simp only [List.mem_cons, List.not_mem_nil, or_false] at he
    rcases he with rfl | rfl | rfl | rfl
    · exact absurd z1 hne
    · exact absurd z2 hne
    · exact InPar.of_tri2 (sgn3_ne hne).swap
    · exact InPar.of_tri1 (sgn3_ne hne).swap
  · intro h
    rcases h.split with ⟨α, β, a, b, k, e⟩ | ⟨α, β, a, b, k, e⟩
    · refine ⟨(v + d + c, v + c), by simp, ?_⟩
      rw [sgn3_flip, inTri_sgn3 (by rw [o1]; exact hc) a b k e (hq _ (by simp))
        (fun h => hb ⟨(v + d + c, v + c), by rw [hE]; simp, onSeg_swap h⟩) (hq _ (by simp))]
      split_ifs <;> decide
    · refine ⟨(v + d, v + d + c), by simp, ?_⟩
      rw [sgn3_flip, inTri_sgn3 (by rw [o2]; exact hc) a b k e (hq _ (by simp))
        (fun h => hb ⟨(v + d, v + d + c), by rw [hE]; simp, onSeg_swap h⟩) (hq _ (by simp))]
      split_ifs <;> decide

/-- The parallelogram of an edge and the triangles of a corner as the code lists them. -/
theorem fan_iff {v d c p : Pt} {w0 : Pt} {ws : List Pt} {ς : ℤ} (hς : ς = 1 ∨ ς = -1) (hlast : (w0 :: ws).getLast (by simp) = v + c)
    (hc : 0 < (ς : ℚ) * cross c d) (hw : ∀ e ∈ links (w0 :: ws), 0 < (ς : ℚ) * orient v e.1 e.2)
    (hb : ¬ OnBoundary (w0 :: ws ++ [v + d + c, v + d, v]) p)
    (hq : ∀ x ∈ w0 :: ws ++ [v + d + c, v + d, v], ¬ OnSeg (v, x) p) :
    windingNumber (w0 :: ws ++ [v + d + c, v + d, v]) p ≠ 0 ↔
      InPar v d c p ∨ ∃ e ∈ links (w0 :: ws), ∃ α β : ℚ, 0 ≤ α ∧ 0 ≤ β ∧ α + β ≤ 1 ∧
        p = v + α • (e.1 - v) + β • (e.2 - v) := by
  have hE : ∀ e, e ∈ polyEdges (w0 :: ws ++ [v + d + c, v + d, v]) ↔
      e ∈ links (w0 :: ws) ∨ e = (v + c, v + d + c) ∨ e = (v + d + c, v + d) ∨ e = (v + d, v) ∨ e = (v, w0) := by
    intro e
    rw [List.cons_append, polyEdges_links]
    have e1 : w0 :: (ws ++ [v + d + c, v + d, v]) ++ [w0] =
        (w0 :: ws).dropLast ++ (v + c) :: [v + d + c, v + d, v, w0] := by
      have := List.dropLast_append_getLast (l := w0 :: ws) (by simp)
      rw [hlast] at this
      calc w0 :: (ws ++ [v + d + c, v + d, v]) ++ [w0] = (w0 :: ws) ++ [v + d + c, v + d, v, w0] := by simp
        _ = ((w0 :: ws).dropLast ++ [v + c]) ++ [v + d + c, v + d, v, w0] := by rw [this]
        _ = _ := by simp
    have e2 : (w0 :: ws).dropLast ++ [v + c] = w0 :: ws := by
      have := List.dropLast_append_getLast (l := w0 :: ws) (by simp)
      rw [hlast] at this
      exact this
    rw [e1, mem_links_append, e2]
    simp [links]
  have hc0 : cross c d ≠ 0 := by intro h; rw [h] at hc; simp at hc
  have o1 := orient_par1 v d c
  have o2 := orient_par2 v d c
  have hmem : ∀ e ∈ links (w0 :: ws), e.1 ∈ w0 :: ws ∧ e.2 ∈ w0 :: ws := by
    intro e he
    obtain ⟨i, hi, rfl⟩ := mem_links.1 he
    exact ⟨List.getElem_mem _, List.getElem_mem _⟩
  have hcm : v + c ∈ w0 :: ws := hlast ▸ List.getLast_mem _
  rw [winding_fan_iff hb hq hς (by
    intro e he
    rcases (hE e).1 he with he | rfl | rfl | rfl | rfl
    · exact (hw e he).le
    · dsimp only; rw [o1]; exact hc.le
    · dsimp only; rw [o2]; exact hc.le
    · have : orient v (v + d) v = 0 := by unfold orient; ring
      simp [this]
    · have : orient v v w0 = 0 := by unfold orient; ring
      simp [this])]
  constructor
  · rintro ⟨e, he, hne⟩
    rcases (hE e).1 he with he | rfl | rfl | rfl | rfl
    · obtain ⟨α, β, a, b, k, h⟩ := sgn3_ne hne
      exact Or.inr ⟨e, he, α, β, a.le, b.le, k.le, h⟩
    · exact Or.inl (InPar.of_tri1 (sgn3_ne hne))
    · exact Or.inl (InPar.of_tri2 (sgn3_ne hne))
    · exact absurd (sgn3_at v (v + d) p).2 hne
    · exact absurd (sgn3_at v w0 p).1 hne
  · rintro (h | ⟨e, he, α, β, a, b, k, h⟩)
    · rcases h.split with ⟨α, β, a, b, k, e⟩ | ⟨α, β, a, b, k, e⟩
      · have hm := (hE (v + c, v + d + c)).2 (by simp)
        refine ⟨(v + c, v + d + c), hm, ?_⟩
        rw [inTri_sgn3 (by rw [o1]; exact hc0) a b k e (hq _ (List.mem_append_left _ hcm))
          (fun h => hb ⟨_, hm, h⟩) (hq _ (by simp))]
        split_ifs <;> decide
      · have hm := (hE (v + d + c, v + d)).2 (by simp)
        refine ⟨(v + d + c, v + d), hm, ?_⟩
        rw [inTri_sgn3 (by rw [o2]; exact hc0) a b k e (hq _ (by simp))
          (fun h => hb ⟨_, hm, h⟩) (hq _ (by simp))]
        split_ifs <;> decide
    · have hm := (hE e).2 (Or.inl he)
      refine ⟨e, hm, ?_⟩
      rw [inTri_sgn3 (by intro h0; have := hw e he; rw [h0] at this; simp at this) a b k h
        (hq _ (List.mem_append_left _ (hmem e he).1)) (fun h => hb ⟨_, hm, h⟩)
        (hq _ (List.mem_append_left _ (hmem e he).2))]
      split_ifs <;> decide

end Ply
