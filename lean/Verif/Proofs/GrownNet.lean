import Verif.Proofs.GrownBox
import Verif.Props.Tiles

/-!
# The pieces around a box are tiles
-/

namespace Ply

def boxRings (x y w h p q : ℚ) : List (List Pt) := pieceIdx.map fun l => l.map (boxPt x y w h p q)

def boxNet (x y w h p q : ℚ) : List Seg := (outerIdx ++ innerIdx).map (Prod.map (boxPt x y w h p q) (boxPt x y w h p q))

section

variable {x y w h p q : ℚ} (hw : 0 < w) (hh : 0 < h) (hp : 0 < p) (hq : 0 < q)
include hw hh hp hq

theorem boxRings_bulge : ∀ L ∈ boxRings x y w h p q, Bulge L := by
  intro L hL
  obtain ⟨l, hl, rfl⟩ := List.mem_map.1 hL
  have h0 : 3 ≤ l.length ∧ l.Nodup := (by decide +kernel : ∀ l ∈ pieceIdx, 3 ≤ l.length ∧ l.Nodup) l hl
  refine ⟨by simpa using h0.1, (List.nodup_map_iff (boxPt_inj hw hh hp hq)).2 h0.2, ?_⟩
  intro e he v hv
  rw [polyEdges_map] at he
  obtain ⟨i, hi, rfl⟩ := List.mem_map.1 he
  obtain ⟨k, hk, rfl⟩ := List.mem_map.1 hv
  rcases boxPt_pieces (x := x) (y := y) hw hh hp hq l hl i hi k hk with h | h | h
  · exact Or.inl (by rw [h]; rfl)
  · exact Or.inr (Or.inl (by rw [h]; rfl))
  · exact Or.inr (Or.inr h)

theorem boxRings_cw : ∀ L ∈ boxRings x y w h p q, shoelace L < 0 := by
  have h1 := mul_pos hw hh
  have h2 := mul_pos hw hp
  have h3 := mul_pos hw hq
  have h4 := mul_pos hh hp
  have h5 := mul_pos hh hq
  have h6 := mul_pos hp hp
  have h7 := mul_pos hp hq
  have h8 := mul_pos hq hq
  intro L hL
  simp only [boxRings, pieceIdx, List.map_cons, List.map_nil, List.mem_cons, List.not_mem_nil, or_false] at hL
  rcases hL with rfl | rfl | rfl | rfl | rfl
  all_goals
    simp only [shoelace, polyEdges, List.cons_append, List.nil_append, List.zip_cons_cons, List.zip_nil_right, List.map_cons, List.map_nil,
      List.sum_cons, List.sum_nil, boxPt, cross]
    ring_nf
    linarith

/-- The inside of each piece. -/
theorem boxRings_in {z : Pt} {L : List Pt} (hL : L ∈ boxRings x y w h p q) (hz : InPoly L z) :
    (L = [0, 1, 2, 3].map (boxPt x y w h p q) ∧ x < z.1 ∧ z.1 < x + w ∧ y < z.2 ∧ z.2 < y + h) ∨
    (L = [13, 14, 15, 4, 1].map (boxPt x y w h p q) ∧ z.1 < x ∧ z.2 < y + h) ∨
    (L = [4, 5, 6, 7, 2].map (boxPt x y w h p q) ∧ y + h < z.2 ∧ z.1 < x + w) ∨
    (L = [7, 8, 9, 10, 3].map (boxPt x y w h p q) ∧ x + w < z.1 ∧ y < z.2) ∨
    (L = [10, 11, 12, 13, 0].map (boxPt x y w h p q) ∧ z.2 < y ∧ x < z.1) := by
  have hi := ((boxRings_bulge hw hh hp hq L hL).inPoly_iff z).1 hz
  simp only [boxRings, pieceIdx, List.map_cons, List.map_nil, List.mem_cons, List.not_mem_nil, or_false] at hL
  have ha : 0 < 2 * p + q := by linarith
  rcases hL with rfl | rfl | rfl | rfl | rfl
  · refine Or.inl ⟨rfl, ?_, ?_, ?_, ?_⟩
    · have := hi (boxPt x y w h p q 0, boxPt x y w h p q 1) (by simp [polyEdges])
      simp only [boxPt, orient] at this
      by_contra hc; nlinarith
    · have := hi (boxPt x y w h p q 2, boxPt x y w h p q 3) (by simp [polyEdges])
      simp only [boxPt, orient] at this
      by_contra hc; nlinarith
    · have := hi (boxPt x y w h p q 3, boxPt x y w h p q 0) (by simp [polyEdges])
      simp only [boxPt, orient] at this
      by_contra hc; nlinarith
    · have := hi (boxPt x y w h p q 1, boxPt x y w h p q 2) (by simp [polyEdges])
      simp only [boxPt, orient] at this
      by_contra hc; nlinarith
  · refine Or.inr (Or.inl ⟨rfl, ?_, ?_⟩)
    · have := hi (boxPt x y w h p q 1, boxPt x y w h p q 13) (by simp [polyEdges])
      simp only [boxPt, orient] at this
      by_contra hc; nlinarith
    · have := hi (boxPt x y w h p q 4, boxPt x y w h p q 1) (by simp [polyEdges])
      simp only [boxPt, orient] at this
      by_contra hc; nlinarith
  · refine Or.inr (Or.inr (Or.inl ⟨rfl, ?_, ?_⟩))
    · have := hi (boxPt x y w h p q 2, boxPt x y w h p q 4) (by simp [polyEdges])
      simp only [boxPt, orient] at this
      by_contra hc; nlinarith
    · have := hi (boxPt x y w h p q 7, boxPt x y w h p q 2) (by simp [polyEdges])
      simp only [boxPt, orient] at this
      by_contra hc; nlinarith
  · refine Or.inr (Or.inr (Or.inr (Or.inl ⟨rfl, ?_, ?_⟩)))
    · have := hi (boxPt x y w h p q 3, boxPt x y w h p q 7) (by simp [polyEdges])
      simp only [boxPt, orient] at this
      by_contra hc; nlinarith
    · have := hi (boxPt x y w h p q 10, boxPt x y w h p q 3) (by simp [polyEdges])
      simp only [boxPt, orient] at this
      by_contra hc; nlinarith
  · refine Or.inr (Or.inr (Or.inr (Or.inr ⟨rfl, ?_, ?_⟩)))
    · have := hi (boxPt x y w h p q 0, boxPt x y w h p q 10) (by simp [polyEdges])
      simp only [boxPt, orient] at this
      by_contra hc; nlinarith
    · have := hi (boxPt x y w h p q 13, boxPt x y w h p q 0) (by simp [polyEdges])
      simp only [boxPt, orient] at this
      by_contra hc; nlinarith

theorem boxRings_clear : Clear (boxRings x y w h p q) where
  simple := fun L hL => (boxRings_bulge hw hh hp hq L hL).simple
  cw := boxRings_cw hw hh hp hq
  apart := by
    intro L hL M hM z hz hz'
    rcases boxRings_in hw hh hp hq hL hz with h1 | h1 | h1 | h1 | h1 <;>
      rcases boxRings_in hw hh hp hq hM hz' with h2 | h2 | h2 | h2 | h2 <;>
      first
      | exact h1.1.trans h2.1.symm
      | (exfalso; have a := h1.2; have b := h2.2; obtain ⟨a1, a2⟩ := a; obtain ⟨b1, b2⟩ := b; grind)

/-! ### The net -/

theorem onSeg_inner {z : Pt} :
    (OnSeg (boxPt x y w h p q 1, boxPt x y w h p q 13) z ↔ z.1 = x ∧ y - (2 * p + q) ≤ z.2 ∧ z.2 ≤ y + h) ∧
    (OnSeg (boxPt x y w h p q 2, boxPt x y w h p q 4) z ↔ z.2 = y + h ∧ x - (2 * p + q) ≤ z.1 ∧ z.1 ≤ x + w) ∧
    (OnSeg (boxPt x y w h p q 3, boxPt x y w h p q 7) z ↔ z.1 = x + w ∧ y ≤ z.2 ∧ z.2 ≤ y + h + (2 * p + q)) ∧
    (OnSeg (boxPt x y w h p q 0, boxPt x y w h p q 10) z ↔ z.2 = y ∧ x ≤ z.1 ∧ z.1 ≤ x + w + (2 * p + q)) := by
  refine ⟨?_, ?_, ?_, ?_⟩
  · rw [onSeg_iff_of_vertical (by simp [boxPt])]
    simp only [boxPt]
    rw [min_eq_right (by linarith), max_eq_left (by linarith)]
  · rw [onSeg_iff_of_horizontal (by simp [boxPt])]
    simp only [boxPt]
    rw [min_eq_right (by linarith), max_eq_left (by linarith)]
  · rw [onSeg_iff_of_vertical (by simp [boxPt])]
    simp only [boxPt]
    rw [min_eq_left (by linarith), max_eq_right (by linarith)]
  · rw [onSeg_iff_of_horizontal (by simp [boxPt])]
    simp only [boxPt]
    rw [min_eq_left (by linarith), max_eq_right (by linarith)]

/-- The only corner in the middle of a lengthened side. -/
def midIdx (e : Fin 16 × Fin 16) : Fin 16 := e.1 - 1 + (if e.1 = 0 then 4 else 0)

theorem inner_corner : ∀ e ∈ innerIdx, ∀ k : Fin 16, OnSeg (boxPt x y w h p q e.1, boxPt x y w h p q e.2) (boxPt x y w h p q k) →
    k = e.1 ∨ k = e.2 ∨ k = midIdx e := by
  intro e he k hk
  simp only [innerIdx, List.mem_cons, List.not_mem_nil, or_false] at he
  rcases he with rfl | rfl | rfl | rfl
  · rw [(onSeg_inner hw hh hp hq).1] at hk
    fin_cases k <;> first | decide | (exfalso; simp only [boxPt] at hk; obtain ⟨a, b, c⟩ := hk; linarith)
  · rw [(onSeg_inner hw hh hp hq).2.1] at hk
    fin_cases k <;> first | decide | (exfalso; simp only [boxPt] at hk; obtain ⟨a, b, c⟩ := hk; linarith)
  · rw [(onSeg_inner hw hh hp hq).2.2.1] at hk
    fin_cases k <;> first | decide | (exfalso; simp only [boxPt] at hk; obtain ⟨a, b, c⟩ := hk; linarith)
  · rw [(onSeg_inner hw hh hp hq).2.2.2] at hk
    fin_cases k <;> first | decide | (exfalso; simp only [boxPt] at hk; obtain ⟨a, b, c⟩ := hk; linarith)

theorem outer_meet {e k : Fin 16 × Fin 16} (he : e ∈ outerIdx) (hk : k ∈ outerIdx ++ innerIdx) {z : Pt}
    (h1 : OnSeg (boxPt x y w h p q e.1, boxPt x y w h p q e.2) z) (h2 : OnSeg (boxPt x y w h p q k.1, boxPt x y w h p q k.2) z) :
    k = e ∨ z = boxPt x y w h p q k.1 ∨ z = boxPt x y w h p q k.2 := by
  have inj := boxPt_inj (x := x) (y := y) hw hh hp hq
  have side : ∀ i, boxPt x y w h p q i = boxPt x y w h p q e.1 ∨ boxPt x y w h p q i = boxPt x y w h p q e.2 ∨
      orient (boxPt x y w h p q e.1) (boxPt x y w h p q e.2) (boxPt x y w h p q i) < 0 := by
    intro i
    rcases boxPt_outer (x := x) (y := y) hw hh hp hq e he i with h | h | h
    · exact Or.inl (by rw [h])
    · exact Or.inr (Or.inl (by rw [h]))
    · exact Or.inr (Or.inr h)
  have hne : k.1 ≠ k.2 := (by decide +kernel : ∀ k ∈ outerIdx ++ innerIdx, k.1 ≠ k.2) k hk
  rcases meet_side (e := (boxPt x y w h p q e.1, boxPt x y w h p q e.2)) (k := (boxPt x y w h p q k.1, boxPt x y w h p q k.2))
    (fun hc => hne (inj hc)) (side k.1) (side k.2) h1 h2 with h | h | h | h
  · rw [Prod.mk.injEq] at h
    exact Or.inl (Prod.ext (inj h.1) (inj h.2))
  · rw [Prod.mk.injEq] at h
    have h' : k = (e.2, e.1) := Prod.ext (inj h.1) (inj h.2)
    exfalso
    have : (e.2, e.1) ∉ outerIdx ++ innerIdx := (by decide +kernel : ∀ e ∈ outerIdx, (e.2, e.1) ∉ outerIdx ++ innerIdx) e he
    exact this (h' ▸ hk)
  · exact Or.inr (Or.inl h.1)
  · exact Or.inr (Or.inr h.1)

theorem inner_meet {e k : Fin 16 × Fin 16} (he : e ∈ innerIdx) (hk : k ∈ innerIdx) {z : Pt}
    (h1 : OnSeg (boxPt x y w h p q e.1, boxPt x y w h p q e.2) z) (h2 : OnSeg (boxPt x y w h p q k.1, boxPt x y w h p q k.2) z) :
    k = e ∨ z = boxPt x y w h p q e.1 ∨ z = boxPt x y w h p q k.1 := by
  obtain ⟨i1, i2, i3, i4⟩ := onSeg_inner (x := x) (y := y) (z := z) hw hh hp hq
  simp only [innerIdx, List.mem_cons, List.not_mem_nil, or_false] at he hk
  rcases he with rfl | rfl | rfl | rfl <;> rcases hk with rfl | rfl | rfl | rfl <;>
    first
    | exact Or.inl rfl
    | (right
       simp only [i1, i2, i3, i4] at h1 h2
       obtain ⟨a1, a2, a3⟩ := h1
       obtain ⟨b1, b2, b3⟩ := h2
       first
       | (exfalso; linarith)
       | exact Or.inl (Prod.ext (by simp only [boxPt]; linarith) (by simp only [boxPt]; linarith))
       | exact Or.inr (Prod.ext (by simp only [boxPt]; linarith) (by simp only [boxPt]; linarith)))

theorem boxNet_net : Net3 (boxNet x y w h p q) where
  meet := by
    intro e he k hk z h1 h2
    obtain ⟨e, hem, rfl⟩ := List.mem_map.1 he
    obtain ⟨k, hkm, rfl⟩ := List.mem_map.1 hk
    rcases List.mem_append.1 hem with he' | he'
    · rcases outer_meet hw hh hp hq he' hkm h1 h2 with h | h
      · exact Or.inl (by rw [h])
      · exact Or.inr (Or.inr h)
    · rcases List.mem_append.1 hkm with hk' | hk'
      · rcases outer_meet hw hh hp hq hk' hem h2 h1 with h | h
        · exact Or.inl (by rw [h])
        · exact Or.inr (Or.inl h)
      · rcases inner_meet hw hh hp hq he' hk' h1 h2 with h | h | h
        · exact Or.inl (by rw [h])
        · exact Or.inr (Or.inl (Or.inl h))
        · exact Or.inr (Or.inr (Or.inl h))
  deg := by
    intro v f hf
    have inj := boxPt_inj (x := x) (y := y) hw hh hp hq
    have hg : ∀ i, ∃ k ∈ outerIdx ++ innerIdx, f i = Prod.map (boxPt x y w h p q) (boxPt x y w h p q) k := by
      intro i
      obtain ⟨k, hk, h⟩ := List.mem_map.1 (hf i).1
      exact ⟨k, hk, h.symm⟩
    choose g hg hfg using hg
    obtain ⟨c, hc⟩ : ∃ c, v = boxPt x y w h p q c := by
      rcases (hf 0).2 with h | h
      · exact ⟨_, h.trans (by rw [hfg]; rfl)⟩
      · exact ⟨_, h.trans (by rw [hfg]; rfl)⟩
    have hin : ∀ i, g i ∈ ((outerIdx ++ innerIdx).filter fun k => decide (k.1 = c ∨ k.2 = c)).toFinset := by
      intro i
      rw [List.mem_toFinset, List.mem_filter]
      refine ⟨hg i, decide_eq_true ?_⟩
      rcases (hf i).2 with h | h
      · rw [hfg, hc] at h
        exact Or.inl (inj h).symm
      · rw [hfg, hc] at h
        exact Or.inr (inj h).symm
    have hcard : ((outerIdx ++ innerIdx).filter fun k => decide (k.1 = c ∨ k.2 = c)).toFinset.card < (Finset.univ : Finset (Fin 4)).card := by
      refine lt_of_le_of_lt (List.toFinset_card_le _) ?_
      exact (by decide +kernel : ∀ c : Fin 16, ((outerIdx ++ innerIdx).filter fun k => decide (k.1 = c ∨ k.2 = c)).length <
        (Finset.univ : Finset (Fin 4)).card) c
    obtain ⟨i, -, j, -, hij, hgij⟩ := Finset.exists_ne_map_eq_of_card_lt_of_maps_to hcard fun i _ => hin i
    exact ⟨i, j, hij, by rw [hfg, hfg, hgij]⟩
  tee := by
    intro e he v hv n1 n2 k hk k' hk' h1 h2
    have inj := boxPt_inj (x := x) (y := y) hw hh hp hq
    obtain ⟨e, hem, rfl⟩ := List.mem_map.1 he
    obtain ⟨k, hkm, rfl⟩ := List.mem_map.1 hk
    obtain ⟨k', hkm', rfl⟩ := List.mem_map.1 hk'
    obtain ⟨c, hc, hck⟩ : ∃ c, v = boxPt x y w h p q c ∧ (k.1 = c ∨ k.2 = c) := by
      rcases h1 with h | h
      · exact ⟨_, h, Or.inl rfl⟩
      · exact ⟨_, h, Or.inr rfl⟩
    have hck' : k'.1 = c ∨ k'.2 = c := by
      rcases h2 with h | h
      · exact Or.inl (inj (h.symm.trans hc))
      · exact Or.inr (inj (h.symm.trans hc))
    subst hc
    rcases List.mem_append.1 hem with he' | he'
    · exfalso
      rcases boxPt_outer (x := x) (y := y) hw hh hp hq e he' c with h | h | h
      · exact n1 (by rw [h]; rfl)
      · exact n2 (by rw [h]; rfl)
      · exact h.ne (onSeg_orient hv)
    · rcases inner_corner hw hh hp hq e he' c hv with h | h | h
      · exact absurd (by rw [h]; rfl) n1
      · exact absurd (by rw [h]; rfl) n2
      · have : ∀ e ∈ innerIdx, ∀ k ∈ outerIdx ++ innerIdx, ∀ k' ∈ outerIdx ++ innerIdx, (k.1 = midIdx e ∨ k.2 = midIdx e) →
            (k'.1 = midIdx e ∨ k'.2 = midIdx e) → k = k' := by decide +kernel
        subst h
        rw [this e he' k hkm k' hkm' hck hck']

theorem boxRings_three : Threeway (boxRings x y w h p q) := by
  refine (boxNet_net (x := x) (y := y) hw hh hp hq).threeway (Ls := boxRings x y w h p q) ?_
  intro L hL e he
  have i1 := fun z => (onSeg_inner (x := x) (y := y) (z := z) hw hh hp hq).1
  have i2 := fun z => (onSeg_inner (x := x) (y := y) (z := z) hw hh hp hq).2.1
  have i3 := fun z => (onSeg_inner (x := x) (y := y) (z := z) hw hh hp hq).2.2.1
  have i4 := fun z => (onSeg_inner (x := x) (y := y) (z := z) hw hh hp hq).2.2.2
  obtain ⟨l, hl, rfl⟩ := List.mem_map.1 hL
  rw [polyEdges_map] at he
  obtain ⟨i, hi, rfl⟩ := List.mem_map.1 he
  have net : ∀ t ∈ outerIdx ++ innerIdx, (boxPt x y w h p q t.1, boxPt x y w h p q t.2) ∈ boxNet x y w h p q :=
    fun t ht => List.mem_map.2 ⟨t, ht, rfl⟩
  have hcase : i ∈ outerIdx ∨ i ∈ innerIdx ∨ i ∈ ([(0, 1), (1, 2), (2, 3), (3, 0), (4, 1), (7, 2), (10, 3), (13, 0)] : List (Fin 16 × Fin 16)) := by
    exact (by decide +kernel : ∀ l ∈ pieceIdx, ∀ i ∈ polyEdges l, i ∈ outerIdx ∨ i ∈ innerIdx ∨
      i ∈ ([(0, 1), (1, 2), (2, 3), (3, 0), (4, 1), (7, 2), (10, 3), (13, 0)] : List (Fin 16 × Fin 16))) l hl i hi
  rcases hcase with hm | hm | hm
  · exact ⟨_, net i (List.mem_append_left _ hm), fun z hz => hz⟩
  · exact ⟨_, net i (List.mem_append_right _ hm), fun z hz => hz⟩
  · have sub : ∀ t ∈ innerIdx, OnSeg (boxPt x y w h p q t.1, boxPt x y w h p q t.2) (boxPt x y w h p q i.1) →
        OnSeg (boxPt x y w h p q t.1, boxPt x y w h p q t.2) (boxPt x y w h p q i.2) →
        ∃ t ∈ boxNet x y w h p q, ∀ z, OnSeg (Prod.map (boxPt x y w h p q) (boxPt x y w h p q) i) z → OnSeg t z :=
      fun t ht a b => ⟨_, net t (List.mem_append_right _ ht), fun z hz => Arr.onSeg_sub a b hz⟩
    simp only [List.mem_cons, List.not_mem_nil, or_false] at hm
    rcases hm with rfl | rfl | rfl | rfl | rfl | rfl | rfl | rfl
    · refine sub (1, 13) (by decide) ?_ ?_ <;> (rw [i1]; simp only [boxPt]; refine ⟨?_, ?_, ?_⟩ <;> first | trivial | linarith)
    · refine sub (2, 4) (by decide) ?_ ?_ <;> (rw [i2]; simp only [boxPt]; refine ⟨?_, ?_, ?_⟩ <;> first | trivial | linarith)
    · refine sub (3, 7) (by decide) ?_ ?_ <;> (rw [i3]; simp only [boxPt]; refine ⟨?_, ?_, ?_⟩ <;> first | trivial | linarith)
    · refine sub (0, 10) (by decide) ?_ ?_ <;> (rw [i4]; simp only [boxPt]; refine ⟨?_, ?_, ?_⟩ <;> first | trivial | linarith)
    · refine sub (2, 4) (by decide) ?_ ?_ <;> (rw [i2]; simp only [boxPt]; refine ⟨?_, ?_, ?_⟩ <;> first | trivial | linarith)
    · refine sub (3, 7) (by decide) ?_ ?_ <;> (rw [i3]; simp only [boxPt]; refine ⟨?_, ?_, ?_⟩ <;> first | trivial | linarith)
    · refine sub (0, 10) (by decide) ?_ ?_ <;> (rw [i4]; simp only [boxPt]; refine ⟨?_, ?_, ?_⟩ <;> first | trivial | linarith)
    · refine sub (1, 13) (by decide) ?_ ?_ <;> (rw [i1]; simp only [boxPt]; refine ⟨?_, ?_, ?_⟩ <;> first | trivial | linarith)

theorem boxRings_tiles : Tiles (boxRings x y w h p q) where
  clear := boxRings_clear hw hh hp hq
  three := boxRings_three hw hh hp hq
  open_ := by
    intro z hb hi
    have hout : ∃ o ∈ outerIdx, 0 < orient (boxPt x y w h p q o.1) (boxPt x y w h p q o.2) z := by
      by_contra hc
      push Not at hc
      have no : ∀ l ∈ pieceIdx, ¬ ∀ e ∈ polyEdges l, orient (boxPt x y w h p q e.1) (boxPt x y w h p q e.2) z ≤ 0 := by
        intro l hl hle
        have hm : l.map (boxPt x y w h p q) ∈ boxRings x y w h p q := List.mem_map_of_mem hl
        rcases (boxRings_bulge hw hh hp hq _ hm).closed (p := z) (by
          intro e he
          rw [polyEdges_map] at he
          obtain ⟨i, hi', rfl⟩ := List.mem_map.1 he
          exact hle i hi') with h | h
        · exact hi _ hm h
        · exact hb _ hm h
      have ha : 0 < 2 * p + q := by linarith
      have s0 : ∀ e : Fin 16 × Fin 16, e ∈ outerIdx → orient (boxPt x y w h p q e.1) (boxPt x y w h p q e.2) z ≤ 0 := hc
      by_cases c0 : (x ≤ z.1 ∧ z.1 ≤ x + w ∧ y ≤ z.2 ∧ z.2 ≤ y + h)
      · refine no [0, 1, 2, 3] (by decide) fun e he => ?_
        simp only [polyEdges, List.cons_append, List.nil_append, List.zip_cons_cons, List.zip_nil_right, List.mem_cons, List.not_mem_nil, or_false] at he
        obtain ⟨c1, c2, c3, c4⟩ := c0
        rcases he with rfl | rfl | rfl | rfl <;> (simp only [boxPt, orient]; nlinarith)
      by_cases c1 : z.1 ≤ x ∧ z.2 ≤ y + h
      · refine no [13, 14, 15, 4, 1] (by decide) fun e he => ?_
        simp only [polyEdges, List.cons_append, List.nil_append, List.zip_cons_cons, List.zip_nil_right, List.mem_cons, List.not_mem_nil, or_false] at he
        rcases he with rfl | rfl | rfl | rfl | rfl <;> first | exact s0 _ (by decide) | (simp only [boxPt, orient]; nlinarith [c1.1, c1.2])
      by_cases c2 : y + h ≤ z.2 ∧ z.1 ≤ x + w
      · refine no [4, 5, 6, 7, 2] (by decide) fun e he => ?_
        simp only [polyEdges, List.cons_append, List.nil_append, List.zip_cons_cons, List.zip_nil_right, List.mem_cons, List.not_mem_nil, or_false] at he
        rcases he with rfl | rfl | rfl | rfl | rfl <;> first | exact s0 _ (by decide) | (simp only [boxPt, orient]; nlinarith [c2.1, c2.2])
      by_cases c3 : x + w ≤ z.1 ∧ y ≤ z.2
      · refine no [7, 8, 9, 10, 3] (by decide) fun e he => ?_
        simp only [polyEdges, List.cons_append, List.nil_append, List.zip_cons_cons, List.zip_nil_right, List.mem_cons, List.not_mem_nil, or_false] at he
        rcases he with rfl | rfl | rfl | rfl | rfl <;> first | exact s0 _ (by decide) | (simp only [boxPt, orient]; nlinarith [c3.1, c3.2])
      by_cases c4 : z.2 ≤ y ∧ x ≤ z.1
      · refine no [10, 11, 12, 13, 0] (by decide) fun e he => ?_
        simp only [polyEdges, List.cons_append, List.nil_append, List.zip_cons_cons, List.zip_nil_right, List.mem_cons, List.not_mem_nil, or_false] at he
        rcases he with rfl | rfl | rfl | rfl | rfl <;> first | exact s0 _ (by decide) | (simp only [boxPt, orient]; nlinarith [c4.1, c4.2])
      clear no s0 hc hb hi
      grind
    obtain ⟨o, ho, hpos⟩ := hout
    have key : ∀ v, orient (boxPt x y w h p q o.1) (boxPt x y w h p q o.2) v =
        dotp (-((boxPt x y w h p q o.2).2 - (boxPt x y w h p q o.1).2), (boxPt x y w h p q o.2).1 - (boxPt x y w h p q o.1).1) v -
        dotp (-((boxPt x y w h p q o.2).2 - (boxPt x y w h p q o.1).2), (boxPt x y w h p q o.2).1 - (boxPt x y w h p q o.1).1)
          (boxPt x y w h p q o.1) := by
      intro v; unfold orient dotp; ring
    refine escapes_beyond (u := (-((boxPt x y w h p q o.2).2 - (boxPt x y w h p q o.1).2), (boxPt x y w h p q o.2).1 - (boxPt x y w h p q o.1).1))
      (k := dotp (-((boxPt x y w h p q o.2).2 - (boxPt x y w h p q o.1).2), (boxPt x y w h p q o.2).1 - (boxPt x y w h p q o.1).1)
          (boxPt x y w h p q o.1)) ?_ ?_
    · intro L hL v hv
      obtain ⟨l, hl, rfl⟩ := List.mem_map.1 hL
      obtain ⟨k, hk, rfl⟩ := List.mem_map.1 hv
      have := key (boxPt x y w h p q k)
      have z := orient_ends (boxPt x y w h p q o.1) (boxPt x y w h p q o.2)
      have hle : orient (boxPt x y w h p q o.1) (boxPt x y w h p q o.2) (boxPt x y w h p q k) ≤ 0 := by
        rcases boxPt_outer (x := x) (y := y) hw hh hp hq o ho k with h | h | h
        · rw [h]; exact z.1.le
        · rw [h]; exact z.2.le
        · exact h.le
      linarith
    · rw [key] at hpos
      linarith

end

end Ply
