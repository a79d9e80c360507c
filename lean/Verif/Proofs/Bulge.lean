import Verif.Proofs.SimpleRing
import Verif.Proofs.StarPair
import Verif.Proofs.Triangle
import Verif.Spec.Tiles

/-!
# Convex rings, and rings made of the edges of a net
-/

namespace Ply

open Relation (ReflTransGen)

/-- A convex ring that goes clockwise, with a proper turn at each corner. -/
structure Bulge (L : List Pt) : Prop where
  long : 3 ≤ L.length
  nodup : L.Nodup
  strict : ∀ e ∈ polyEdges L, ∀ v ∈ L, v = e.1 ∨ v = e.2 ∨ orient e.1 e.2 v < 0

theorem orient_on_edge (a b : Pt) (k : Seg) (t : ℚ) :
    orient a b (along k t) = (1 - t) * orient a b k.1 + t * orient a b k.2 := by
  unfold orient along; ring

theorem orient_ends (a b : Pt) : orient a b a = 0 ∧ orient a b b = 0 := by
  unfold orient; constructor <;> ring

theorem orient_flip (a b p : Pt) : orient b a p = -orient a b p := by unfold orient; ring

/-- A segment on one side of the line of another one meets it in an end only. -/
theorem meet_side {e k : Seg} (hk : k.1 ≠ k.2) (h1 : k.1 = e.1 ∨ k.1 = e.2 ∨ orient e.1 e.2 k.1 < 0)
    (h2 : k.2 = e.1 ∨ k.2 = e.2 ∨ orient e.1 e.2 k.2 < 0) {x : Pt} (he : OnSeg e x) (hx : OnSeg k x) :
    k = e ∨ k = (e.2, e.1) ∨ (x = k.1 ∧ (k.1 = e.1 ∨ k.1 = e.2)) ∨ (x = k.2 ∧ (k.2 = e.1 ∨ k.2 = e.2)) := by
  have h0 : orient e.1 e.2 x = 0 := onSeg_orient (a := e.1) (b := e.2) he
  have z := orient_ends e.1 e.2
  have le : ∀ v : Pt, (v = e.1 ∨ v = e.2 ∨ orient e.1 e.2 v < 0) → orient e.1 e.2 v ≤ 0 := by
    rintro v (rfl | rfl | h)
    · exact z.1.le
    · exact z.2.le
    · exact h.le
  obtain ⟨t, t0, t1, rfl⟩ := hx
  rw [orient_on_edge] at h0
  have l1 := le _ h1
  have l2 := le _ h2
  have m1 : (1 - t) * orient e.1 e.2 k.1 ≤ 0 := mul_nonpos_of_nonneg_of_nonpos (by linarith) l1
  have m2 : t * orient e.1 e.2 k.2 ≤ 0 := mul_nonpos_of_nonneg_of_nonpos t0 l2
  have n1 : (1 - t) * orient e.1 e.2 k.1 = 0 := by linarith
  have n2 : t * orient e.1 e.2 k.2 = 0 := by linarith
  by_cases c1 : orient e.1 e.2 k.1 = 0
  · have c1' : k.1 = e.1 ∨ k.1 = e.2 := by
      rcases h1 with h | h | h
      · exact Or.inl h
      · exact Or.inr h
      · exact absurd c1 h.ne
    by_cases c2 : orient e.1 e.2 k.2 = 0
    · have c2' : k.2 = e.1 ∨ k.2 = e.2 := by
        rcases h2 with h | h | h
        · exact Or.inl h
        · exact Or.inr h
        · exact absurd c2 h.ne
      rcases c1' with a | a <;> rcases c2' with b | b
      · exact absurd (a.trans b.symm) hk
      · exact Or.inl (Prod.ext a b)
      · exact Or.inr (Or.inl (Prod.ext a b))
      · exact absurd (a.trans b.symm) hk
    · have : t = 0 := (mul_eq_zero.1 n2).resolve_right c2
      subst this
      exact Or.inr (Or.inr (Or.inl ⟨by ext <;> simp [along], c1'⟩))
  · have : t = 1 := by have := (mul_eq_zero.1 n1).resolve_right c1; linarith
    subst this
    have c2 : orient e.1 e.2 k.2 = 0 := by linarith
    refine Or.inr (Or.inr (Or.inr ⟨by ext <;> simp [along], ?_⟩))
    rcases h2 with h | h | h
    · exact Or.inl h
    · exact Or.inr h
    · exact absurd c2 h.ne

namespace Bulge

variable {L : List Pt} (h : Bulge L)
include h

theorem third (a b : Pt) : ∃ w ∈ L, w ≠ a ∧ w ≠ b := by
  by_contra hc
  push Not at hc
  have hs : L.toFinset ⊆ {a, b} := by
    intro w hw
    rw [List.mem_toFinset] at hw
    simp only [Finset.mem_insert, Finset.mem_singleton]
    by_cases hwa : w = a
    · exact Or.inl hwa
    · exact Or.inr (hc w hw hwa)
  have h1 := Finset.card_le_card hs
  rw [List.toFinset_card_of_nodup h.nodup] at h1
  have h2 : ({a, b} : Finset Pt).card ≤ 2 := Finset.card_le_two
  have := h.long
  omega

theorem ne {e : Seg} (he : e ∈ polyEdges L) : e.1 ≠ e.2 := by
  intro hc
  obtain ⟨w, hw, w1, w2⟩ := h.third e.1 e.2
  have := ((h.strict e he w hw).resolve_left w1).resolve_left w2
  rw [hc] at this
  unfold orient at this
  norm_num at this

theorem no_opp {e : Seg} (he : e ∈ polyEdges L) (hk : (e.2, e.1) ∈ polyEdges L) : False := by
  obtain ⟨w, hw, w1, w2⟩ := h.third e.1 e.2
  have a := ((h.strict e he w hw).resolve_left w1).resolve_left w2
  have b := ((h.strict _ hk w hw).resolve_left w2).resolve_left w1
  dsimp only at b
  rw [orient_flip] at b
  linarith

theorem simple : SimpleRing L where
  long := h.long
  nodup := h.nodup
  apart := by
    intro e he k hk x o1 o2
    rcases meet_side (h.ne hk) (h.strict e he _ (polyEdges_mem hk).1) (h.strict e he _ (polyEdges_mem hk).2) o1 o2 with
      h' | h' | ⟨hx, h' | h'⟩ | ⟨hx, h' | h'⟩
    · exact Or.inl h'
    · exact (h.no_opp he (h' ▸ hk)).elim
    · exact Or.inl (fst_inj h.nodup hk he h')
    · exact Or.inr (Or.inr ⟨hx.trans h', hx⟩)
    · exact Or.inr (Or.inl ⟨hx.trans h', hx⟩)
    · exact Or.inl (snd_inj h.nodup hk he h')

theorem le {e : Seg} (he : e ∈ polyEdges L) {v : Pt} (hv : v ∈ L) : orient e.1 e.2 v ≤ 0 := by
  have z := orient_ends e.1 e.2
  rcases h.strict e he v hv with rfl | rfl | h
  · exact z.1.le
  · exact z.2.le
  · exact h.le

theorem next_lt {e k : Seg} (he : e ∈ polyEdges L) (hk : k ∈ polyEdges L) (hek : k.1 = e.2) : orient e.1 e.2 k.2 < 0 := by
  rcases h.strict e he k.2 (polyEdges_mem hk).2 with h' | h' | h'
  · refine (h.no_opp he ?_).elim
    rw [← hek, ← h']; exact hk
  · exact absurd (hek.trans h'.symm) (h.ne hk)
  · exact h'

/-- A point on the line of an edge that is on no outer side of an edge is on the edge. -/
theorem on_edge {e : Seg} (he : e ∈ polyEdges L) {p : Pt} (h0 : orient e.1 e.2 p = 0) (hp : ∀ k ∈ polyEdges L, orient k.1 k.2 p ≤ 0) :
    OnSeg e p := by
  have hne := h.ne he
  obtain ⟨t, ht⟩ : ∃ t : ℚ, p = along e t := by
    have hd : e.2.1 - e.1.1 ≠ 0 ∨ e.2.2 - e.1.2 ≠ 0 := by
      by_contra hc
      push Not at hc
      exact hne (Prod.ext (by linarith [hc.1]) (by linarith [hc.2]))
    unfold orient at h0
    rcases hd with hd | hd
    · refine ⟨(p.1 - e.1.1) / (e.2.1 - e.1.1), Prod.ext ?_ ?_⟩
      · simp only [along]; field_simp; ring
      · simp only [along]; field_simp; linarith
    · refine ⟨(p.2 - e.1.2) / (e.2.2 - e.1.2), Prod.ext ?_ ?_⟩
      · simp only [along]; field_simp; linarith
      · simp only [along]; field_simp; ring
  subst ht
  refine ⟨t, ?_, ?_, rfl⟩
  · obtain ⟨k, hk, hke⟩ := polyEdges_snd (polyEdges_mem he).1
    have n := h.next_lt hk he hke.symm
    have := hp k hk
    rw [orient_on_edge, ← hke, (orient_ends k.1 k.2).2] at this
    by_contra hc
    push Not at hc
    nlinarith
  · obtain ⟨k, hk, hke⟩ := polyEdges_fst (polyEdges_mem he).2
    have n := h.next_lt he hk hke
    have := hp k hk
    rw [orient_on_edge, ← hke, (orient_ends k.1 k.2).1] at this
    have e1 : orient k.1 k.2 e.1 = orient e.1 e.2 k.2 := by rw [hke]; unfold orient; ring
    rw [e1] at this
    by_contra hc
    push Not at hc
    nlinarith

theorem out {e : Seg} (he : e ∈ polyEdges L) {p : Pt} (hp : 0 < orient e.1 e.2 p) : windingNumber L p = 0 := by
  have key : ∀ v, orient e.1 e.2 v = dotp (-(e.2.2 - e.1.2), e.2.1 - e.1.1) v - dotp (-(e.2.2 - e.1.2), e.2.1 - e.1.1) e.1 := by
    intro v; unfold orient dotp; ring
  refine winding_beyond (u := (-(e.2.2 - e.1.2), e.2.1 - e.1.1)) (k := dotp (-(e.2.2 - e.1.2), e.2.1 - e.1.1) e.1) (fun v hv => ?_) ?_
  · have := h.le he hv
    rw [key] at this
    linarith
  · rw [key] at hp
    linarith

theorem inPoly_iff (p : Pt) : InPoly L p ↔ ∀ e ∈ polyEdges L, orient e.1 e.2 p < 0 := by
  constructor
  · rintro ⟨hb, hw⟩ e he
    have hle : ∀ k ∈ polyEdges L, orient k.1 k.2 p ≤ 0 := fun k hk => by
      by_contra hc
      push Not at hc
      exact hw (h.out hk hc)
    refine lt_of_le_of_ne (hle e he) fun h0 => hb ⟨e, he, h.on_edge he h0 hle⟩
  · intro hp
    have hl : L ≠ [] := by rintro rfl; have := h.long; simp at this
    refine ⟨fun ⟨e, he, ho⟩ => (hp e he).ne (onSeg_orient (a := e.1) (b := e.2) ho), ?_⟩
    have := Arr.loop_around hl hp
    omega

theorem closed {p : Pt} (hp : ∀ e ∈ polyEdges L, orient e.1 e.2 p ≤ 0) : InPoly L p ∨ OnBoundary L p := by
  by_cases h0 : ∃ e ∈ polyEdges L, orient e.1 e.2 p = 0
  · obtain ⟨e, he, h0⟩ := h0
    exact Or.inr ⟨e, he, h.on_edge he h0 hp⟩
  · push Not at h0
    exact Or.inl ((h.inPoly_iff p).2 fun e he => lt_of_le_of_ne (hp e he) (h0 e he))

/-- Convex rings on both sides of a common edge. -/
theorem apart {M : List Pt} (h' : Bulge M) {e : Seg} (he : e ∈ polyEdges L) (hm : (e.2, e.1) ∈ polyEdges M) {p : Pt}
    (hp : InPoly L p) (hq : InPoly M p) : False := by
  have a := (h.inPoly_iff p).1 hp e he
  have b := (h'.inPoly_iff p).1 hq _ hm
  dsimp only at b
  rw [orient_flip] at b
  linarith

end Bulge

/-! ### Nets -/

/-- Segments that do not cross.  At a point there end at most three of them, and at most one in the middle of another one. -/
structure Net3 (T : List Seg) : Prop where
  meet : ∀ e ∈ T, ∀ k ∈ T, ∀ x, OnSeg e x → OnSeg k x → k = e ∨ (x = e.1 ∨ x = e.2) ∨ (x = k.1 ∨ x = k.2)
  deg : ∀ (v : Pt) (f : Fin 4 → Seg), (∀ i, f i ∈ T ∧ (v = (f i).1 ∨ v = (f i).2)) → ∃ i j, i ≠ j ∧ f i = f j
  tee : ∀ e ∈ T, ∀ v, OnSeg e v → v ≠ e.1 → v ≠ e.2 → ∀ k ∈ T, ∀ k' ∈ T, (v = k.1 ∨ v = k.2) → (v = k'.1 ∨ v = k'.2) → k = k'

theorem onSeg_flip {a b p : Pt} : OnSeg (a, b) p ↔ OnSeg (b, a) p := by
  constructor <;>
  · rintro ⟨t, t0, t1, rfl⟩
    refine ⟨1 - t, by linarith, by linarith, ?_⟩
    unfold along; ext <;> simp <;> ring

/-- Of two points on a segment, seen from an end of it, one is on the way to the other. -/
theorem ray_order {a b x y : Pt} (hx : OnSeg (a, b) x) (hy : OnSeg (a, b) y) : OnSeg (a, x) y ∨ OnSeg (a, y) x := by
  have key : ∀ {s t : ℚ}, 0 ≤ s → s ≤ t → OnSeg (a, along (a, b) t) (along (a, b) s) := by
    intro s t s0 st
    rcases eq_or_lt_of_le (s0.trans st) with h | h
    · have : s = 0 := by linarith
      subst this
      exact ⟨0, le_rfl, by norm_num, by rw [← h]; ext <;> simp [along]⟩
    · refine ⟨s / t, div_nonneg s0 h.le, (div_le_one h).2 st, ?_⟩
      ext <;> (simp only [along]; field_simp; ring)
  obtain ⟨s, s0, s1, rfl⟩ := hx
  obtain ⟨t, t0, t1, rfl⟩ := hy
  rcases le_total s t with h | h
  · exact Or.inr (key s0 h)
  · exact Or.inl (key t0 h)

/-- Rings made of segments of such a net. -/
theorem Net3.threeway {T : List Seg} (hT : Net3 T) {Ls : List (List Pt)}
    (hL : ∀ L ∈ Ls, ∀ e ∈ polyEdges L, ∃ t ∈ T, ∀ x, OnSeg e x → OnSeg t x) : Threeway Ls := by
  intro v x hx
  have hx' : ∀ i, ∃ e ∈ T, OnSeg e v ∧ OnSeg e (x i) := by
    intro i
    obtain ⟨-, L, hLm, e, he, h1, h2⟩ := hx i
    obtain ⟨t, ht, h⟩ := hL L hLm e he
    exact ⟨t, ht, h _ h1, h _ h2⟩
  choose f hf hv hxf using hx'
  -- two points on one segment, on the same side of the point
  have fin : ∀ i j, i ≠ j → (OnSeg (v, x i) (x j) ∨ OnSeg (v, x j) (x i)) → ∃ i j, i ≠ j ∧ OnSeg (v, x i) (x j) := by
    rintro i j hij (h | h)
    · exact ⟨i, j, hij, h⟩
    · exact ⟨j, i, hij.symm, h⟩
  -- two points on one segment that ends at the point
  have ends : ∀ i j, i ≠ j → f i = f j → (v = (f i).1 ∨ v = (f i).2) → ∃ i j, i ≠ j ∧ OnSeg (v, x i) (x j) := by
    intro i j hij he h
    refine fin i j hij ?_
    have hj := hxf j
    rw [← he] at hj
    have hi := hxf i
    rcases h with h | h
    · rw [h]
      exact ray_order (a := (f i).1) (b := (f i).2) hi hj
    · rw [h]
      exact ray_order (onSeg_flip.1 (show OnSeg ((f i).1, (f i).2) (x i) from hi)) (onSeg_flip.1 (show OnSeg ((f i).1, (f i).2) (x j) from hj))
  by_cases hin : ∃ i, v ≠ (f i).1 ∧ v ≠ (f i).2
  · obtain ⟨i, n1, n2⟩ := hin
    obtain ⟨s, s0, s1, hs⟩ := hv i
    -- the points by where they are
    have hcase : ∀ j, ∃ c : Fin 3, (c = 0 → f j = f i ∧ ∃ t : ℚ, 0 ≤ t ∧ t ≤ 1 ∧ t ≤ s ∧ x j = along (f i) t) ∧
        (c = 1 → f j = f i ∧ ∃ t : ℚ, 0 ≤ t ∧ t ≤ 1 ∧ s ≤ t ∧ x j = along (f i) t) ∧ (c = 2 → v = (f j).1 ∨ v = (f j).2) := by
      intro j
      rcases hT.meet _ (hf i) _ (hf j) v (hv i) (hv j) with h | (h | h) | h
      · obtain ⟨t, t0, t1, ht⟩ := hxf j
        rw [h] at ht
        rcases le_total t s with hts | hts
        · exact ⟨0, fun _ => ⟨h, t, t0, t1, hts, ht⟩, by simp, by simp⟩
        · exact ⟨1, by simp, fun _ => ⟨h, t, t0, t1, hts, ht⟩, by simp⟩
      · exact absurd h n1
      · exact absurd h n2
      · exact ⟨2, by simp, by simp, fun _ => h⟩
    choose c c0 c1 c2 using hcase
    obtain ⟨j, k, hjk, hc⟩ : ∃ j k, j ≠ k ∧ c j = c k := by
      have := Fintype.exists_ne_map_eq_of_card_lt c (by simp)
      exact this
    have on : ∀ {r q : ℚ}, (r ≤ q ∧ q ≤ s ∨ s ≤ q ∧ q ≤ r) → OnSeg (v, along (f i) r) (along (f i) q) := by
      intro r q hrq
      rw [hs]
      have hrs : r = s → q = s := by rintro rfl; rcases hrq with h | h <;> linarith [h.1, h.2]
      by_cases hd : r = s
      · exact ⟨0, le_rfl, by norm_num, by rw [hrs hd]; ext <;> simp [along]⟩
      · have hd' : r - s ≠ 0 := sub_ne_zero.2 hd
        have h01 : 0 ≤ (q - s) / (r - s) ∧ (q - s) / (r - s) ≤ 1 := by
          rcases hrq with h | h
          · have : r - s < 0 := lt_of_le_of_ne (by linarith [h.1, h.2]) hd'
            exact ⟨div_nonneg_of_nonpos (by linarith [h.2]) this.le, (div_le_one_of_neg this).2 (by linarith [h.1])⟩
          · have : 0 < r - s := lt_of_le_of_ne (by linarith [h.1, h.2]) hd'.symm
            exact ⟨div_nonneg (by linarith [h.1]) this.le, (div_le_one this).2 (by linarith [h.2])⟩
        refine ⟨_, h01.1, h01.2, ?_⟩
        ext <;> (simp only [along]; field_simp; ring)
    have hk : c j = 0 ∨ c j = 1 ∨ c j = 2 := by
      generalize c j = d
      fin_cases d <;> simp
    rcases hk with hk | hk | hk
    · obtain ⟨-, t, -, -, t2, e1⟩ := c0 j hk
      obtain ⟨-, r, -, -, r2, e2⟩ := c0 k (hc ▸ hk)
      refine fin j k hjk ?_
      rw [e1, e2]
      rcases le_total t r with h | h
      · exact Or.inl (on (Or.inl ⟨h, r2⟩))
      · exact Or.inr (on (Or.inl ⟨h, t2⟩))
    · obtain ⟨-, t, -, -, t2, e1⟩ := c1 j hk
      obtain ⟨-, r, -, -, r2, e2⟩ := c1 k (hc ▸ hk)
      refine fin j k hjk ?_
      rw [e1, e2]
      rcases le_total t r with h | h
      · exact Or.inr (on (Or.inr ⟨t2, h⟩))
      · exact Or.inl (on (Or.inr ⟨r2, h⟩))
    · exact ends j k hjk (hT.tee _ (hf i) v (hv i) n1 n2 _ (hf j) _ (hf k) (c2 j hk) (c2 k (hc ▸ hk))) (c2 j hk)
  · push Not at hin
    have hin' : ∀ i, v = (f i).1 ∨ v = (f i).2 := fun i => by
      by_cases h : v = (f i).1
      · exact Or.inl h
      · exact Or.inr (hin i h)
    obtain ⟨i, j, hij, he⟩ := hT.deg v f fun i => ⟨hf i, hin' i⟩
    exact ends i j hij he (hin' i)

/-- From a point beyond a line that the rings stay on one side of one gets away. -/
theorem escapes_beyond {Ls : List (List Pt)} {u : Pt} {k : ℚ} (hL : ∀ L ∈ Ls, ∀ v ∈ L, dotp u v ≤ k) {p : Pt} (hp : k < dotp u p) :
    Escapes Ls p := by
  have hb : ∀ L ∈ Ls, ∀ x, OnBoundary L x → dotp u x ≤ k := by
    rintro L hL' x ⟨e, he, t, t0, t1, rfl⟩
    have h1 := hL L hL' e.1 (polyEdges_mem he).1
    have h2 := hL L hL' e.2 (polyEdges_mem he).2
    have : dotp u (along e t) = (1 - t) * dotp u e.1 + t * dotp u e.2 := by unfold dotp along; ring
    rw [this]
    nlinarith
  obtain ⟨N, hN⟩ : ∃ N : ℚ, ∀ L ∈ Ls, ∀ v ∈ L, |v.2| ≤ N := by
    refine ⟨(Ls.flatten.map fun v : Pt => |v.2|).sum, fun L hL v hv => ?_⟩
    refine List.single_le_sum (fun y hy => ?_) _ (List.mem_map.2 ⟨v, List.mem_flatten.2 ⟨L, hL, hv⟩, rfl⟩)
    obtain ⟨w, -, rfl⟩ := List.mem_map.1 hy
    exact abs_nonneg _
  have hbN : ∀ L ∈ Ls, ∀ x, OnBoundary L x → -N ≤ x.2 ∧ x.2 ≤ N := by
    rintro L hL' x ⟨e, he, t, t0, t1, rfl⟩
    have h1 := abs_le.1 (hN L hL' e.1 (polyEdges_mem he).1)
    have h2 := abs_le.1 (hN L hL' e.2 (polyEdges_mem he).2)
    have : (along e t).2 = (1 - t) * e.1.2 + t * e.2.2 := by unfold along; ring
    rw [this]
    constructor <;> nlinarith [h1.1, h1.2, h2.1, h2.2]
  intro M
  obtain ⟨Y, hY, hu⟩ : ∃ Y : ℚ, (N < Y ∨ Y < -N) ∧ 0 ≤ u.2 * (Y - p.2) := by
    rcases le_total 0 u.2 with h | h
    · exact ⟨max p.2 (N + 1), Or.inl (lt_of_lt_of_le (by linarith) (le_max_right _ _)), mul_nonneg h (sub_nonneg.2 (le_max_left _ _))⟩
    · exact ⟨min p.2 (-N - 1), Or.inr (lt_of_le_of_lt (min_le_right _ _) (by linarith)),
        mul_nonneg_of_nonpos_of_nonpos h (sub_nonpos.2 (min_le_left _ _))⟩
  refine ⟨(max M p.1 + 1, Y), lt_of_le_of_lt (le_max_left M p.1) (by simp), ReflTransGen.head (b := (p.1, Y)) ?_ (.single ?_)⟩
  · rintro x ⟨t, t0, t1, rfl⟩ L hL' hx
    have := hb L hL' _ hx
    have e : dotp u (along (p, (p.1, Y)) t) = dotp u p + t * (u.2 * (Y - p.2)) := by unfold dotp along; ring
    rw [e] at this
    have := mul_nonneg t0 hu
    linarith
  · rintro x ⟨t, t0, t1, rfl⟩ L hL' hx
    have := hbN L hL' _ hx
    have e : (along ((p.1, Y), (max M p.1 + 1, Y)) t).2 = Y := by unfold along; simp
    rw [e] at this
    rcases hY with h | h <;> linarith [this.1, this.2]

end Ply
