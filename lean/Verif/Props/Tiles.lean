import Verif.Proofs.TileNet
import Verif.Props.TouchRings

/-!
# Uniting pieces that cover an area side by side (C105)
-/

namespace Ply

open Arr Geom2D
open Relation (ReflTransGen)

/-- The arrangement of pieces without holes. -/
theorem clear_net (ch : Choices) (hch : ch.Valid) (gs : List Geom2D) (hT : Clear (outlines gs)) (hg : ∀ g ∈ gs, Usable g)
    (hh : ∀ g ∈ gs, ∀ s ∈ g, s.holes = []) {A : Arrangement} (hA : build ch (gs.flatMap allSegments) = .ok A)
    (hB : BuildOK A) (hF : Arr.Full A) : ClearNet A (outlines gs) where
  clear := hT
  simple := hT.simple
  built := hB
  full := hF
  on := fun x => by
    obtain ⟨-, hon⟩ := build_spec ch hch _ (segments_ne gs fun g h => (hg g h).made) A hA
    rw [hon, onAny_flat]
    constructor
    · rintro ⟨g, hg', s, hs, h | ⟨k, hk, -⟩⟩
      · exact ⟨s.outer, List.mem_flatMap.2 ⟨g, hg', List.mem_map_of_mem hs⟩, h⟩
      · rw [hh g hg' s hs] at hk; cases hk
    · rintro ⟨L, hL, h⟩
      obtain ⟨g, hg', hL⟩ := List.mem_flatMap.1 hL
      obtain ⟨s, hs, rfl⟩ := List.mem_map.1 hL
      exact ⟨g, hg', s, hs, Or.inl h⟩
  within := by
    intro k hk L hL e he t t0 t1 hx
    obtain ⟨g, hg', hL⟩ := List.mem_flatMap.1 hL
    obtain ⟨s, hs, rfl⟩ := List.mem_map.1 hL
    refine build_within ch hch _ (segments_ne gs fun g h => (hg g h).made) A hA k hk e ?_ t t0 t1 hx
    refine List.mem_flatMap.2 ⟨g, hg', List.mem_flatMap.2 ⟨s, hs, ?_⟩⟩
    unfold SPWH.segments
    rw [hh g hg' s hs, edgesIter_eq]
    simpa using he

/-- C105: uniting pieces that cover an area side by side does not raise, and the result has no holes. -/
theorem c105_any (ch : Choices) (hch : ch.Valid) (gs : List Geom2D) (hT : Tiles (outlines gs)) (hg : ∀ g ∈ gs, Usable g)
    (hh : ∀ g ∈ gs, ∀ s ∈ g, s.holes = []) (op : List Bool → Bool) (hop : ∀ l, op l = l.any id ∨ l.length ≠ gs.length) :
    ∃ r, arrangementOp ch gs op = .ok r ∧ r.Fine ∧ ∀ s ∈ r, s.holes = [] := by
  have hop' : ∀ p, op (gs.map fun g => decide (locate g p = .ok 1)) = true ↔ ∃ g ∈ gs, locate g p = .ok 1 := by
    intro p
    rw [(hop _).resolve_right fun h => h (List.length_map _)]
    simp
  have hop0 : op (gs.map fun _ => false) = false := by
    rw [(hop _).resolve_right fun h => h (List.length_map _)]
    simp
  have hloc : ∀ g ∈ gs, ∀ p, locate g p = .ok 1 ↔ ∃ s ∈ g, InPoly s.outer p := by
    intro g hg' p
    obtain ⟨v, v0, v1, -⟩ := c31_locate g (hg g hg').made p
    rw [v0]
    constructor
    · intro h
      obtain ⟨s, hs, hin⟩ := v1.1 (Except.ok.inj h)
      exact ⟨s, hs, hin.1⟩
    · rintro ⟨s, hs, hin⟩
      rw [v1.2 ⟨s, hs, hin, by rw [hh g hg' s hs]; simp⟩]
  obtain ⟨r, hr, hno⟩ := arrangementOp_loops ch hch gs op hop0 hg (by
    intro A hA hB hF
    have hN := clear_net ch hch gs hT.clear hg hh hA hB hF
    have hsel : ∀ c ∈ A.cells, chosen gs op c.point = true ↔ ∃ L ∈ outlines gs, windingNumber L c.point ≠ 0 := by
      intro c hc
      unfold chosen
      rw [hop']
      constructor
      · rintro ⟨g, hg', h⟩
        obtain ⟨s, hs, hin⟩ := (hloc g hg' _).1 h
        exact ⟨s.outer, List.mem_flatMap.2 ⟨g, hg', List.mem_map_of_mem hs⟩, hin.2⟩
      · rintro ⟨L, hL, hw⟩
        have hb := not_onBoundary hN.toLoopNet hL (hB.off c hc)
        obtain ⟨g, hg', hL⟩ := List.mem_flatMap.1 hL
        obtain ⟨s, hs, rfl⟩ := List.mem_map.1 hL
        exact ⟨g, hg', (hloc g hg' _).2 ⟨s, hs, hb, hw⟩⟩
    refine ⟨⟨_, tiles_plane hN hT (fun c => chosen gs op c.point) hsel⟩, ?_⟩
    intro c hc hs
    obtain ⟨L, hL, hw⟩ := (hsel c hc).1 hs
    exact cell_cw hN hL hc hw)
  exact ⟨r, hr, arr_fine ch hch gs op r hop0 hg hr, hno⟩

/-- C105: `a | b` of pieces that cover an area side by side returns the union. -/
theorem c105_or (ch : Choices) (hch : ch.Valid) (a b : Geom2D) (hT : Tiles (outlines [a, b])) (ha : a.Fine) (hb : b.Fine)
    (ka : ∀ s ∈ a, s.holes = []) (kb : ∀ s ∈ b, s.holes = []) :
    ∃ r, Geom2D.or (arrangementOp ch) a b = .ok r ∧ r.Fine ∧ (∀ s ∈ r, s.holes = []) ∧ ∀ p, r.Has p ↔ a.Has p ∨ b.Has p := by
  obtain ⟨r, h1, h2⟩ : ∃ r, Geom2D.or (arrangementOp ch) a b = .ok r ∧ ∀ s ∈ r, s.holes = [] := by
    unfold Geom2D.or
    split_ifs
    · exact ⟨b, rfl, kb⟩
    · exact ⟨a, rfl, ka⟩
    · obtain ⟨r, h1, -, h2⟩ := c105_any ch hch [a, b] hT (pair_usable ha.usable hb.usable) (by
          intro g hg
          rcases List.mem_cons.1 hg with rfl | hg
          · exact ka
          · rw [List.mem_singleton.1 hg]; exact kb) (fun v => match v with | [x, y] => x || y | _ => false) (by
        intro l
        match l with
        | [] => right; simp
        | [_] => right; simp
        | [x, y] => left; simp
        | _ :: _ :: _ :: _ => right; simp)
      exact ⟨r, h1, h2⟩
  exact ⟨r, h1, or_fine ch hch ha hb h1, h2, c78_or ch hch ha hb h1⟩

/-- C105: the same for the union of at most 64 geoms. -/
theorem c105_union (ch : Choices) (hch : ch.Valid) (gs : List Geom2D) (hT : Tiles (outlines gs)) (hg : ∀ g ∈ gs, Geom2D.Fine g)
    (hh : ∀ g ∈ gs, ∀ s ∈ g, s.holes = []) (hn : gs.length ≤ 64) (fuel : ℕ) (hf : gs.length + 4 ≤ fuel) :
    ∃ r, Geom2D.union (arrangementOp ch) fuel gs = .ok r ∧ r.Fine ∧ (∀ s ∈ r, s.holes = []) ∧
      ∀ p, r.Has p ↔ ∃ g ∈ gs, Geom2D.Has g p := by
  obtain ⟨r, h1, h2, h3⟩ := c105_any ch hch gs hT (fun g h => (hg g h).usable) hh (fun args => args.any id) fun _ => Or.inl rfl
  have : Geom2D.union (arrangementOp ch) fuel gs = .ok r := by
    obtain ⟨k, rfl⟩ : ∃ k, fuel = k + 1 := ⟨fuel - 1, by omega⟩
    rw [Geom2D.union, if_neg (by unfold unionN; omega)]
    exact h1
  exact ⟨r, this, h2, h3, c78_union ch hch gs hg fuel hf this⟩

/-! ### Example -/

theorem onSeg_iff_of_vertical {a b p : Pt} (hab : a.1 = b.1) : OnSeg (a, b) p ↔ p.1 = a.1 ∧ min a.2 b.2 ≤ p.2 ∧ p.2 ≤ max a.2 b.2 := by
  obtain ⟨x, y⟩ := a
  obtain ⟨x', z⟩ := b
  dsimp only at hab
  subst hab
  rcases eq_or_ne y z with rfl | h
  · rw [onSeg_iff_of_horizontal rfl]
    simp only [min_self, max_self]
    constructor
    · rintro ⟨h1, h2, h3⟩
      exact ⟨le_antisymm h3 h2, h1.ge, h1.le⟩
    · rintro ⟨h1, h2, h3⟩
      exact ⟨le_antisymm h3 h2, h1.ge, h1.le⟩
  · exact onSeg_vertical p x y z h

theorem onSeg_axis {v x y : Pt} (h : (v.2 = x.2 ∧ v.2 = y.2 ∧ (v.1 < x.1 ∧ v.1 < y.1 ∨ x.1 < v.1 ∧ y.1 < v.1)) ∨
    (v.1 = x.1 ∧ v.1 = y.1 ∧ (v.2 < x.2 ∧ v.2 < y.2 ∨ x.2 < v.2 ∧ y.2 < v.2))) : OnSeg (v, x) y ∨ OnSeg (v, y) x := by
  rcases h with ⟨h1, h2, h | h⟩ | ⟨h1, h2, h | h⟩
  · rw [onSeg_iff_of_horizontal h1, onSeg_iff_of_horizontal h2]
    rw [min_eq_left h.1.le, max_eq_right h.1.le, min_eq_left h.2.le, max_eq_right h.2.le]
    rcases le_total x.1 y.1 with h' | h'
    · exact Or.inr ⟨h1.symm, h.1.le, h'⟩
    · exact Or.inl ⟨h2.symm, h.2.le, h'⟩
  · rw [onSeg_iff_of_horizontal h1, onSeg_iff_of_horizontal h2]
    rw [min_eq_right h.1.le, max_eq_left h.1.le, min_eq_right h.2.le, max_eq_left h.2.le]
    rcases le_total x.1 y.1 with h' | h'
    · exact Or.inl ⟨h2.symm, h', h.2.le⟩
    · exact Or.inr ⟨h1.symm, h', h.1.le⟩
  · rw [onSeg_iff_of_vertical h1, onSeg_iff_of_vertical h2]
    rw [min_eq_left h.1.le, max_eq_right h.1.le, min_eq_left h.2.le, max_eq_right h.2.le]
    rcases le_total x.2 y.2 with h' | h'
    · exact Or.inr ⟨h1.symm, h.1.le, h'⟩
    · exact Or.inl ⟨h2.symm, h.2.le, h'⟩
  · rw [onSeg_iff_of_vertical h1, onSeg_iff_of_vertical h2]
    rw [min_eq_right h.1.le, max_eq_left h.1.le, min_eq_right h.2.le, max_eq_left h.2.le]
    rcases le_total x.2 y.2 with h' | h'
    · exact Or.inl ⟨h2.symm, h', h.2.le⟩
    · exact Or.inr ⟨h1.symm, h', h.1.le⟩

/-- Rings with horizontal and vertical edges only, that cross nowhere. -/
theorem threeway_axis {Ls : List (List Pt)} (R : Pt → Pt → Prop) (hR : ∀ L ∈ Ls, ∀ e ∈ polyEdges L, ∀ v x, OnSeg e v → OnSeg e x → R v x)
    (hax : ∀ v x, R v x → v.1 = x.1 ∨ v.2 = x.2)
    (hno : ∀ v a b c d, R v a → R v b → R v c → R v d → v.1 < a.1 → b.1 < v.1 → v.2 < c.2 → d.2 < v.2 → False) : Threeway Ls := by
  intro v x h
  have hx : ∀ i, R v (x i) := by
    intro i
    obtain ⟨-, L, hL, e, he, h1, h2⟩ := h i
    exact hR L hL e he v _ h1 h2
  have hd : ∀ i, ∃ k : Fin 4, (k = 0 → v.1 < (x i).1) ∧ (k = 1 → (x i).1 < v.1) ∧ (k = 2 → v.2 < (x i).2) ∧ (k = 3 → (x i).2 < v.2) := by
    intro i
    rcases lt_trichotomy v.1 (x i).1 with h1 | h1 | h1
    · exact ⟨0, by simp [h1]⟩
    · rcases lt_trichotomy v.2 (x i).2 with h2 | h2 | h2
      · exact ⟨2, by simp [h2]⟩
      · exact absurd (Prod.ext h1 h2) (h i).1
      · exact ⟨3, by simp [h2]⟩
    · exact ⟨1, by simp [h1]⟩
  choose d d0 d1 d2 d3 using hd
  by_cases hinj : Function.Injective d
  · exfalso
    have hs := Finite.injective_iff_surjective.1 hinj
    obtain ⟨i0, e0⟩ := hs 0
    obtain ⟨i1, e1⟩ := hs 1
    obtain ⟨i2, e2⟩ := hs 2
    obtain ⟨i3, e3⟩ := hs 3
    exact hno v _ _ _ _ (hx i0) (hx i1) (hx i2) (hx i3) (d0 _ e0) (d1 _ e1) (d2 _ e2) (d3 _ e3)
  · unfold Function.Injective at hinj
    push Not at hinj
    obtain ⟨i, j, hd, hij⟩ := hinj
    have hi := hax _ _ (hx i)
    have hj := hax _ _ (hx j)
    have key : OnSeg (v, x i) (x j) ∨ OnSeg (v, x j) (x i) := by
      apply onSeg_axis
      have hcases : d i = 0 ∨ d i = 1 ∨ d i = 2 ∨ d i = 3 := by
        generalize d i = k
        fin_cases k <;> simp
      rcases hcases with hk | hk | hk | hk
      · have a := d0 i hk; have b := d0 j (hd ▸ hk)
        exact Or.inl ⟨hi.resolve_left a.ne, hj.resolve_left b.ne, Or.inl ⟨a, b⟩⟩
      · have a := d1 i hk; have b := d1 j (hd ▸ hk)
        exact Or.inl ⟨hi.resolve_left a.ne', hj.resolve_left b.ne', Or.inr ⟨a, b⟩⟩
      · have a := d2 i hk; have b := d2 j (hd ▸ hk)
        exact Or.inr ⟨hi.resolve_right a.ne, hj.resolve_right b.ne, Or.inl ⟨a, b⟩⟩
      · have a := d3 i hk; have b := d3 j (hd ▸ hk)
        exact Or.inr ⟨hi.resolve_right a.ne', hj.resolve_right b.ne', Or.inr ⟨a, b⟩⟩
    rcases key with h | h
    · exact ⟨i, j, hij, h⟩
    · exact ⟨j, i, hij.symm, h⟩

/-- Four boards around a fifth one. -/
def pinwheel : List (List Pt) := [boxLoop 0 0 2 1, boxLoop 2 0 3 2, boxLoop 1 2 3 3, boxLoop 0 1 1 3, boxLoop 1 1 2 2]

def pinwheelGeoms : List Geom2D := [[⟨boxLoop 0 0 2 1, []⟩], [⟨boxLoop 2 0 3 2, []⟩], [⟨boxLoop 1 2 3 3, []⟩], [⟨boxLoop 0 1 1 3, []⟩],
  [⟨boxLoop 1 1 2 2, []⟩]]

theorem pinwheel_within {L : List Pt} (hL : L ∈ pinwheel) {p : Pt} (hp : OnBoundary L p) : 0 ≤ p.1 ∧ p.1 ≤ 3 ∧ 0 ≤ p.2 ∧ p.2 ≤ 3 := by
  simp only [pinwheel, List.mem_cons, List.not_mem_nil, or_false] at hL
  rcases hL with rfl | rfl | rfl | rfl | rfl
  all_goals
    rw [boxLoop_boundary _ _ _ _ (by norm_num)] at hp
    norm_num at hp
    obtain ⟨⟨a1, a2, a3, a4⟩, -⟩ := hp
    refine ⟨?_, ?_, ?_, ?_⟩ <;> linarith

theorem pinwheel_tiles : Tiles pinwheel where
  clear := by
    refine ⟨fun L hL => ?_, fun L hL => ?_, fun L hL M hM p hp hq => ?_⟩
    · simp only [pinwheel, List.mem_cons, List.not_mem_nil, or_false] at hL
      rcases hL with rfl | rfl | rfl | rfl | rfl <;> exact boxLoop_simple (by norm_num) (by norm_num)
    · simp only [pinwheel, List.mem_cons, List.not_mem_nil, or_false] at hL
      rcases hL with rfl | rfl | rfl | rfl | rfl <;> (rw [boxLoop_shoelace]; norm_num)
    · simp only [pinwheel, List.mem_cons, List.not_mem_nil, or_false] at hL hM
      rcases hL with rfl | rfl | rfl | rfl | rfl <;> rcases hM with rfl | rfl | rfl | rfl | rfl <;> first | rfl | exfalso
      all_goals
        rw [boxLoop_in _ _ _ _ (by norm_num) (by norm_num)] at hp hq
        norm_num at hp hq
        obtain ⟨a1, a2, a3, a4⟩ := hp
        obtain ⟨b1, b2, b3, b4⟩ := hq
        linarith
  three := by
    refine threeway_axis (fun v x => (0 ≤ x.1 ∧ x.1 ≤ 3 ∧ 0 ≤ x.2 ∧ x.2 ≤ 3) ∧
      ((v.2 = x.2 ∧ (v.2 = 0 ∨ v.2 = 3 ∨ (v.2 = 1 ∧ x.1 ≤ 2) ∨ (v.2 = 2 ∧ 1 ≤ x.1))) ∨
       (v.1 = x.1 ∧ (v.1 = 0 ∨ v.1 = 3 ∨ (v.1 = 1 ∧ 1 ≤ x.2) ∨ (v.1 = 2 ∧ x.2 ≤ 2))))) ?_ ?_ ?_
    · intro L hL e he v x hv hx
      refine ⟨pinwheel_within hL ⟨e, he, hx⟩, ?_⟩
      simp only [pinwheel, List.mem_cons, List.not_mem_nil, or_false] at hL
      rcases hL with rfl | rfl | rfl | rfl | rfl
      all_goals
        rw [boxLoop_edges] at he
        simp only [List.mem_cons, List.not_mem_nil, or_false] at he
        rcases he with rfl | rfl | rfl | rfl
      all_goals
        obtain ⟨s, s0, s1, rfl⟩ := hv
        obtain ⟨t, t0, t1, rfl⟩ := hx
        unfold along
        norm_num
        try grind
    · rintro v x ⟨-, h | h⟩
      · exact Or.inr h.1
      · exact Or.inl h.1
    · rintro v a b c d ⟨ra, ha⟩ ⟨rb, hb⟩ ⟨rc, hc⟩ ⟨rd, hd⟩ h1 h2 h3 h4
      have ha := ha.resolve_right fun h => h1.ne h.1
      have hb := hb.resolve_right fun h => h2.ne' h.1
      have hc := hc.resolve_left fun h => h3.ne h.1
      have hd := hd.resolve_left fun h => h4.ne' h.1
      grind
  open_ := by
    intro p hb hi M
    have hout : p.1 < 0 ∨ 3 < p.1 ∨ p.2 < 0 ∨ 3 < p.2 := by
      by_contra hc
      push Not at hc
      obtain ⟨c1, c2, c3, c4⟩ := hc
      have key : ∀ x0 y0 x1 y1 : ℚ, boxLoop x0 y0 x1 y1 ∈ pinwheel → x0 < x1 → y0 < y1 →
          ¬ (x0 ≤ p.1 ∧ p.1 ≤ x1 ∧ y0 ≤ p.2 ∧ p.2 ≤ y1) := by
        intro x0 y0 x1 y1 hm hx hy h
        have h1 := hb _ hm
        have h2 := hi _ hm
        rw [boxLoop_boundary _ _ _ _ hy.ne, min_eq_left hx.le, max_eq_right hx.le, min_eq_left hy.le, max_eq_right hy.le] at h1
        rw [boxLoop_in _ _ _ _ hx.ne hy.ne, min_eq_left hx.le, max_eq_right hx.le, min_eq_left hy.le, max_eq_right hy.le] at h2
        exact h1 ⟨h, h2⟩
      have k1 := key 0 0 2 1 (by simp [pinwheel]) (by norm_num) (by norm_num)
      have k2 := key 2 0 3 2 (by simp [pinwheel]) (by norm_num) (by norm_num)
      have k3 := key 1 2 3 3 (by simp [pinwheel]) (by norm_num) (by norm_num)
      have k4 := key 0 1 1 3 (by simp [pinwheel]) (by norm_num) (by norm_num)
      have k5 := key 1 1 2 2 (by simp [pinwheel]) (by norm_num) (by norm_num)
      grind
    have right : ∀ q : Pt, (3 < q.1 ∨ q.2 < 0 ∨ 3 < q.2) → ∃ r : Pt, M < r.1 ∧ FreeStep pinwheel q r := by
      intro q hq
      refine ⟨(max M q.1 + 1, q.2), lt_of_le_of_lt (le_max_left M q.1) (by simp), ?_⟩
      intro x hx L hL hbx
      have hle : q.1 ≤ max M q.1 + 1 := (le_max_right M q.1).trans (by simp)
      rw [onSeg_iff_of_horizontal (a := q) (b := (max M q.1 + 1, q.2)) rfl, min_eq_left hle, max_eq_right hle] at hx
      have := pinwheel_within hL hbx
      have e1 := hx.1
      have e2 := hx.2.1
      rcases hq with h | h | h <;> linarith [this.1, this.2.1, this.2.2.1, this.2.2.2]
    by_cases h : 3 < p.1 ∨ p.2 < 0 ∨ 3 < p.2
    · obtain ⟨r, r1, r2⟩ := right p h
      exact ⟨r, r1, .single r2⟩
    · have h0 : p.1 < 0 := hout.resolve_right h
      obtain ⟨r, r1, r2⟩ := right (p.1, 4) (Or.inr (Or.inr (by norm_num)))
      refine ⟨r, r1, ReflTransGen.head ?_ (.single r2)⟩
      intro x hx L hL hbx
      rw [onSeg_iff_of_vertical (a := p) (b := (p.1, 4)) rfl] at hx
      have e1 := hx.1
      linarith [(pinwheel_within hL hbx).1]

/-- C105: the five boards are united in any order of the sets, also when the four around the fifth are united first. -/
theorem c105_run (ch : Choices) (hch : ch.Valid) : ∃ r, Geom2D.union (arrangementOp ch) 9 pinwheelGeoms = .ok r ∧
    (∀ s ∈ r, s.holes = []) ∧ r.Has (3 / 2, 3 / 2) ∧ r.Has (1, 1) ∧ r.Has (5 / 2, 1) ∧ ¬ r.Has (4, 1) := by
  obtain ⟨r, h1, -, h3, h2⟩ := c105_union ch hch pinwheelGeoms pinwheel_tiles (by
    intro g hg
    simp only [pinwheelGeoms, List.mem_cons, List.not_mem_nil, or_false] at hg
    have hm : ∀ g ∈ pinwheelGeoms, g.Fine := by
      intro g hg
      refine fine_of g (made_of g ?_) ?_ ?_ <;> revert g <;> decide +kernel
    exact hm g (by simpa [pinwheelGeoms] using hg)) (by
    intro g hg s hs
    simp only [pinwheelGeoms, List.mem_cons, List.not_mem_nil, or_false] at hg
    rcases hg with rfl | rfl | rfl | rfl | rfl <;> (simp only [List.mem_cons, List.not_mem_nil, or_false] at hs; subst hs; rfl))
    (by simp [pinwheelGeoms]) 9 (by simp [pinwheelGeoms])
  refine ⟨r, h1, h3, (h2 _).2 ⟨[⟨boxLoop 1 1 2 2, []⟩], by simp [pinwheelGeoms], Or.inl (by decide +kernel)⟩,
    (h2 _).2 ⟨[⟨boxLoop 1 1 2 2, []⟩], by simp [pinwheelGeoms], Or.inr (by decide +kernel)⟩,
    (h2 _).2 ⟨[⟨boxLoop 2 0 3 2, []⟩], by simp [pinwheelGeoms], Or.inl (by decide +kernel)⟩, fun hc => ?_⟩
  obtain ⟨g, hg, h⟩ := (h2 _).1 hc
  have no : ∀ g ∈ pinwheelGeoms, Geom2D.locate g (4, 1) = .ok (-1) := by
    intro g hg
    simp only [pinwheelGeoms, List.mem_cons, List.not_mem_nil, or_false] at hg
    rcases hg with rfl | rfl | rfl | rfl | rfl <;> decide +kernel
  unfold Geom2D.Has at h
  rw [no g hg] at h
  rcases h with h | h <;> cases h

end Ply
