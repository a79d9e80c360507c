import Verif.Proofs.ArrNet
import Verif.Props.SegmentTree

/-!
# The cells of an arrangement and their points
-/

namespace Ply.Arr

local notation "𝔻" => frangleUnitSquareVector

theorem ensure_ok (c : Prop) [Decidable c] (u : Unit) : ensure c = .ok u ↔ c := by
  unfold ensure
  split_ifs with h <;> simp [h]

/-! ### Neighbours in the fan of a vertex -/

theorem find_first {α : Type} {R : α → α → Prop} {l : List α} (h : l.Pairwise R) {p : α → Bool} {x : α}
    (hx : l.find? p = some x) : x ∈ l ∧ p x = true ∧ ∀ y ∈ l, p y = true → y = x ∨ R x y := by
  obtain ⟨hp, as, bs, rfl, has⟩ := List.find?_eq_some_iff_append.1 hx
  refine ⟨by simp, hp, fun y hy hpy => ?_⟩
  rw [List.mem_append, List.mem_cons] at hy
  rcases hy with hy | rfl | hy
  · have := has y hy; simp [hpy] at this
  · exact Or.inl rfl
  · rw [List.pairwise_append] at h
    exact Or.inr ((List.pairwise_cons.1 h.2.1).1 y hy)

theorem fan_unique {H : List Seg} {c : Pt} {fan : Fan} (hf : FanOK H c fan) {x y : ℚ × Seg} (hx : x ∈ fan)
    (hy : y ∈ fan) (h : x.1 = y.1) : x = y := by
  have h3 : (fan.map Prod.fst).Nodup := by
    unfold List.Nodup
    rw [List.pairwise_map]
    exact hf.sorted.imp fun {a b} h => h.ne
  exact List.inj_on_of_nodup_map h3 hx hy h

/-- Next clockwise: the next larger direction, or the smallest if there is none. -/
theorem cw_spec {H : List Seg} {c : Pt} {fan : Fan} (hf : FanOK H c fan) {he : Seg} (hH : he ∈ H) (hc : he.1 = c) :
    ∃ θ x, (θ, he) ∈ fan ∧ x ∈ fan ∧ getNextCw c fan he = .ok x.2 ∧
      ((θ < x.1 ∧ ∀ y ∈ fan, θ < y.1 → x.1 ≤ y.1) ∨ (∀ y ∈ fan, x.1 ≤ y.1 ∧ y.1 ≤ θ)) := by
  obtain ⟨θ, hθ⟩ := hf.complete he hH hc
  have hk : vkey c he = .ok θ := by unfold vkey; rw [if_pos hc]; exact (hf.sound _ hθ).2.2
  have e : getNextCw c fan he = (match fan.find? (fun x => decide (θ < x.1)) with
      | some x => return x.2
      | none =>
        match fan.head? with
        | some x => return x.2
        | none => .error .assertion) := by
    unfold getNextCw; rw [hk]; rfl
  rw [e]
  clear e
  cases hfind : fan.find? (fun x => decide (θ < x.1)) with
  | some x =>
    obtain ⟨h1, h2, h3⟩ := find_first hf.sorted hfind
    refine ⟨θ, x, hθ, h1, rfl, Or.inl ⟨of_decide_eq_true h2, fun y hy hlt => ?_⟩⟩
    rcases h3 y hy (decide_eq_true hlt) with rfl | h
    · exact le_rfl
    · exact h.le
  | none =>
    have hmax : ∀ y ∈ fan, y.1 ≤ θ := by
      intro y hy
      have := List.find?_eq_none.1 hfind y hy
      simpa using this
    cases hfan : fan with
    | nil => rw [hfan] at hθ; cases hθ
    | cons x rest =>
      refine ⟨θ, x, hfan ▸ hθ, List.mem_cons_self, rfl, Or.inr fun y hy => ⟨?_, hmax y (hfan ▸ hy)⟩⟩
      have hs := hf.sorted
      rw [hfan, List.pairwise_cons] at hs
      rcases List.mem_cons.1 hy with rfl | hy
      · exact le_rfl
      · exact (hs.1 y hy).le

/-- Next counter-clockwise: the next smaller direction, or the largest if there is none; the internal
check never fails. -/
theorem ccw_spec {H : List Seg} {c : Pt} {fan : Fan} (hf : FanOK H c fan) {he : Seg} (hH : he ∈ H) (hc : he.1 = c) :
    ∃ θ x, (θ, he) ∈ fan ∧ x ∈ fan ∧ getNextCcw c fan he = .ok x.2 ∧
      ((x.1 < θ ∧ ∀ y ∈ fan, y.1 < θ → y.1 ≤ x.1) ∨ (∀ y ∈ fan, θ ≤ y.1 ∧ y.1 ≤ x.1)) := by
  obtain ⟨θ, hθ⟩ := hf.complete he hH hc
  have hk : vkey c he = .ok θ := by unfold vkey; rw [if_pos hc]; exact (hf.sound _ hθ).2.2
  have key : ∃ x, x ∈ fan ∧ (match fan.reverse.find? (fun x => decide (x.1 < θ)) with
      | some x => (return x.2 : Except PyErr Seg)
      | none =>
        match fan.getLast? with
        | some x => return x.2
        | none => .error .assertion) = .ok x.2 ∧
      ((x.1 < θ ∧ ∀ y ∈ fan, y.1 < θ → y.1 ≤ x.1) ∨ (∀ y ∈ fan, θ ≤ y.1 ∧ y.1 ≤ x.1)) := by
    cases hfind : fan.reverse.find? (fun x => decide (x.1 < θ)) with
    | some x =>
      have hs : fan.reverse.Pairwise fun x y => y.1 < x.1 := List.pairwise_reverse.2 hf.sorted
      obtain ⟨h1, h2, h3⟩ := find_first hs hfind
      refine ⟨x, List.mem_reverse.1 h1, rfl, Or.inl ⟨of_decide_eq_true h2, fun y hy hlt => ?_⟩⟩
      rcases h3 y (List.mem_reverse.2 hy) (decide_eq_true hlt) with rfl | h
      · exact le_rfl
      · exact h.le
    | none =>
      have hmin : ∀ y ∈ fan, θ ≤ y.1 := by
        intro y hy
        have := List.find?_eq_none.1 hfind y (List.mem_reverse.2 hy)
        simpa using this
      rcases List.eq_nil_or_concat fan with hfan | ⟨init, x, hfan⟩
      · rw [hfan] at hθ; cases hθ
      · refine ⟨x, by rw [hfan]; simp, by rw [hfan]; simp; rfl, Or.inr fun y hy => ⟨hmin y hy, ?_⟩⟩
        have hs := hf.sorted
        rw [hfan, List.concat_eq_append, List.pairwise_append] at hs
        rw [hfan, List.concat_eq_append, List.mem_append, List.mem_singleton] at hy
        rcases hy with hy | rfl
        · exact (hs.2.2 y hy x (by simp)).le
        · exact le_rfl
  obtain ⟨x, hx, hm, hor⟩ := key
  refine ⟨θ, x, hθ, hx, ?_, hor⟩
  obtain ⟨hxH, hxc, hxk⟩ := hf.sound x hx
  obtain ⟨κ, z, hκ, hz, hcw, hor'⟩ := cw_spec hf hxH hxc
  have hκx : κ = x.1 := by
    have := (hf.sound _ hκ).2.2
    rw [hxk] at this
    exact (Except.ok.inj this).symm
  subst hκx
  have hze : z = (θ, he) := by
    apply fan_unique hf hz hθ
    show z.1 = θ
    rcases hor with ⟨h1, h2⟩ | h
    · rcases hor' with ⟨h3, h4⟩ | h'
      · apply le_antisymm (h4 _ hθ h1)
        by_contra hlt
        exact absurd (h2 z hz (not_le.1 hlt)) (not_le.2 h3)
      · exact absurd (h' _ hθ).2 (not_le.2 h1)
    · rcases hor' with ⟨h3, h4⟩ | h'
      · exact absurd (h z hz).2 (not_le.2 h3)
      · exact le_antisymm (h' _ hθ).1 (h z hz).1
  unfold getNextCcw
  rw [hk]
  show ((match fan.reverse.find? (fun x => decide (x.1 < θ)) with
      | some x => (return x.2 : Except PyErr Seg)
      | none =>
        match fan.getLast? with
        | some x => return x.2
        | none => .error .assertion) >>= _) = _
  rw [hm]
  show (getNextCw c fan x.2 >>= _) = _
  rw [hcw, hze]
  show (if he = he then _ else _) = _
  rw [if_pos rfl]
  rfl

/-- Going around a corner stays in the same face. -/
theorem ccw_face {H : List Seg} (hP : Planar H) {c prev : Pt} {fan : Fan} (hf : FanOK H c fan)
    (hin : (prev, c) ∈ H) :
    ∃ nxt, getNextCcw c fan (c, prev) = .ok nxt ∧ nxt ∈ H ∧ nxt.1 = c ∧
      ∃ p q, Sees H (prev, c) p ∧ Sees H nxt q ∧ SameFace H p q := by
  have hout : (c, prev) ∈ H := hP.rev _ hin
  obtain ⟨θ, x, hθ, hx, hok, hor⟩ := ccw_spec hf hout rfl
  obtain ⟨hxH, hxc, hxk⟩ := hf.sound x hx
  obtain ⟨w, hw⟩ : ∃ w, x.2 = (c, w) := ⟨x.2.2, Prod.ext hxc rfl⟩
  refine ⟨x.2, hok, hxH, hxc, ?_⟩
  have hθk := (hf.sound _ hθ).2.2
  obtain ⟨f1, r1, e1, a0, a8, hr1, hd1⟩ := heFrangle_spec (c, prev) (hP.ne _ hout)
  rw [hθk] at e1
  cases e1
  obtain ⟨f2, r2, e2, b0, b8, hr2, hd2⟩ := heFrangle_spec x.2 (hP.ne _ hxH)
  rw [hxk] at e2
  cases e2
  have k1 : prev - c = r1 • 𝔻 θ := hd1
  have k2 : w - c = r2 • 𝔻 x.1 := by rw [hw] at hd2; exact hd2
  -- the direction of an edge determines its key
  have hkey : ∀ k ∈ H, k.1 = c → ∀ χ r : ℚ, 0 < r → dir k = r • 𝔻 χ → ∃ y ∈ fan, y.1 = pyMod χ 8 := by
    intro k hk hkc χ r hr hd
    obtain ⟨κ, hκ⟩ := hf.complete k hk hkc
    refine ⟨_, hκ, ?_⟩
    have h1 := (hf.sound _ hκ).2.2
    have h2 : heFrangle k = vectorFrangle (dir k) := rfl
    rw [h2, hd] at h1
    have h3 : vectorFrangle (r • 𝔻 χ) = vectorFrangle (𝔻 χ) := frangle_scale hr _
    rw [h3, c14_right_inverse] at h1
    exact (Except.ok.inj h1).symm
  rw [hw]
  rw [hw] at hxH
  rcases hor with ⟨h1, h2⟩ | h
  · refine next_same hP hxH hr1 hr2 k1 k2 h1 (by linarith) ?_
    intro k hk hkc χ r c1 c2 hr hd
    obtain ⟨y, hy, hye⟩ := hkey k hk hkc χ r hr hd
    rw [pyMod_of_range (by linarith) (by linarith)] at hye
    have := h2 y hy (by rw [hye]; exact c2)
    linarith
  · have k2' : w - c = r2 • 𝔻 (x.1 - 8) := by
      rw [k2]
      congr 1
      have := c14_periodic (x.1 - 8) 1
      rw [← this]; congr 1; push_cast; ring
    have hmin := h _ hθ
    have hminx := h x hx
    refine next_same hP hxH hr1 hr2 k1 k2' (by linarith) (by linarith [hmin.2]) ?_
    intro k hk hkc χ r c1 c2 hr hd
    obtain ⟨y, hy, hye⟩ := hkey k hk hkc χ r hr hd
    by_cases hχ : 0 ≤ χ
    · rw [pyMod_of_range hχ (by linarith)] at hye
      have := (h y hy).1
      linarith
    · rw [pyMod_eq_iff (b := χ + 8) (by linarith) (by linarith) (-1) (by push_cast; ring)] at hye
      have := (h y hy).2
      linarith

/-! ### Half-edges of the same cell -/

/-- The points just right of the two half-edges are in the same face. -/
def Linked (H : List Seg) (h k : Seg) : Prop :=
  h = k ∨ ∃ p q, Sees H h p ∧ Sees H k q ∧ SameFace H p q

theorem Linked.step {H : List Seg} (hP : Planar H) {h k l : Seg} (hk : k ∈ H) (h1 : Linked H h k)
    (h2 : ∃ p q, Sees H k p ∧ Sees H l q ∧ SameFace H p q) : Linked H h l := by
  obtain ⟨p', q', s1, s2, s3⟩ := h2
  rcases h1 with rfl | ⟨p, q, r1, r2, r3⟩
  · exact Or.inr ⟨p', q', s1, s2, s3⟩
  · exact Or.inr ⟨p, q', r1, s2, r3.trans ((sees_same hP hk r2 s1).trans s3)⟩

theorem walk_spec {H : List Seg} (hP : Planar H) {verts : List (Pt × Fan)}
    (hv : ∀ c fan, dget c verts = .ok fan → FanOK H c fan) (h0 : Seg) (fuel : ℕ) (prev cur : Pt) (vs : List Pt)
    (todo : List Seg) (hin : (prev, cur) ∈ H) (hl : Linked H h0 (prev, cur))
    (cell : List Pt) (todo' : List Seg) (hw : walk verts h0 fuel prev cur vs todo = .ok (cell, todo')) :
    ∃ t, cell ++ [h0.1] = vs ++ cur :: t ∧ (∀ e ∈ todo', e ∈ todo) ∧
      (∀ e ∈ todo, e ∈ todo' ∨ e ∈ chain cur t) ∧ ∀ e ∈ chain cur t, Linked H h0 e := by
  induction fuel generalizing prev cur vs todo with
  | zero => rw [walk] at hw; cases hw
  | succ fuel ih =>
    rw [walk] at hw
    obtain ⟨fan, hfan, hw⟩ := (bind_ok _ _ _).1 hw
    obtain ⟨nxt, hn, hw⟩ := (bind_ok _ _ _).1 hw
    obtain ⟨nxt', hn', c1, c2, c3⟩ := ccw_face hP (hv _ _ hfan) hin
    rw [hn] at hn'
    cases hn'
    split_ifs at hw with heq
    · obtain ⟨_, h1, hw⟩ := (bind_ok _ _ _).1 hw
      rw [ensure_ok] at h1
      cases hw
      exact ⟨[], by rw [h1], fun e he => he, fun e he => Or.inl he, by simp⟩
    · obtain ⟨_, h1, hw⟩ := (bind_ok _ _ _).1 hw
      rw [ensure_ok] at h1
      obtain ⟨_, h2, hw⟩ := (bind_ok _ _ _).1 hw
      obtain ⟨_, h3, hw⟩ := (bind_ok _ _ _).1 hw
      obtain ⟨_, h4, hw⟩ := (bind_ok _ _ _).1 hw
      have hnx : (cur, nxt.2) = nxt := Prod.ext c2.symm rfl
      have hl' : Linked H h0 nxt := hl.step hP hin c3
      obtain ⟨t, a1, a2, a3, a4⟩ := ih cur nxt.2 (vs ++ [cur]) (todo.erase nxt) (by rw [hnx]; exact c1)
        (by rw [hnx]; exact hl') hw
      refine ⟨nxt.2 :: t, by rw [a1]; simp, fun e he => List.mem_of_mem_erase (a2 e he), ?_, ?_⟩
      · intro e he
        rw [chain_cons, hnx]
        by_cases hen : e = nxt
        · exact Or.inr (hen ▸ List.mem_cons_self)
        · exact (a3 e ((List.mem_erase_of_ne hen).2 he)).imp_right (List.mem_cons_of_mem _)
      · intro e he
        rw [chain_cons, hnx] at he
        rcases List.mem_cons.1 he with rfl | he
        · exact hl'
        · exact a4 e he

theorem setCell_spec (hes : List Seg) (cell : List Pt) (es : List Seg) (hc hc' : List (Seg × List Pt))
    (h : setCell hes cell es hc = .ok hc') :
    hc' = hc ++ es.map (fun e => (e, cell)) ∧ (∀ e ∈ es, e ∈ hes) ∧
      ((hc.map Prod.fst).Nodup → (hc'.map Prod.fst).Nodup) := by
  induction es generalizing hc with
  | nil => cases h; exact ⟨by simp, fun e he => absurd he List.not_mem_nil, fun h => h⟩
  | cons e es ih =>
    rw [setCell] at h
    split_ifs at h with hm
    obtain ⟨_, h1, h⟩ := (bind_ok _ _ _).1 h
    rw [ensure_ok] at h1
    obtain ⟨a1, a2, a3⟩ := ih _ h
    refine ⟨by rw [a1]; simp, ?_, ?_⟩
    · intro x hx
      rcases List.mem_cons.1 hx with rfl | hx
      · exact hm
      · exact a2 x hx
    · intro hn
      apply a3
      rw [List.map_append, List.nodup_append]
      refine ⟨hn, by simp, ?_⟩
      intro a ha b hb
      simp only [List.map_cons, List.map_nil, List.mem_singleton] at hb
      subst hb
      obtain ⟨x, hx, rfl⟩ := List.mem_map.1 ha
      have := List.all_eq_true.1 h1 x hx
      exact of_decide_eq_true this

/-- What holds of the cells found so far. -/
structure CellsOK (H : List Seg) (st : Cells) : Prop where
  he : st.heCell = st.cells.flatMap fun c => (edgesIter c.1).map fun e => (e, c.1)
  nodup : (st.heCell.map Prod.fst).Nodup
  sub : ∀ c ∈ st.cells, ∀ e ∈ edgesIter c.1, e ∈ H
  two : ∀ c ∈ st.cells, ∃ a b rest, c.1 = a :: b :: rest ∧ (a, b) ∈ H ∧ ∀ e ∈ edgesIter c.1, Linked H (a, b) e

theorem findCells_spec {ch : Choices} (hch : ch.Valid) {net : Net} (hP : Planar net.halfEdges)
    (hv : ∀ c fan, dget c net.vertices = .ok fan → FanOK net.halfEdges c fan) (n : ℕ) (todo : List Seg) (st st' : Cells)
    (ht : ∀ e ∈ todo, e ∈ net.halfEdges) (hs : CellsOK net.halfEdges st)
    (hl : ∀ e ∈ net.halfEdges, e ∈ todo ∨ ∃ c ∈ st.cells, e ∈ edgesIter c.1)
    (h : findCells ch net n todo st = .ok st') :
    CellsOK net.halfEdges st' ∧ ∀ e ∈ net.halfEdges, ∃ c ∈ st'.cells, e ∈ edgesIter c.1 := by
  induction n generalizing todo st with
  | zero =>
    rw [findCells] at h
    split_ifs at h with hz
    cases h
    refine ⟨hs, fun e he => ?_⟩
    rcases hl e he with h | h
    · rw [hz] at h; cases h
    · exact h
  | succ n ih =>
    rw [findCells] at h
    split_ifs at h with hz
    · cases h
      refine ⟨hs, fun e he => ?_⟩
      rcases hl e he with h | h
      · rw [hz] at h; cases h
      · exact h
    · dsimp only at h
      set h0 := ch.pop todo with hh0
      obtain ⟨⟨cell, todo'⟩, hw, h⟩ := (bind_ok _ _ _).1 h
      obtain ⟨area, ha, h⟩ := (bind_ok _ _ _).1 h
      obtain ⟨_, h1, h⟩ := (bind_ok _ _ _).1 h
      obtain ⟨hc, hsc, h⟩ := (bind_ok _ _ _).1 h
      have h0t : h0 ∈ todo := hch.pop todo hz
      have h0H := ht _ h0t
      obtain ⟨t, a1, a2, a3, a4⟩ := walk_spec hP hv h0 _ h0.1 h0.2 [h0.1] (todo.erase h0) h0H (Or.inl rfl) _ _ hw
      obtain ⟨b1, b2, b3⟩ := setCell_spec _ _ _ _ _ hsc
      obtain ⟨rest, hrest, hchain⟩ : ∃ rest, cell = h0.1 :: h0.2 :: rest ∧
          edgesIter cell = h0 :: chain h0.2 t := by
        cases cell with
        | nil => simp at a1
        | cons x cell =>
          cases cell with
          | nil =>
            simp only [List.cons_append, List.nil_append, List.cons.injEq] at a1
            exact absurd a1.2.1 (hP.ne _ h0H)
          | cons y rest =>
            simp only [List.cons_append, List.nil_append, List.cons.injEq] at a1
            obtain ⟨rfl, rfl, rfl⟩ := a1
            refine ⟨rest, rfl, ?_⟩
            rw [edgesIter_eq, polyEdges_cons]
            rfl
      refine ih todo' _ (fun e he => ht e (List.mem_of_mem_erase (a2 e he))) ⟨?_, b3 hs.nodup, ?_, ?_⟩ ?_ h
      · show hc = (st.cells ++ [_]).flatMap _
        rw [b1, hs.he, List.flatMap_append]
        simp
      · intro c hcm e he
        rcases List.mem_append.1 hcm with hcm | hcm
        · exact hs.sub c hcm e he
        · rw [List.mem_singleton] at hcm
          subst hcm
          exact b2 e he
      · intro c hcm
        rcases List.mem_append.1 hcm with hcm | hcm
        · exact hs.two c hcm
        · rw [List.mem_singleton] at hcm
          subst hcm
          refine ⟨h0.1, h0.2, rest, hrest, h0H, fun e he => ?_⟩
          dsimp only at he
          rw [hchain] at he
          rcases List.mem_cons.1 he with rfl | he
          · exact Or.inl rfl
          · exact a4 e he
      · intro e he
        rcases hl e he with h | ⟨c, hcm, h⟩
        · by_cases heq : e = h0
          · exact Or.inr ⟨_, List.mem_append_right _ List.mem_cons_self, by
              dsimp only; rw [hchain, heq]; exact List.mem_cons_self⟩
          · rcases a3 e ((List.mem_erase_of_ne heq).2 h) with h | h
            · exact Or.inl h
            · exact Or.inr ⟨_, List.mem_append_right _ List.mem_cons_self, by
                dsimp only; rw [hchain]; exact List.mem_cons_of_mem _ h⟩
        · exact Or.inr ⟨c, List.mem_append_left _ hcm, h⟩

/-! ### The point in a cell -/

theorem gsegs_mem (normal : Pt) (hes : List Seg) (gs : List (STSeg Seg)) (h : gsegs normal hes = .ok gs) (he : Seg)
    (hm : he ∈ hes) : (ptLt he.1 he.2 ∧
      ((dotP normal he.2 < dotP normal he.1 ∧ (dotP normal he.2, dotP normal he.1, he) ∈ gs) ∨
       (dotP normal he.1 ≤ dotP normal he.2 ∧ (dotP normal he.1, dotP normal he.2, he) ∈ gs))) ∨
      ptLt he.2 he.1 := by
  induction hes generalizing gs with
  | nil => cases hm
  | cons a hes ih =>
    rw [gsegs] at h
    split_ifs at h with hlt
    · obtain ⟨r, hr, h⟩ := (bind_ok _ _ _).1 h
      rcases List.mem_cons.1 hm with rfl | hm
      · left
        refine ⟨hlt, ?_⟩
        split_ifs at h with hp <;> cases h
        · exact Or.inl ⟨hp, List.mem_cons_self⟩
        · exact Or.inr ⟨not_lt.1 hp, List.mem_cons_self⟩
      · rcases ih r hr hm with ⟨h1, h2⟩ | h1
        · left
          refine ⟨h1, ?_⟩
          cases h
          rcases h2 with ⟨a, b⟩ | ⟨a, b⟩
          · exact Or.inl ⟨a, List.mem_cons_of_mem _ b⟩
          · exact Or.inr ⟨a, List.mem_cons_of_mem _ b⟩
        · exact Or.inr h1
    · obtain ⟨_, h1, h⟩ := (bind_ok _ _ _).1 h
      rw [ensure_ok] at h1
      rcases List.mem_cons.1 hm with rfl | hm
      · exact Or.inr h1
      · exact ih gs h hm

/-- The stored ray data belongs to the half-edges. -/
def RaysOK (R : Rays) : Prop :=
  ∃ gs, gsegs (normalOf R.gv) R.halfEdges = .ok gs ∧ segmentTree gs = .ok R.tree

/-- An edge, or its reverse, is found if it contains a point with the same projection. -/
theorem stab_finds {R : Rays} (hR : RaysOK R) (hP : Planar R.halfEdges) (pt : Pt) (found : List (STSeg Seg))
    (hs : segmentTreeStab R.tree (dotP (normalOf R.gv) pt) = .ok found) (k : Seg) (hk : k ∈ R.halfEdges) (x : Pt)
    (hx : OnSeg k x) (hd : dotP (normalOf R.gv) x = dotP (normalOf R.gv) pt) :
    ∃ s ∈ found, s.2.2 = k ∨ s.2.2 = (k.2, k.1) := by
  obtain ⟨gs, hg, ht⟩ := hR
  obtain ⟨res, h1, h2⟩ := c23_stab gs R.tree ht (dotP (normalOf R.gv) pt)
  rw [hs] at h1
  cases h1
  have key : ∀ k ∈ R.halfEdges, OnSeg k x → ptLt k.1 k.2 → ∃ s ∈ found, s.2.2 = k := by
    intro k hk hx hlt
    have hnl : ¬ ptLt k.2 k.1 := by
      unfold ptLt at hlt ⊢
      rintro (h | h)
      · rcases hlt with h' | h'
        · exact absurd h (not_lt.2 h'.le)
        · rw [h'.1] at h; exact lt_irrefl _ h
      · rcases hlt with h' | h'
        · rw [h.1] at h'; exact lt_irrefl _ h'
        · exact absurd h.2 (not_lt.2 h'.2.le)
    obtain ⟨t, t0, t1, rfl⟩ := hx
    have hlin : dotP (normalOf R.gv) (along k t) = dotP (normalOf R.gv) k.1 +
        t * (dotP (normalOf R.gv) k.2 - dotP (normalOf R.gv) k.1) := by
      unfold dotP along; dsimp only; ring
    rw [hlin] at hd
    rcases (gsegs_mem _ _ _ hg k hk).resolve_right hnl with ⟨_, ⟨hp, hm⟩ | ⟨hp, hm⟩⟩
    · refine ⟨_, h2.mem_iff.2 (List.mem_filter.2 ⟨hm, decide_eq_true ⟨?_, ?_⟩⟩), rfl⟩
      · show dotP (normalOf R.gv) k.2 ≤ _; rw [← hd]; nlinarith
      · show _ ≤ dotP (normalOf R.gv) k.1; rw [← hd]; nlinarith
    · refine ⟨_, h2.mem_iff.2 (List.mem_filter.2 ⟨hm, decide_eq_true ⟨?_, ?_⟩⟩), rfl⟩
      · show dotP (normalOf R.gv) k.1 ≤ _; rw [← hd]; nlinarith
      · show _ ≤ dotP (normalOf R.gv) k.2; rw [← hd]; nlinarith
  have htri : ptLt k.1 k.2 ∨ ptLt k.2 k.1 := by
    have := hP.ne k hk
    unfold ptLt
    rcases lt_trichotomy k.1.1 k.2.1 with h | h | h
    · exact Or.inl (Or.inl h)
    · rcases lt_trichotomy k.1.2 k.2.2 with h' | h' | h'
      · exact Or.inl (Or.inr ⟨h, h'⟩)
      · exact absurd (Prod.ext h h') this
      · exact Or.inr (Or.inr ⟨h.symm, h'⟩)
    · exact Or.inr (Or.inl h)
  rcases htri with h | h
  · obtain ⟨s, a, b⟩ := key k hk hx h
    exact ⟨s, a, Or.inl b⟩
  · obtain ⟨s, a, b⟩ := key (k.2, k.1) (hP.rev k hk) ((onSeg_rev k x).2 hx) h
    exact ⟨s, a, Or.inr b⟩

/-- With `keep_all` an edge that the line of the ray meets is reported with the parameter. -/
theorem rayTest_hit (k ray : Seg) (frangle const τ : ℚ) (l : List (ℚ × Seg)) (v : Pt)
    (hray : ray = (ray.1, ray.1 + const • v)) (h : rayTest k ray frangle true const = .ok l)
    (hon : OnSeg k (ray.1 + τ • v)) : (τ, k) ∈ l := by
  unfold rayTest at h
  obtain ⟨⟨p, the, tray⟩, hi, h⟩ := (bind_ok _ _ _).1 h
  have hnp : ¬ Parallel k ray := fun hp => by rw [c15_parallel k ray hp] at hi; cases hi
  have hc : const ≠ 0 := by
    rintro rfl
    apply hnp
    rw [hray]
    unfold Parallel cross dir
    simp
  obtain ⟨p', t0, t1, hi', _, _, hu⟩ := c15_intersection k ray hnp
  rw [hi] at hi'
  cases hi'
  obtain ⟨t, t0, t1, ht⟩ := hon
  have hal : ray.1 + τ • v = along ray (τ / const) := by
    have : along ray (τ / const) = along (ray.1, ray.1 + const • v) (τ / const) := by rw [← hray]
    rw [this]
    unfold along
    ext
    · simp only [Prod.fst_add, Prod.smul_fst, smul_eq_mul]
      rw [add_sub_cancel_left, ← mul_assoc, div_mul_cancel₀ _ hc]
    · simp only [Prod.snd_add, Prod.smul_snd, smul_eq_mul]
      rw [add_sub_cancel_left, ← mul_assoc, div_mul_cancel₀ _ hc]
  obtain ⟨_, e1, e2⟩ := hu _ t (τ / const) ht hal
  subst e1 e2
  dsimp only at h
  rw [if_pos rfl] at h
  obtain ⟨keep, hk, h⟩ := (bind_ok _ _ _).1 h
  cases hk
  cases h
  rw [decide_eq_true (show 0 ≤ t ∧ t ≤ 1 from ⟨t0, t1⟩), if_pos rfl, div_mul_cancel₀ _ hc]
  exact List.mem_singleton.2 rfl

theorem rayLoop_hit (hes : List Seg) (ray : Seg) (frangle const τ : ℚ) (v : Pt)
    (hray : ray = (ray.1, ray.1 + const • v)) (found : List (STSeg Seg)) (l : List (ℚ × Seg))
    (h : rayLoop hes ray frangle true const found = .ok l) (s : STSeg Seg) (hs : s ∈ found)
    (hon : OnSeg s.2.2 (ray.1 + τ • v)) : (τ, s.2.2) ∈ l := by
  induction found generalizing l with
  | nil => cases hs
  | cons a found ih =>
    rw [rayLoop] at h
    split_ifs at h with h1 h2
    swap
    · obtain ⟨l1, g1, h⟩ := (bind_ok _ _ _).1 h
      cases h
    obtain ⟨l1, g1, h⟩ := (bind_ok _ _ _).1 h
    obtain ⟨l2, g2, h⟩ := (bind_ok _ _ _).1 h
    obtain ⟨l3, g3, h⟩ := (bind_ok _ _ _).1 h
    cases h
    rcases List.mem_cons.1 hs with rfl | hs
    · exact List.mem_append_left _ (List.mem_append_left _ (rayTest_hit _ _ _ _ _ _ v hray g1 hon))
    · exact List.mem_append_right _ (ih l3 g3 hs)

/-- The point found in a cell sees the first edge of the cell. -/
theorem findPoint_sees {R : Rays} (hR : RaysOK R) (hP : Planar R.halfEdges) (aabb : AABB) (c0 c1 : Pt)
    (rest : List Pt) (p : Pt) (h : findPoint R aabb (c0 :: c1 :: rest) = .ok p) :
    Sees R.halfEdges (c0, c1) p := by
  unfold findPoint at h
  dsimp only at h
  set pt : Pt := ((c0.1 + c1.1) / 2, (c0.2 + c1.2) / 2) with hpt
  set d := dotP R.gv ((c1.2 - c0.2) * 1, (c1.1 - c0.1) * -1) with hd
  set v : Pt := if d < 0 then (-R.gv.1, -R.gv.2) else R.gv with hv
  obtain ⟨_, h1, h⟩ := (bind_ok _ _ _).1 h
  rw [ensure_ok] at h1
  obtain ⟨inters, hi, h⟩ := (bind_ok _ _ _).1 h
  have hmid : along (c0, c1) (1 / 2) = pt := by
    rw [hpt]; unfold along; ext <;> dsimp only <;> ring
  have hvgv : v = R.gv ∨ v = -R.gv := by
    rw [hv]; split_ifs
    · exact Or.inr rfl
    · exact Or.inl rfl
  have hcr : cross (dir (c0, c1)) v < 0 := by
    have e : cross (dir (c0, c1)) R.gv = -d := by
      rw [hd]; unfold cross dir dotP; dsimp only; ring
    rcases lt_or_gt_of_ne h1 with hlt | hgt
    · have : v = (-R.gv.1, -R.gv.2) := by rw [hv, if_pos hlt]
      rw [this]
      have : cross (dir (c0, c1)) (-R.gv.1, -R.gv.2) = - cross (dir (c0, c1)) R.gv := by
        unfold cross; dsimp only; ring
      rw [this, e]; linarith
    · have : v = R.gv := by rw [hv, if_neg (not_lt.2 hgt.le)]
      rw [this, e]; linarith
  -- every hit at positive distance is reported
  have hperp : ∀ τ : ℚ, dotP (normalOf R.gv) (pt + τ • v) = dotP (normalOf R.gv) pt := by
    intro τ
    rcases hvgv with e | e <;> rw [e] <;> unfold dotP normalOf <;>
      simp only [Prod.fst_add, Prod.snd_add, Prod.smul_fst, Prod.smul_snd, smul_eq_mul, Prod.fst_neg, Prod.snd_neg] <;>
      ring
  obtain ⟨hsort, hhit⟩ : inters.Pairwise (fun a b => a.1 ≤ b.1) ∧
      ∀ τ : ℚ, OnAny R.halfEdges (pt + τ • v) → ∃ x ∈ inters, x.1 = τ := by
    unfold rayQueryGeneral at hi
    split_ifs at hi
    unfold rayQuery at hi
    obtain ⟨frangle, hf, hi⟩ := (bind_ok _ _ _).1 hi
    obtain ⟨e, he, hi⟩ := (bind_ok _ _ _).1 hi
    obtain ⟨_, _, hi⟩ := (bind_ok _ _ _).1 hi
    obtain ⟨found, hfo, hi⟩ := (bind_ok _ _ _).1 hi
    obtain ⟨l, hl, hi⟩ := (bind_ok _ _ _).1 hi
    cases hi
    refine ⟨?_, ?_⟩
    · have hp : (l.insertionSort interLe).Pairwise interLe := by
        have tot : Std.Total interLe := ⟨fun a b => by
          have ptt : ∀ p q : Pt, ptLt p q ∨ p = q ∨ ptLt q p := by
            intro p q
            unfold ptLt
            rcases lt_trichotomy p.1 q.1 with h | h | h
            · exact Or.inl (Or.inl h)
            · rcases lt_trichotomy p.2 q.2 with h' | h' | h'
              · exact Or.inl (Or.inr ⟨h, h'⟩)
              · exact Or.inr (Or.inl (Prod.ext h h'))
              · exact Or.inr (Or.inr (Or.inr ⟨h.symm, h'⟩))
            · exact Or.inr (Or.inr (Or.inl h))
          unfold interLe
          rcases lt_trichotomy a.1 b.1 with h | h | h
          · exact Or.inl (Or.inl h)
          · rcases ptt a.2.1 b.2.1 with h1 | h1 | h1
            · exact Or.inl (Or.inr ⟨h, Or.inl h1⟩)
            · rcases ptt a.2.2 b.2.2 with h2 | h2 | h2
              · exact Or.inl (Or.inr ⟨h, Or.inr ⟨h1, Or.inl h2⟩⟩)
              · exact Or.inl (Or.inr ⟨h, Or.inr ⟨h1, Or.inr h2⟩⟩)
              · exact Or.inr (Or.inr ⟨h.symm, Or.inr ⟨h1.symm, Or.inl h2⟩⟩)
            · exact Or.inr (Or.inr ⟨h.symm, Or.inl h1⟩)
          · exact Or.inr (Or.inl h)⟩
        have tr : IsTrans (ℚ × Seg) interLe := ⟨fun a b c => by
          have ptt : ∀ {p q r : Pt}, ptLt p q → ptLt q r → ptLt p r := by
            intro p q r h1 h2
            unfold ptLt at *
            rcases h1 with h1 | ⟨h1, h1'⟩ <;> rcases h2 with h2 | ⟨h2, h2'⟩
            · exact Or.inl (h1.trans h2)
            · exact Or.inl (h2 ▸ h1)
            · exact Or.inl (h1 ▸ h2)
            · exact Or.inr ⟨h1.trans h2, h1'.trans h2'⟩
          unfold interLe
          rintro (h1 | ⟨h1, h1'⟩) (h2 | ⟨h2, h2'⟩)
          · exact Or.inl (h1.trans h2)
          · exact Or.inl (h2 ▸ h1)
          · exact Or.inl (h1 ▸ h2)
          · refine Or.inr ⟨h1.trans h2, ?_⟩
            rcases h1' with h1' | ⟨h1', h1''⟩ <;> rcases h2' with h2' | ⟨h2', h2''⟩
            · exact Or.inl (ptt h1' h2')
            · exact Or.inl (h2' ▸ h1')
            · exact Or.inl (h1' ▸ h2')
            · refine Or.inr ⟨h1'.trans h2', ?_⟩
              rcases h1'' with h1'' | h1'' <;> rcases h2'' with h2'' | h2''
              · exact Or.inl (ptt h1'' h2'')
              · exact Or.inl (h2'' ▸ h1'')
              · exact Or.inl (h1'' ▸ h2'')
              · exact Or.inr (h1''.trans h2'')⟩
        exact List.pairwise_insertionSort _ _
      refine hp.imp ?_
      intro a b hab
      rcases hab with h | ⟨h, _⟩
      · exact h.le
      · exact h.le
    · rintro τ ⟨k, hk, hon⟩
      obtain ⟨s, hs, hsk⟩ := stab_finds hR hP pt found hfo k hk _ hon (hperp τ)
      have hons : OnSeg s.2.2 (pt + τ • v) := by
        rcases hsk with e | e
        · rw [e]; exact hon
        · rw [e]; exact (onSeg_rev k _).2 hon
      have := rayLoop_hit _ (pt, _) _ _ τ v rfl found l hl s hs hons
      exact ⟨_, (List.mem_insertionSort _).2 this, rfl⟩
  cases hfind : inters.find? (fun x => decide (0 < x.1)) with
  | none =>
    rw [hfind] at h
    cases h
    refine ⟨1 / 2, v, by norm_num, by norm_num, hcr, by rw [hmid]; rfl, ?_⟩
    intro τ t0 t1 hon
    rw [hmid] at hon
    obtain ⟨x, hx, hxe⟩ := hhit τ hon
    have := List.find?_eq_none.1 hfind x hx
    rw [hxe] at this
    exact this (decide_eq_true t0)
  | some x =>
    rw [hfind] at h
    cases h
    obtain ⟨_, hpos, hmin⟩ := find_first hsort hfind
    have hpos := of_decide_eq_true hpos
    refine ⟨1 / 2, (x.1 / 2) • v, by norm_num, by norm_num, ?_, by rw [hmid]; rfl, ?_⟩
    · have : cross (dir (c0, c1)) ((x.1 / 2) • v) = x.1 / 2 * cross (dir (c0, c1)) v := by
        unfold cross; simp only [Prod.smul_fst, Prod.smul_snd, smul_eq_mul]; ring
      rw [this]
      exact mul_neg_of_pos_of_neg (by linarith) hcr
    · intro τ t0 t1 hon
      rw [hmid, smul_smul] at hon
      obtain ⟨y, hy, hye⟩ := hhit _ hon
      have hy0 : 0 < y.1 := by rw [hye]; exact mul_pos t0 (by linarith)
      have : x.1 ≤ y.1 := by
        rcases hmin y hy (decide_eq_true hy0) with rfl | h
        · exact le_rfl
        · exact h
      rw [hye] at this
      nlinarith

end Ply.Arr
