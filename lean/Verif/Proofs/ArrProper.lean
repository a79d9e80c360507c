import Verif.Proofs.ArrOp
import Verif.Proofs.Jump

/-!
# The polygons of a result do not overlap

The winding numbers of all outlines and holes of the result of an operation, taken together, are one at
the points inside and zero at the points outside.
-/

namespace Ply

/-- Sum over the holes minus sum over the outlines of the polygons of a geom. -/
def Geom2D.signed {R : Type*} [AddCommGroup R] (f : List Pt → R) (g : Geom2D) : R :=
  (g.map fun s => (s.holes.map f).sum - f s.outer).sum

/-- How often the polygons of a geom cover the point: the outlines are clockwise, and so are the holes. -/
def Geom2D.windSum (g : Geom2D) (p : Pt) : ℤ := g.signed fun l => windingNumber l p

/-- The polygons of the geom passed the constructor, and off the edges cover every point located inside
once and every other point not at all. -/
structure Geom2D.Proper (g : Geom2D) : Prop where
  made : g.WellMade
  once : ∀ p, ¬ g.OnEdge p → g.windSum p = if Geom2D.locate g p = .ok 1 then 1 else 0

namespace Arr

open CellMerger

/-! ### Sums over edges -/

section Sums

variable {R : Type*} [AddCommGroup R]

theorem map_reverse_sum (φ : Seg → R) (hφ : ∀ e, φ (e.2, e.1) = -φ e) (l : List Pt) :
    ((polyEdges l.reverse).map φ).sum = -((polyEdges l).map φ).sum := by
  rw [((polyEdges_reverse l).map φ).sum_eq, List.map_map]
  generalize polyEdges l = E
  induction E with
  | nil => simp
  | cons e E ih =>
    have : φ e.swap = -φ e := hφ e
    simp only [List.map_cons, List.sum_cons, Function.comp_apply, this, ih]
    abel

theorem allEdges_sum (φ : Seg → R) (cs : List (List Pt)) :
    (cs.map fun c => ((polyEdges c).map φ).sum).sum = ((allEdges cs).map φ).sum := by
  induction cs with
  | nil => simp [allEdges]
  | cons c cs ih =>
    rw [List.map_cons, List.sum_cons, ih]
    simp only [allEdges, List.flatMap_cons, List.map_append, List.sum_append]

theorem opposite_sum (φ : Seg → R) (hφ : ∀ e, φ (e.2, e.1) = -φ e) (D : List Seg) :
    ((D ++ D.map opp).map φ).sum = 0 := by
  induction D with
  | nil => simp
  | cons e D ih =>
    simp only [List.map_append, List.sum_append, List.map_cons, List.sum_cons] at ih ⊢
    have : φ (opp e) = -φ e := hφ e
    rw [this]
    calc _ = (List.map φ D).sum + (List.map φ (List.map opp D)).sum := by abel
      _ = 0 := ih

theorem splitSign_perm (l p n : List (List Pt × List (List Pt))) (h : splitSign l = .ok (p, n)) :
    (p ++ n).Perm l ∧ (∀ c ∈ p, c.1 ≠ []) ∧ ∀ c ∈ n, c.1 ≠ [] := by
  induction l generalizing p n with
  | nil => cases h; simp
  | cons c l ih =>
    rw [splitSign] at h
    obtain ⟨a, h1, h⟩ := (bind_ok _ _ _).1 h
    obtain ⟨_, h2, h⟩ := (bind_ok _ _ _).1 h
    obtain ⟨⟨p', n'⟩, h3, h⟩ := (bind_ok _ _ _).1 h
    obtain ⟨i1, i2, i3⟩ := ih p' n' h3
    have hc : c.1 ≠ [] := by
      intro hc
      rw [hc] at h1
      rw [ensure_ok] at h2
      cases h1
    dsimp only at h
    split_ifs at h <;> cases h
    · refine ⟨by simpa using i1.cons c, ?_, i3⟩
      intro x hx
      rcases List.mem_cons.1 hx with rfl | hx
      · exact hc
      · exact i2 x hx
    · refine ⟨List.perm_middle.trans (i1.cons c), i2, ?_⟩
      intro x hx
      rcases List.mem_cons.1 hx with rfl | hx
      · exact hc
      · exact i3 x hx

/-! ### Assignment of the holes -/

theorem posOriginals1_snd (pos : List Pt) (os : List (List Pt)) (m m' : List (List Pt × List Pt))
    (h : posOriginals1 pos os m = .ok m') : ∀ x ∈ m', x ∈ m ∨ x.2 = pos := by
  induction os generalizing m with
  | nil => cases h; intro x hx; exact Or.inl hx
  | cons o os ih =>
    rw [posOriginals1] at h
    obtain ⟨_, _, h⟩ := (bind_ok _ _ _).1 h
    intro x hx
    rcases ih _ h x hx with h | h
    · rcases List.mem_append.1 h with h | h
      · exact Or.inl h
      · rw [List.mem_singleton] at h; rw [h]; exact Or.inr rfl
    · exact Or.inr h

theorem posOriginals_snd (l : List (List Pt × List (List Pt))) (m m' : List (List Pt × List Pt))
    (h : posOriginals l m = .ok m') : ∀ x ∈ m', x ∈ m ∨ x.2 ∈ l.map Prod.fst := by
  induction l generalizing m with
  | nil => cases h; intro x hx; exact Or.inl hx
  | cons c l ih =>
    rw [posOriginals] at h
    obtain ⟨m1, h1, h⟩ := (bind_ok _ _ _).1 h
    intro x hx
    rcases ih _ h x hx with h | h
    · rcases posOriginals1_snd _ _ _ _ h1 x h with h | h
      · exact Or.inl h
      · rw [h]; exact Or.inr List.mem_cons_self
    · exact Or.inr (List.mem_cons_of_mem _ h)

theorem getPos_mem {m : List (List Pt × List Pt)} {c o : List Pt} (h : getPos m c = some o) :
    ∃ x ∈ m, x.2 = o := by
  unfold getPos at h
  obtain ⟨x, hx, rfl⟩ := Option.map_eq_some_iff.1 h
  exact ⟨x, List.mem_of_find?_eq_some hx, rfl⟩

theorem outwards_mem (conts : List (List Pt × Option (List Pt))) (m : List (List Pt × List Pt)) (fuel : ℕ)
    (cur : List Pt) (o : List Pt) (h : outwards conts m fuel cur = .ok (some o)) : ∃ x ∈ m, x.2 = o := by
  induction fuel generalizing cur with
  | zero => cases h
  | succ fuel ih =>
    rw [outwards] at h
    obtain ⟨r, h1, h⟩ := (bind_ok _ _ _).1 h
    cases r with
    | none => cases h
    | some c =>
      dsimp only at h
      split at h
      · rename_i o' ho
        cases h
        exact getPos_mem ho
      · exact ih _ h

theorem findOuter_mem (conts : List (List Pt × Option (List Pt))) (m : List (List Pt × List Pt))
    (os : List (List Pt)) (outer : Option (List Pt)) (r : List Pt) (h : findOuter conts m os outer = .ok (some r)) :
    outer = some r ∨ ∃ x ∈ m, x.2 = r := by
  induction os generalizing outer with
  | nil => cases h; exact Or.inl rfl
  | cons o os ih =>
    rw [findOuter] at h
    obtain ⟨opos, h1, h⟩ := (bind_ok _ _ _).1 h
    have hmem : ∀ p, opos = some p → ∃ x ∈ m, x.2 = p := by
      rintro p rfl
      split at h1
      · rename_i p' hp
        cases h1
        exact getPos_mem hp
      · exact outwards_mem _ _ _ _ _ h1
    split at h
    · obtain ⟨_, _, h⟩ := (bind_ok _ _ _).1 h
      exact ih _ h
    · rename_i p q hx
      rcases ih _ h with h | h
      · cases h
        exact Or.inr (hmem _ rfl)
      · exact Or.inr h
    · exact ih _ h

theorem posNegatives_fst (conts : List (List Pt × Option (List Pt))) (m : List (List Pt × List Pt))
    (l : List (List Pt × List (List Pt))) (r : List (List Pt × List Pt)) (h : posNegatives conts m l = .ok r) :
    ∀ x ∈ r, ∃ y ∈ m, y.2 = x.1 := by
  induction l generalizing r with
  | nil => cases h; simp
  | cons c l ih =>
    rw [posNegatives] at h
    obtain ⟨o, h1, h⟩ := (bind_ok _ _ _).1 h
    cases o with
    | none => cases h
    | some o =>
      dsimp only at h
      obtain ⟨r', h2, h⟩ := (bind_ok _ _ _).1 h
      cases h
      intro x hx
      rcases List.mem_cons.1 hx with rfl | hx
      · rcases findOuter_mem _ _ _ _ _ h1 with h | h
        · cases h
        · exact h
      · exact ih r' h2 x hx

theorem filter_sum (f : List Pt → R) (pn : List (List Pt × List Pt)) {p : List Pt} {l : List (List Pt)} (hp : p ∉ l) :
    ((pn.filter fun x => decide (x.1 ∈ p :: l)).map fun x => f x.2).sum =
      ((pn.filter fun x => decide (x.1 = p)).map fun x => f x.2).sum +
      ((pn.filter fun x => decide (x.1 ∈ l)).map fun x => f x.2).sum := by
  induction pn with
  | nil => simp
  | cons x pn ih =>
    simp only [List.filter_cons, decide_eq_true_eq]
    by_cases c1 : x.1 = p
    · have c2 : x.1 ∉ l := by rw [c1]; exact hp
      rw [if_pos (by rw [c1]; exact List.mem_cons_self), if_pos c1, if_neg c2]
      simp only [List.map_cons, List.sum_cons, ih]; abel
    · by_cases c2 : x.1 ∈ l
      · rw [if_pos (List.mem_cons_of_mem _ c2), if_neg c1, if_pos c2]
        simp only [List.map_cons, List.sum_cons, ih]; abel
      · rw [if_neg (by rw [List.mem_cons]; tauto), if_neg c1, if_neg c2, ih]

theorem makePolys_sum (ch : Choices) (hch : ch.Valid) (f : List Pt → R) (hf : ∀ l, f l.reverse = -f l)
    (pn : List (List Pt × List Pt)) (hpn : (pn.map Prod.snd).Nodup) (l : List (List Pt)) (hl : l.Nodup)
    (r : Geom2D) (h : makePolys ch pn l = .ok r) :
    r.signed f = -(l.map f).sum - ((pn.filter fun x => decide (x.1 ∈ l)).map fun x => f x.2).sum := by
  induction l generalizing r with
  | nil => cases h; simp [Geom2D.signed]
  | cons p l ih =>
    rw [makePolys] at h
    obtain ⟨s, h1, h⟩ := (bind_ok _ _ _).1 h
    obtain ⟨r', h2, h⟩ := (bind_ok _ _ _).1 h
    cases h
    obtain ⟨hp, hl'⟩ := List.nodup_cons.1 hl
    have hi := ih hl' r' h2
    have hs := ((SPWH.mk'_iff _ _ _).1 h1).1
    unfold Geom2D.signed at hi ⊢
    rw [List.map_cons, List.sum_cons, hi, hs]
    dsimp only
    have hd : (((pn.filter fun x => decide (x.1 = p)).map Prod.snd)).Nodup :=
      hpn.sublist (List.filter_sublist.map _)
    have e1 : (((ch.holes p ((pn.filter fun x => decide (x.1 = p)).map Prod.snd).dedup).map List.reverse).map f).sum =
        -((pn.filter fun x => decide (x.1 = p)).map fun x => f x.2).sum := by
      rw [List.map_map, ((hch.holes p _).map _).sum_eq, hd.dedup, List.map_map]
      generalize (pn.filter fun x => decide (x.1 = p)) = E
      induction E with
      | nil => simp
      | cons e E ih =>
        simp only [List.map_cons, List.sum_cons, Function.comp_apply, hf, ih]
        abel
    have e2 := filter_sum f pn hp
    rw [e1, e2, List.map_cons, List.sum_cons]
    abel

/-- The polygons made from cells have the same sums over edges as the cells. -/
theorem polyCells_sum (ch : Choices) (hch : ch.Valid) (A : Arrangement) (cells : List (List Pt))
    (hnd : (allEdges cells).Nodup) (r : Geom2D) (h : polyCells ch A cells = .ok r)
    (φ : Seg → R) (hφ : ∀ e, φ (e.2, e.1) = -φ e) :
    r.signed (fun l => ((polyEdges l).map φ).sum) = -((allEdges cells).map φ).sum := by
  set f : List Pt → R := fun l => ((polyEdges l).map φ).sum with hf
  unfold polyCells at h
  dsimp only at h
  set cs := ch.cells cells with hcs
  set n := (cs.map List.length).sum with hn
  set runs := cs.zipIdx.map fun c => (ch.merger c.2, (n + 1) * (n + 1), c.1) with hruns
  have hperm : cs.Perm cells := hch.cells cells
  have hre : runEdges runs = allEdges cs := by
    unfold runEdges
    rw [hruns, List.map_map]
    have : ((fun r : Orders Pt × ℕ × List Pt => r.2.2) ∘ fun c : List Pt × ℕ =>
        (ch.merger c.2, (n + 1) * (n + 1), c.1)) = Prod.fst := rfl
    rw [this, List.zipIdx_map_fst]
  have hlen : (allEdges cs).length = n := by
    unfold allEdges
    rw [List.length_flatMap, hn]
    congr 1
    exact List.map_congr_left fun l _ => polyEdges_length l
  have hpe : (allEdges cs).Perm (allEdges cells) := hperm.flatMap_right _
  have hcr : CompleteRuns runs := by
    intro x hx
    obtain ⟨c, _, rfl⟩ := List.mem_map.1 hx
    refine ⟨hch.merger _, ?_⟩
    rw [hre, hlen]
  obtain ⟨m, hm, h⟩ := (bind_ok _ _ _).1 h
  obtain ⟨co, hco, h⟩ := (bind_ok _ _ _).1 h
  obtain ⟨⟨pos, neg⟩, hsp, h⟩ := (bind_ok _ _ _).1 h
  dsimp only at h
  obtain ⟨pm, hpm, h⟩ := (bind_ok _ _ _).1 h
  obtain ⟨pn, hpn, h⟩ := (bind_ok _ _ _).1 h
  obtain ⟨D, hD⟩ : ∃ D, (allEdges cells).Perm ((D ++ D.map opp) ++ allEdges (co.map Prod.fst)) := by
    rcases c28_main runs hcr (by rw [hre]; exact hpe.nodup_iff.2 hnd) with h' | ⟨s, h', _, _, D, hD⟩
    · rw [hm] at h'; cases h'
    · rw [hm] at h'
      cases h'
      unfold getCellsOriginals at hco
      obtain ⟨_, _, hco⟩ := (bind_ok _ _ _).1 hco
      cases hco
      refine ⟨D, ?_⟩
      rw [hre] at hD
      rw [List.map_map]
      exact hpe.symm.trans hD
  obtain ⟨hp1, hp2, hneg⟩ := splitSign_perm _ _ _ hsp
  have hpco : (pos ++ neg).Perm co := hp1.trans (hch.merged co)
  have hE : (allEdges (pos.map Prod.fst) ++ allEdges (neg.map Prod.fst)).Perm (allEdges (co.map Prod.fst)) := by
    have := (hpco.map Prod.fst).flatMap_right polyEdges
    rw [List.map_append, List.flatMap_append] at this
    exact this
  have hEn : (allEdges (pos.map Prod.fst) ++ allEdges (neg.map Prod.fst)).Nodup := by
    refine hE.nodup_iff.2 ?_
    exact (List.nodup_append.1 (hD.nodup_iff.1 hnd)).2.1
  have nodup_of : ∀ L : List (List Pt), (∀ c ∈ L, c ≠ []) → (allEdges L).Nodup → L.Nodup := by
    intro L
    induction L with
    | nil => simp
    | cons c L ih =>
      intro hne hn
      have hn' : (polyEdges c ++ allEdges L).Nodup := hn
      obtain ⟨_, b, d⟩ := List.nodup_append.1 hn'
      refine List.nodup_cons.2 ⟨?_, ih (fun c hc => hne c (List.mem_cons_of_mem _ hc)) b⟩
      intro hc
      have hcne := hne c List.mem_cons_self
      obtain ⟨v, hv⟩ := List.exists_mem_of_ne_nil c hcne
      obtain ⟨e, he, _⟩ := polyEdges_fst hv
      exact d e he e (List.mem_flatMap.2 ⟨c, hc, he⟩) rfl
  obtain ⟨n1, n2, _⟩ := List.nodup_append.1 hEn
  have hposn : (pos.map Prod.fst).Nodup := nodup_of _ (by
    intro c hc; obtain ⟨x, hx, rfl⟩ := List.mem_map.1 hc; exact hp2 x hx) n1
  have hnegn : (neg.map Prod.fst).Nodup := nodup_of _ (by
    intro c hc; obtain ⟨x, hx, rfl⟩ := List.mem_map.1 hc; exact hneg x hx) n2
  have hsnd := posNegatives_spec _ _ _ _ hpn
  have hall : (pn.filter fun x => decide (x.1 ∈ pos.map Prod.fst)) = pn := by
    rw [List.filter_eq_self]
    intro x hx
    obtain ⟨y, hy, e⟩ := posNegatives_fst _ _ _ _ hpn x hx
    rcases posOriginals_snd _ _ _ hpm y hy with h | h
    · simp at h
    · rw [e] at h; simpa using h
  rw [makePolys_sum ch hch f (map_reverse_sum φ hφ) pn (by rw [hsnd]; exact hnegn) _ hposn r h, hall]
  have e1 : (pn.map fun x => f x.2).sum = ((allEdges (neg.map Prod.fst)).map φ).sum := by
    rw [← allEdges_sum, ← hsnd, List.map_map]; rfl
  have e2 : ((pos.map Prod.fst).map f).sum = ((allEdges (pos.map Prod.fst)).map φ).sum := allEdges_sum φ _
  rw [e1, e2, (hD.map φ).sum_eq, List.map_append, List.sum_append, opposite_sum φ hφ, zero_add, ← (hE.map φ).sum_eq,
    List.map_append, List.sum_append]
  abel

end Sums

/-! ### The operation -/

theorem selectCells_eq (gs : List Geom2D) (op : List Bool → Bool) (cs : List Cell1) (r : List (List Pt))
    (h : selectCells gs op cs = .ok r) :
    r = (cs.filter fun c => op (gs.map fun g => decide (Geom2D.locate g c.point = .ok 1))).map Cell1.vertices := by
  induction cs generalizing r with
  | nil => cases h; rfl
  | cons c cs ih =>
    rw [selectCells] at h
    obtain ⟨fs, h1, h⟩ := (bind_ok _ _ _).1 h
    obtain ⟨r', h2, h⟩ := (bind_ok _ _ _).1 h
    cases h
    rw [flags_spec _ _ _ h1, ih r' h2, List.filter_cons]
    split_ifs <;> simp

theorem locate_far (g : Geom2D) (hg : g.WellMade) (q : Pt) (h : ∀ s ∈ g, ∀ v ∈ s.outer, v.1 < q.1) :
    Geom2D.locate g q ≠ .ok 1 := by
  obtain ⟨v, e1, e2, _⟩ := c31_locate g hg q
  rw [e1, ne_eq, Except.ok.injEq, e2]
  rintro ⟨s, hs, hin⟩
  exact hin.1.2 (winding_far s.outer q (h s hs))

theorem far_bound (gs : List Geom2D) (cs : List (List Pt)) :
    ∃ M : ℚ, (∀ g ∈ gs, ∀ s ∈ g, ∀ v ∈ s.outer, v.1 < M) ∧ ∀ c ∈ cs, ∀ v ∈ c, v.1 < M := by
  have one : ∀ L : List Pt, ∃ M : ℚ, ∀ v ∈ L, v.1 < M := by
    intro L
    induction L with
    | nil => exact ⟨0, by simp⟩
    | cons a L ih =>
      obtain ⟨M, hM⟩ := ih
      refine ⟨max M (a.1 + 1), fun v hv => ?_⟩
      rcases List.mem_cons.1 hv with rfl | hv
      · exact lt_max_of_lt_right (by linarith)
      · exact lt_max_of_lt_left (hM v hv)
  obtain ⟨M, hM⟩ := one (gs.flatMap (fun g => g.flatMap SPWH.outer) ++ cs.flatten)
  refine ⟨M, fun g hg s hs v hv => hM v ?_, fun c hc v hv => hM v ?_⟩
  · exact List.mem_append_left _ (List.mem_flatMap.2 ⟨g, hg, List.mem_flatMap.2 ⟨s, hs, hv⟩⟩)
  · exact List.mem_append_right _ (List.mem_flatten.2 ⟨c, hc, hv⟩)

theorem allEdges_count (cs : List (List Pt)) (h : Seg) :
    ((allEdges cs).count h : ℤ) = (cs.map fun c => ((polyEdges c).count h : ℤ)).sum := by
  induction cs with
  | nil => simp [allEdges]
  | cons c cs ih =>
    rw [List.map_cons, List.sum_cons, ← ih]
    simp only [allEdges, List.flatMap_cons, List.count_append]
    push_cast
    rfl

/-- The cells of the arrangement that were selected cover the points selected once. -/
theorem selected_once {A : Arrangement} (hB : BuildOK A) (gs : List Geom2D) (op : List Bool → Bool)
    (hop : op (gs.map fun _ => false) = false) (hg : ∀ g ∈ gs, Geom2D.WellMade g)
    (hin : ∀ g ∈ gs, ∀ x, Geom2D.OnEdge g x → OnAny A.net.halfEdges x) (cells : List (List Pt))
    (hcells : selectCells gs op A.cells = .ok cells) (p : Pt) (hp : ¬ OnAny A.net.halfEdges p) :
    -(cells.map fun c => windingNumber c p).sum =
      if op (gs.map fun g => decide (Geom2D.locate g p = .ok 1)) = true then 1 else 0 := by
  classical
  set H := A.net.halfEdges with hH
  set S : Pt → Bool := fun p => op (gs.map fun g => decide (Geom2D.locate g p = .ok 1)) with hS
  have hsel := selectCells_eq gs op A.cells cells hcells
  have hsub := selectCells_spec gs op A.cells cells hcells
  have hnd : (allEdges cells).Nodup := (allEdges_sublist hsub).nodup hB.nodup
  have hface : ∀ p q, ¬ OnAny H p → ¬ OnAny H q → SameFace H p q → S p = S q := by
    intro p q h1 h2 h3
    rw [hS]
    refine congrArg op ?_
    refine List.map_congr_left fun g hg' => ?_
    rw [decide_eq_decide]
    exact locate_face g (hg g hg') (hin g hg') h1 h2 h3
  have hedge : ∀ c ∈ cells, ∀ e ∈ polyEdges c, e ∈ H := fun c hc e he =>
    hB.sub e (List.mem_flatMap.2 ⟨c, hsub.subset hc, he⟩)
  have hwithin : ∀ c ∈ cells, Within H c := fun c hc e he x hx => ⟨e, hedge c hc e he, hx⟩
  have hmem : ∀ h ∈ H, ∀ r, Sees H h r → (h ∈ allEdges cells ↔ S r = true) := by
    intro h hh r hr
    constructor
    · intro hm
      obtain ⟨v, hv, he⟩ := List.mem_flatMap.1 hm
      rw [hsel] at hv
      obtain ⟨c, hc, rfl⟩ := List.mem_map.1 hv
      obtain ⟨hc1, hc2⟩ := List.mem_filter.1 hc
      obtain ⟨y, hy, hyc⟩ := hB.sees c hc1 h he
      rw [hface r c.point hr.off (hB.off c hc1) ((sees_same hB.planar hh hr hy).trans hyc)]
      exact hc2
    · intro hs
      obtain ⟨c, hc, he⟩ := hB.every h hh
      obtain ⟨y, hy, hyc⟩ := hB.sees c hc h he
      rw [hface r c.point hr.off (hB.off c hc) ((sees_same hB.planar hh hr hy).trans hyc)] at hs
      refine List.mem_flatMap.2 ⟨c.vertices, ?_, he⟩
      rw [hsel]
      exact List.mem_map_of_mem (List.mem_filter.2 ⟨hc, hs⟩)
  obtain ⟨M, hM1, hM2⟩ := far_bound gs cells
  have key := far_const hB.planar
    (fun p => -(cells.map fun c => windingNumber c p).sum - if S p = true then (1 : ℤ) else 0) ?_ ?_ (b := 0) M ?_ hp
  · rw [sub_eq_zero] at key
    exact key
  · intro p q h
    have hsf := same_of_segment h
    have e1 : (cells.map fun c => windingNumber c p) = cells.map fun c => windingNumber c q :=
      List.map_congr_left fun c hc => hsf c (hwithin c hc)
    rw [e1, hface p q (h p (onSeg_left (p, q))) (h q (onSeg_right (p, q))) hsf]
  · intro h hh l r hlr
    have hr := hmem h hh r hlr.sees
    have hl := hmem (h.2, h.1) (hB.planar.rev h hh) l hlr.rev.sees
    have hsum : (cells.map fun c => windingNumber c l).sum - (cells.map fun c => windingNumber c r).sum =
        ((allEdges cells).count h : ℤ) - (allEdges cells).count (h.2, h.1) := by
      rw [allEdges_count, allEdges_count]
      obtain ⟨⟨t, s, t0, t1, s0, s1, e⟩, a, b, o⟩ := hlr
      have : ∀ c ∈ cells, windingNumber c l - windingNumber c r =
          ((polyEdges c).count h : ℤ) - (polyEdges c).count (h.2, h.1) := by
        intro c hc
        exact winding_jump c l r h t0 t1 e a b fun k hk => o k (hedge c hc k hk)
      clear hsel hsub hnd hedge hwithin hmem hr hl hM2 hcells
      induction cells with
      | nil => simp
      | cons c cells ih =>
        have i1 := ih fun c hc => this c (List.mem_cons_of_mem _ hc)
        have i2 := this c List.mem_cons_self
        simp only [List.map_cons, List.sum_cons]
        linarith
    have c1 : ((allEdges cells).count h : ℤ) = if S r = true then 1 else 0 := by
      rw [hnd.count]
      simp only [hr]
      split_ifs <;> rfl
    have c2 : ((allEdges cells).count (h.2, h.1) : ℤ) = if S l = true then 1 else 0 := by
      rw [hnd.count]
      simp only [hl]
      split_ifs <;> rfl
    rw [c1, c2] at hsum
    linarith
  · intro q hq
    have e1 : (cells.map fun c => windingNumber c q).sum = 0 := by
      rw [List.map_congr_left fun c hc => winding_far c q fun v hv => (hM2 c hc v hv).trans hq]
      simp
    have e2 : S q = false := by
      rw [hS, ← hop]
      refine congrArg op ?_
      refine List.map_congr_left fun g hg' => ?_
      rw [decide_eq_false_iff_not]
      exact locate_far g (hg g hg') q fun s hs v hv => (hM1 g hg' s hs v hv).trans hq
    rw [e1, e2]
    simp

/-- A point off some edges can be moved a little so as to be off other edges as well. -/
theorem move_off (E H : List Seg) (hH : ∀ h ∈ H, h.1 ≠ h.2) (p : Pt) (hp : ¬ OnAny E p) :
    ∃ q, (∀ x, OnSeg (p, q) x → ¬ OnAny E x) ∧ ¬ OnAny H q := by
  have ev1 : ∀ᶠ m in nhdsWithin (0 : ℚ) (Set.Ioi 0), ∀ k ∈ H, -(dir k).2 + m * (dir k).1 ≠ 0 := by
    refine small_list H _ fun k hk => small_affine_ne _ _ ?_
    by_contra hc
    push Not at hc
    refine hH k hk (Prod.ext ?_ ?_)
    · have := hc.2; unfold dir at this; dsimp only at this; linarith
    · have := hc.1; unfold dir at this; dsimp only at this; linarith
  obtain ⟨m, _, hm⟩ := small_exists ev1
  have ev2 : ∀ᶠ ε in nhdsWithin (0 : ℚ) (Set.Ioi 0), ∀ k ∈ E, ∀ x, OnSeg (p + ε • (0 : Pt), p + ε • ((1, m) : Pt)) x → ¬ OnSeg k x := by
    refine small_list E _ fun k hk => push (p, p) k 0 (1, m) ?_
    rintro x ⟨⟨t, _, _, rfl⟩, h2⟩
    have : along (p, p) t = p := by unfold along; ext <;> simp
    rw [this] at h2
    exact hp ⟨k, hk, h2⟩
  have ev3 : ∀ᶠ ε in nhdsWithin (0 : ℚ) (Set.Ioi 0), ∀ k ∈ H, cross (dir k) (p - k.1) + ε * (-(dir k).2 + m * (dir k).1) ≠ 0 :=
    small_list H _ fun k hk => small_affine_ne _ _ (Or.inr (hm k hk))
  obtain ⟨ε, _, h2, h3⟩ := small_exists (ev2.and ev3)
  refine ⟨p + ε • ((1, m) : Pt), fun x hx => ?_, ?_⟩
  · rintro ⟨k, hk, hkx⟩
    exact h2 k hk x (by simpa using hx) hkx
  · rintro ⟨k, hk, hkx⟩
    apply h3 k hk
    rw [← cross_on k _ hkx]
    unfold cross
    simp only [Prod.fst_add, Prod.snd_add, Prod.smul_fst, Prod.smul_snd, smul_eq_mul, Prod.fst_sub, Prod.snd_sub]
    ring

theorem signed_congr {R : Type*} [AddCommGroup R] (f f' : List Pt → R) (g : Geom2D)
    (h : ∀ s ∈ g, f s.outer = f' s.outer ∧ ∀ k ∈ s.holes, f k = f' k) : g.signed f = g.signed f' := by
  unfold Geom2D.signed
  congr 1
  refine List.map_congr_left fun s hs => ?_
  rw [(h s hs).1, List.map_congr_left (h s hs).2]

theorem windSum_face {H : List Seg} (g : Geom2D) (hin : ∀ x, g.OnEdge x → OnAny H x) {p q : Pt} (h : SameFace H p q) :
    g.windSum p = g.windSum q := by
  refine signed_congr _ _ _ fun s hs => ⟨?_, fun k hk => ?_⟩
  · exact h _ fun e he x hx => hin x ⟨s, hs, Or.inl ⟨e, he, hx⟩⟩
  · exact h _ fun e he x hx => hin x ⟨s, hs, Or.inr ⟨k, hk, e, he, hx⟩⟩

theorem signed_winding (g : Geom2D) (p : Pt) :
    g.windSum p = g.signed fun l => ((polyEdges l).map fun e => crossing p e.1 e.2).sum := rfl

/-- Where a geom covers points once, given that it does so off some more edges. -/
theorem proper_of (g : Geom2D) (hg : g.WellMade) (H : List Seg) (hH : ∀ h ∈ H, h.1 ≠ h.2)
    (h : ∀ p, ¬ g.OnEdge p → ¬ OnAny H p → g.windSum p = if Geom2D.locate g p = .ok 1 then 1 else 0) : g.Proper := by
  refine ⟨hg, fun p hp => ?_⟩
  rw [← onEdge_iff] at hp
  obtain ⟨q, h1, h2⟩ := move_off g.allSegments H hH p hp
  have hf := same_of_segment h1
  have hq : ¬ OnAny g.allSegments q := h1 q (onSeg_right (p, q))
  have hin : ∀ x, g.OnEdge x → OnAny g.allSegments x := fun x hx => (onEdge_iff g x).2 hx
  rw [windSum_face g hin hf, h q (fun hx => hq (hin q hx)) h2]
  simp only [locate_face g hg hin hp hq hf]

theorem arrangementOp_proper (ch : Choices) (hch : ch.Valid) (gs : List Geom2D) (op : List Bool → Bool) (r : Geom2D)
    (hop : op (gs.map fun _ => false) = false) (hg : ∀ g ∈ gs, Geom2D.WellMade g)
    (h : arrangementOp ch gs op = .ok r) : r.Proper := by
  obtain ⟨hw, _, hloc⟩ := arrangementOp_sound ch hch gs op r hop hg h
  unfold arrangementOp at h
  obtain ⟨A, hA, h⟩ := (bind_ok _ _ _).1 h
  obtain ⟨cells, hcells, h⟩ := (bind_ok _ _ _).1 h
  obtain ⟨polys, hpolys, h⟩ := (bind_ok _ _ _).1 h
  obtain ⟨_, hcheck, h⟩ := (bind_ok _ _ _).1 h
  cases h
  obtain ⟨hB, hon⟩ := build_spec ch hch _ (segments_ne gs hg) A hA
  have hon' : ∀ x, OnAny A.net.halfEdges x ↔ ∃ g ∈ gs, Geom2D.OnEdge g x := fun x => (hon x).trans (onAny_flat gs x)
  have hsub := allEdges_sublist (selectCells_spec gs op A.cells cells hcells)
  refine proper_of r hw A.net.halfEdges hB.planar.ne fun p _ hp => ?_
  have e1 := selected_once hB gs op hop hg (fun g hg' x hx => (hon' x).2 ⟨g, hg', hx⟩) cells hcells p hp
  have e2 := polyCells_sum ch hch A cells (hsub.nodup hB.nodup) r hpolys (fun e => crossing p e.1 e.2)
    (fun e => crossing_swap p e.1 e.2)
  rw [signed_winding, e2]
  have e3 : (cells.map fun c => windingNumber c p).sum = ((allEdges cells).map fun e => crossing p e.1 e.2).sum := by
    rw [← allEdges_sum]; rfl
  rw [← e3, e1]
  simp only [hloc p fun g hg' hx => hp ((hon' p).2 ⟨g, hg', hx⟩)]

end Arr

end Ply
