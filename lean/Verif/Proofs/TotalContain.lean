import Verif.Proofs.TotalQuery

/-!
# The containers of the cells of an arrangement are found
-/

namespace Ply.Arr

open CellMerger Nest

/-! ### Parity -/

/-- Coordinates in which the ray goes to the right. -/
def rayMap (d : Pt) : Affine := ⟨d.1, d.2, d.2, -d.1, 0, 0⟩

theorem rayMap_det {d : Pt} (hd : d ≠ 0) : (rayMap d).det ≠ 0 := by
  unfold Affine.det rayMap
  dsimp only
  intro h
  apply hd
  have h1 : d.1 = 0 := by nlinarith [sq_nonneg d.1, sq_nonneg d.2]
  have h2 : d.2 = 0 := by nlinarith [sq_nonneg d.1, sq_nonneg d.2]
  exact Prod.ext h1 h2

theorem rayMap_snd (d v : Pt) : ((rayMap d).app v).2 = cross v d := by
  unfold Affine.app rayMap cross; dsimp only; ring

theorem rayMap_orient (d a b p : Pt) : orient ((rayMap d).app a) ((rayMap d).app b) ((rayMap d).app p) =
    -(d.1 ^ 2 + d.2 ^ 2) * orient a b p := by
  unfold orient Affine.app rayMap; dsimp only; ring

theorem hit_crossing (pt d : Pt) (h : Seg) (hpar : cross (dir h) d ≠ 0) :
    hitK pt d h ∧ 0 < hitT pt d h ↔ crossing ((rayMap d).app pt) ((rayMap d).app h.1) ((rayMap d).app h.2) ≠ 0 := by
  have hq : 0 < d.1 ^ 2 + d.2 ^ 2 := by
    by_contra hcon
    apply hpar
    have h1 : d.1 = 0 := by nlinarith [sq_nonneg d.1, sq_nonneg d.2]
    have h2 : d.2 = 0 := by nlinarith [sq_nonneg d.1, sq_nonneg d.2]
    unfold cross; rw [h1, h2]; ring
  have hn : cross (h.1 - pt) (dir h) = orient h.1 h.2 pt := by
    unfold cross dir orient; simp only [Prod.fst_sub, Prod.snd_sub]; ring
  have hD : cross d (dir h) = -(cross h.2 d - cross h.1 d) := by unfold cross dir; dsimp only; ring
  unfold crossing hitK hitT
  rw [rayMap_snd, rayMap_snd, rayMap_snd, rayMap_orient, hn, hD]
  have up : 0 < cross h.2 d - cross h.1 d → (0 < orient h.1 h.2 pt / -(cross h.2 d - cross h.1 d) ↔
      0 < -(d.1 ^ 2 + d.2 ^ 2) * orient h.1 h.2 pt) := by
    intro hs
    rw [div_neg, neg_pos, div_neg_iff]
    constructor
    · rintro (⟨_, hx⟩ | ⟨hx, _⟩)
      · linarith
      · nlinarith
    · intro hx
      right
      exact ⟨by nlinarith, hs⟩
  have down : cross h.2 d - cross h.1 d < 0 → (0 < orient h.1 h.2 pt / -(cross h.2 d - cross h.1 d) ↔
      -(d.1 ^ 2 + d.2 ^ 2) * orient h.1 h.2 pt < 0) := by
    intro hs
    rw [div_pos_iff]
    constructor
    · rintro (⟨hx, _⟩ | ⟨_, hx⟩)
      · nlinarith
      · linarith
    · intro hx
      left
      exact ⟨by nlinarith, by linarith⟩
  constructor
  · rintro ⟨⟨i, j⟩ | ⟨i, j⟩, hT⟩
    · rw [if_pos ⟨i, j, (up (by linarith)).1 hT⟩]; decide
    · rw [if_neg (by rintro ⟨x, y, _⟩; linarith), if_pos ⟨i, j, (down (by linarith)).1 hT⟩]; decide
  · intro hc
    split_ifs at hc with h1 h2
    · exact ⟨Or.inl ⟨h1.1, h1.2.1⟩, (up (by linarith [h1.1, h1.2.1])).2 h1.2.2⟩
    · exact ⟨Or.inr ⟨h2.1, h2.2.1⟩, (down (by linarith [h2.1, h2.2.1])).2 h2.2.2⟩
    · exact absurd rfl hc

theorem sum_parity {α : Type*} (l : List α) (f : α → ℤ) (hf : ∀ e, f e = -1 ∨ f e = 0 ∨ f e = 1) :
    Odd (l.map f).sum ↔ Odd (l.filter fun e => decide (f e ≠ 0)).length := by
  induction l with
  | nil => simp
  | cons a l ih =>
    rw [List.map_cons, List.sum_cons]
    by_cases h : f a = 0
    · rw [List.filter_cons_of_neg (by simp [h]), h, zero_add]; exact ih
    · rw [List.filter_cons_of_pos (by simp [h]), List.length_cons, Nat.odd_add_one, ← ih, Int.odd_add]
      have : Odd (f a) := by
        rcases hf a with h' | h' | h'
        · rw [h']; decide
        · exact absurd h' h
        · rw [h']; decide
      simp [this]

theorem crossing_value (p a b : Pt) : crossing p a b = -1 ∨ crossing p a b = 0 ∨ crossing p a b = 1 := by
  unfold crossing; split_ifs <;> simp

/-- A polygon winds an odd number of times around a point if the ray crosses an odd number of its edges. -/
theorem winding_parity {c : List Pt} {pt d : Pt} (hd : d ≠ 0) (hpar : ∀ e ∈ polyEdges c, cross (dir e) d ≠ 0)
    (hoff : ¬ OnBoundary c pt) :
    Odd (windingNumber c pt) ↔
      Odd ((polyEdges c).filter fun e => decide (hitK pt d e ∧ 0 < hitT pt d e)).length := by
  have h1 := windingNumber_affine (rayMap d) (rayMap_det hd) c pt hoff
  have h2 : Odd (windingNumber c pt) ↔ Odd (windingNumber (c.map (rayMap d).app) ((rayMap d).app pt)) := by
    rw [h1]; split_ifs <;> simp
  rw [h2]
  unfold windingNumber
  rw [polyEdges_map, List.map_map]
  refine (sum_parity (polyEdges c) (fun e => crossing ((rayMap d).app pt) ((rayMap d).app e.1) ((rayMap d).app e.2))
    (fun e => crossing_value _ _ _)).trans ?_
  rw [List.filter_congr]
  intro e he
  have := hit_crossing pt d e (hpar e he)
  rw [decide_eq_decide]
  exact this.symm

/-! ### The cells around a point -/

theorem around_ok (hc : List (Seg × List Pt)) (cell : Seg → List Pt) (l : List (ℚ × Seg)) (cells : List (List Pt))
    (hnd : cells.Nodup) (hne : ∀ x ∈ l, x.1 ≠ 0) (hcell : ∀ x ∈ l, dget x.2 hc = .ok (cell x.2)) :
    ∃ res, around hc l cells = .ok res ∧ res.Nodup ∧
      ∀ c, c ∈ res ↔ (c ∈ cells ↔ Even (l.filter fun x => decide (0 < x.1 ∧ cell x.2 = c)).length) := by
  induction l generalizing cells with
  | nil => exact ⟨cells, rfl, hnd, by simp⟩
  | cons x l ih =>
    have i1 := fun y hy => hne y (List.mem_cons_of_mem x hy)
    have i2 := fun y hy => hcell y (List.mem_cons_of_mem x hy)
    rw [around]
    split_ifs with hlt
    · obtain ⟨res, r1, r2, r3⟩ := ih cells hnd i1 i2
      refine ⟨res, r1, r2, fun c => ?_⟩
      rw [List.filter_cons_of_neg (by
        simp only [decide_eq_true_eq]; rintro ⟨h, _⟩; linarith)]
      exact r3 c
    · have hx0 := hne x List.mem_cons_self
      have hpos : 0 < x.1 := lt_of_le_of_ne (not_lt.1 hlt) (Ne.symm hx0)
      rw [ensure_pos hx0]
      show ∃ res, (dget x.2 hc >>= _) = _ ∧ _
      rw [hcell x List.mem_cons_self]
      show ∃ res, around hc l (symDiff1 (cell x.2) cells) = _ ∧ _
      have hs : (symDiff1 (cell x.2) cells).Nodup ∧ ∀ c, c ∈ symDiff1 (cell x.2) cells ↔
          (if c = cell x.2 then c ∉ cells else c ∈ cells) := by
        unfold symDiff1
        split_ifs with hm
        · refine ⟨hnd.erase _, fun c => ?_⟩
          rw [hnd.mem_erase_iff]
          split_ifs with hcc
          · subst hcc; simp [hm]
          · simp [hcc]
        · refine ⟨?_, fun c => ?_⟩
          · rw [List.nodup_append]
            refine ⟨hnd, List.nodup_singleton _, fun a ha b hb => ?_⟩
            rw [List.mem_singleton] at hb
            subst hb
            rintro rfl; exact hm ha
          · rw [List.mem_append, List.mem_singleton]
            split_ifs with hcc
            · subst hcc; simp [hm]
            · simp [hcc]
      obtain ⟨res, r1, r2, r3⟩ := ih _ hs.1 i1 i2
      refine ⟨res, r1, r2, fun c => ?_⟩
      rw [r3 c, hs.2 c]
      by_cases hcc : cell x.2 = c
      · rw [List.filter_cons_of_pos (by simp [hpos, hcc]), List.length_cons, Nat.even_add_one, if_pos hcc.symm]
        tauto
      · rw [List.filter_cons_of_neg (by simp [hcc]), if_neg (fun h => hcc h.symm)]

/-! ### The loops over the cells -/

/-- What the loops over the cells rely on. -/
structure Setting (net : Net) (R : Rays) (hc : List (Seg × List Pt)) (all : List Cell1) (pts : List Pt) : Prop where
  wheel : Wheel net
  tiling : Tiling net (all.map Cell1.vertices)
  nodup : (all.map Cell1.vertices).Nodup
  rays : RaysFine R
  edges : R.halfEdges = net.halfEdges
  lookup : ∀ h ∈ net.halfEdges, ∃ c ∈ all.map Cell1.vertices, h ∈ polyEdges c ∧ dget h hc = .ok c
  sign : ∀ c ∈ all, c.negative = true ↔ 0 < shoelace c.vertices
  sees : ∀ c ∈ all, ∃ e ∈ polyEdges c.vertices, Sees net.halfEdges e c.point
  box : ∀ c ∈ all, (boxOf pts).contains c.point = true
  ends : ∀ h ∈ net.halfEdges, h.1 ∈ pts

/-- What is found for a cell. -/
def InfoOK (net : Net) (cells : List (List Pt)) (x : List Pt × List (List Pt) × ℕ) : Prop :=
  (∀ a, a ∈ x.2.1 ↔ a ∈ cells ∧ a ≠ x.1 ∧ cellW net a x.1 ≠ 0) ∧ x.2.2 = degree cells.toFinset (cellW net) cellPos x.1

variable {net : Net} {R : Rays} {hc : List (Seg × List Pt)} {all : List Cell1} {pts : List Pt}

theorem Setting.area (S : Setting net R hc all pts) {c : List Pt} (hcm : c ∈ all.map Cell1.vertices) : shoelace c ≠ 0 := by
  obtain ⟨e, he⟩ := (S.tiling.ok c hcm).edge
  rcases (S.tiling.ok c hcm).side S.wheel he with ⟨h, _⟩ | ⟨h, _⟩
  · exact h.ne
  · exact h.ne'

theorem Setting.isNegative (S : Setting net R hc all pts) {c : List Pt} (hcm : c ∈ all.map Cell1.vertices) :
    isNegative all c = .ok (decide (0 < shoelace c)) := by
  unfold Arr.isNegative
  obtain ⟨v, hv⟩ := dget_ok (k := c) (d := all.map fun x => (x.vertices, x.negative)) (by
    rw [List.map_map]; exact hcm)
  obtain ⟨x, hx, e⟩ := List.mem_map.1 (dget_mem hv)
  rw [hv]
  have e1 := congrArg Prod.fst e
  have e2 := congrArg Prod.snd e
  dsimp only at e1 e2
  rw [← e1, ← e2, Except.ok.injEq, Bool.eq_iff_iff, decide_eq_true_iff]
  exact S.sign x hx

theorem Setting.countPos (S : Setting net R hc all pts) (l : List (List Pt)) (hl : ∀ c ∈ l, c ∈ all.map Cell1.vertices) :
    countPos all l = .ok (l.filter fun c => decide (shoelace c < 0)).length := by
  induction l with
  | nil => rfl
  | cons c l ih =>
    rw [Arr.countPos, S.isNegative (hl c List.mem_cons_self)]
    show (Arr.countPos all l >>= _) = _
    rw [ih fun x hx => hl x (List.mem_cons_of_mem _ hx)]
    have hne := S.area (hl c List.mem_cons_self)
    show Except.ok _ = _
    rcases lt_or_gt_of_ne hne with h | h
    · rw [List.filter_cons_of_pos (by simpa using h), List.length_cons, decide_eq_false (not_lt.2 h.le), if_neg (by decide)]
    · rw [List.filter_cons_of_neg (by simpa using h.le), decide_eq_true h, if_pos rfl]

theorem Setting.container (S : Setting net R hc all pts) {c : Cell1} (hcm : c ∈ all) :
    ∃ inters cells, rayQuery R (boxOf pts) c.point R.gv false = .ok inters ∧ around hc inters [] = .ok cells ∧ cells.Nodup ∧
      ∀ a, a ∈ cells ↔ a ∈ all.map Cell1.vertices ∧ cellW net a c.vertices ≠ 0 := by
  have hP : Planar R.halfEdges := by rw [S.edges]; exact S.wheel.planar
  have hcv : c.vertices ∈ all.map Cell1.vertices := List.mem_map_of_mem hcm
  have hok := S.tiling.ok _ hcv
  obtain ⟨e, he, hsee⟩ := S.sees c hcm
  have heH := hok.sub e he
  obtain ⟨inters, h1, h2, h3⟩ := rayQuery_false S.rays hP (by rw [S.edges]; exact S.wheel.nodup) (S.ends e heH)
    (S.ends _ (S.wheel.planar.rev e heH)) (S.wheel.planar.ne e heH) (S.box c hcm)
  have hoff : ∀ h ∈ net.halfEdges, ¬ OnSeg h c.point := fun h hh ho => hsee.off ⟨h, hh, ho⟩
  choose! cell hcell using S.lookup
  obtain ⟨cells, r1, r2, r3⟩ := around_ok hc cell inters [] List.nodup_nil (by
    intro x hx h0
    obtain ⟨q1, q2, q3⟩ := (h3 x).1 hx
    rw [S.edges] at q1
    apply hoff _ q1
    have hpar := S.rays.general x.2 (by rw [S.edges]; exact q1)
    rw [h0] at q3
    unfold hitT at q3
    set d := R.gv with hd
    have hcd : cross d (dir x.2) ≠ 0 := by
      intro hx; apply hpar; unfold cross at hx ⊢; linarith
    have hz : cross (x.2.1 - c.point) (dir x.2) = 0 := by
      rcases div_eq_zero_iff.1 q3.symm with h | h
      · exact h
      · exact absurd h hcd
    have hY : cross (dir x.2) d = cross x.2.2 d - cross x.2.1 d := by unfold cross dir; dsimp only; ring
    set t := (cross c.point d - cross x.2.1 d) / cross (dir x.2) d with ht
    have hm : t * (cross x.2.2 d - cross x.2.1 d) = cross c.point d - cross x.2.1 d := by
      rw [ht, ← hY, div_mul_cancel₀ _ hpar]
    refine ⟨t, ?_, ?_, ?_⟩
    · unfold hitK at q2
      by_contra hcon
      push Not at hcon
      rcases q2 with ⟨i, j⟩ | ⟨i, j⟩ <;> nlinarith
    · unfold hitK at q2
      by_contra hcon
      push Not at hcon
      rcases q2 with ⟨i, j⟩ | ⟨i, j⟩ <;> nlinarith
    · rw [ht]
      obtain ⟨D, hD⟩ : ∃ D, D = cross (dir x.2) d := ⟨_, rfl⟩
      rw [← hD] at hpar ⊢
      unfold along
      unfold cross dir at hz hD
      unfold cross
      simp only [Prod.fst_sub, Prod.snd_sub] at hz
      ext
      · dsimp only
        field_simp
        rw [hD]
        linear_combination d.1 * hz
      · dsimp only
        field_simp
        rw [hD]
        linear_combination d.2 * hz) (by
    intro x hx
    obtain ⟨q1, -⟩ := (h3 x).1 hx
    rw [S.edges] at q1
    exact (hcell _ q1).2.2)
  refine ⟨inters, cells, h1, r1, r2, fun a => ?_⟩
  rw [r3]
  have hmem : ∀ a ∈ all.map Cell1.vertices, ∀ h, (h ∈ net.halfEdges ∧ cell h = a ↔ h ∈ polyEdges a) := by
    intro a ha h
    constructor
    · rintro ⟨q1, rfl⟩; exact (hcell h q1).2.1
    · intro q
      have q1 := (S.tiling.ok a ha).sub h q
      exact ⟨q1, S.tiling.uniq _ (hcell h q1).1 _ ha h (hcell h q1).2.1 q⟩
  by_cases ha : a ∈ all.map Cell1.vertices
  · have hlen : (inters.filter fun x => decide (0 < x.1 ∧ cell x.2 = a)).length =
        ((polyEdges a).filter fun e => decide (hitK c.point R.gv e ∧ 0 < hitT c.point R.gv e)).length := by
      rw [← List.length_map (f := Prod.snd)]
      apply List.Perm.length_eq
      rw [List.perm_ext_iff_of_nodup (h2.sublist (List.filter_sublist.map _)) ((S.tiling.ok a ha).nodup.filter _)]
      intro h
      rw [List.mem_map, List.mem_filter, ← hmem a ha, decide_eq_true_iff]
      constructor
      · rintro ⟨x, hx, rfl⟩
        obtain ⟨x1, x2⟩ := List.mem_filter.1 hx
        obtain ⟨x2, x3⟩ := of_decide_eq_true x2
        obtain ⟨q1, q2, q3⟩ := (h3 x).1 x1
        rw [S.edges] at q1
        exact ⟨⟨q1, x3⟩, q2, by rw [← q3]; exact x2⟩
      · rintro ⟨⟨q1, q2⟩, q3, q4⟩
        refine ⟨(hitT c.point R.gv h, h), List.mem_filter.2 ⟨(h3 _).2 ⟨by rw [S.edges]; exact q1, q3, rfl⟩, ?_⟩, rfl⟩
        exact decide_eq_true ⟨q4, q2⟩
    have hpar := winding_parity (c := a) (pt := c.point) S.rays.gv
      (fun e he => S.rays.general e (by rw [S.edges]; exact (S.tiling.ok a ha).sub e he))
      (fun ⟨e, he, ho⟩ => hoff e ((S.tiling.ok a ha).sub e he) ho)
    rw [hlen]
    have hw := cellW_point S.wheel (S.tiling.ok a ha) hok he hsee
    rw [← hw] at hpar
    have N := nested S.wheel S.tiling
    have hodd : Odd (cellW net a c.vertices) ↔ cellW net a c.vertices ≠ 0 := by
      have h1 : cellW net a c.vertices = -1 ∨ cellW net a c.vertices = 0 ∨ cellW net a c.vertices = 1 := by
        by_cases hp : cellPos a
        · rcases N.pos_value (List.mem_toFinset.2 ha) (List.mem_toFinset.2 hcv) hp with h | h <;> simp [h]
        · rcases N.neg_value (List.mem_toFinset.2 ha) (List.mem_toFinset.2 hcv) hp with h | h <;> simp [h]
      rcases h1 with h | h | h <;> rw [h] <;> decide
    rw [hodd] at hpar
    rw [hpar]
    simp only [List.not_mem_nil, false_iff, Nat.not_even_iff_odd, ha, true_and]
  · have : (inters.filter fun x => decide (0 < x.1 ∧ cell x.2 = a)) = [] := by
      rw [List.filter_eq_nil_iff]
      intro x hx
      rw [decide_eq_true_iff]
      rintro ⟨_, rfl⟩
      obtain ⟨q1, -⟩ := (h3 x).1 hx
      rw [S.edges] at q1
      exact ha (hcell _ q1).1
    rw [this]
    simp [ha]

open Classical in
theorem Setting.findContainers (S : Setting net R hc all pts) {ch : Choices} (hch : ch.Valid) (l : List Cell1)
    (hl : ∀ c ∈ l, c ∈ all) :
    ∃ info, findContainers ch R (boxOf pts) hc all l = .ok info ∧ info.map Prod.fst = l.map Cell1.vertices ∧
      ∀ x ∈ info, InfoOK net (all.map Cell1.vertices) x := by
  induction l with
  | nil => exact ⟨[], rfl, rfl, by simp⟩
  | cons c l ih =>
    obtain ⟨info, i1, i2, i3⟩ := ih fun x hx => hl x (List.mem_cons_of_mem _ hx)
    have hcm := hl c List.mem_cons_self
    have hcv : c.vertices ∈ all.map Cell1.vertices := List.mem_map_of_mem hcm
    obtain ⟨inters, cells, h1, h2, h3, h4⟩ := S.container hcm
    have N := nested S.wheel S.tiling
    have hown := N.own c.vertices (List.mem_toFinset.2 hcv)
    -- the cells without the cell itself
    obtain ⟨cs, hcs, hnd, hmem⟩ : ∃ cs, (if c.negative then do
          ensure (c.vertices ∉ cells)
          return cells
        else do
          ensure (c.vertices ∈ cells)
          return cells.erase c.vertices : Except PyErr (List (List Pt))) = .ok cs ∧ cs.Nodup ∧
        ∀ a, a ∈ cs ↔ a ∈ all.map Cell1.vertices ∧ a ≠ c.vertices ∧ cellW net a c.vertices ≠ 0 := by
      split_ifs with hn
      · have hp : ¬ cellPos c.vertices := not_lt.2 ((S.sign c hcm).1 hn).le
        have hnot : c.vertices ∉ cells := by
          rw [h4, hown, if_neg hp]; simp
        rw [ensure_pos hnot]
        refine ⟨cells, rfl, h3, fun a => ?_⟩
        rw [h4]
        constructor
        · rintro ⟨a1, a2⟩
          refine ⟨a1, ?_, a2⟩
          rintro rfl
          exact hnot ((h4 _).2 ⟨a1, a2⟩)
        · rintro ⟨a1, a2, a3⟩; exact ⟨a1, a3⟩
      · have hp : cellPos c.vertices := by
          unfold cellPos
          rcases lt_or_gt_of_ne (S.area hcv) with h | h
          · exact h
          · exact absurd ((S.sign c hcm).2 h) hn
        have hin : c.vertices ∈ cells := by
          rw [h4, hown, if_pos hp]; exact ⟨hcv, by decide⟩
        rw [ensure_pos hin]
        refine ⟨cells.erase c.vertices, rfl, h3.erase _, fun a => ?_⟩
        rw [h3.mem_erase_iff, h4]
        tauto
    refine ⟨(c.vertices, ch.conts c.vertices cs,
      2 * (cs.filter fun a => decide (shoelace a < 0)).length + if c.negative then 0 else 1) :: info, ?_, by simp [i2], ?_⟩
    · rw [Arr.findContainers, h1]
      show (around hc inters [] >>= _) = _
      rw [h2]
      show ((if c.negative then do
          ensure (c.vertices ∉ cells)
          return cells
        else do
          ensure (c.vertices ∈ cells)
          return cells.erase c.vertices : Except PyErr (List (List Pt))) >>= _) = _
      rw [hcs]
      show (Arr.countPos all cs >>= _) = _
      rw [S.countPos cs fun a ha => ((hmem a).1 ha).1]
      show (Arr.findContainers ch R (boxOf pts) hc all l >>= _) = _
      rw [i1]
      rfl
    · intro x hx
      rcases List.mem_cons.1 hx with rfl | hx
      · refine ⟨fun a => ?_, ?_⟩
        · show a ∈ ch.conts c.vertices cs ↔ _
          rw [(hch.conts c.vertices cs).mem_iff]
          exact hmem a
        · show 2 * _ + _ = _
          unfold degree
          have e1 : (cs.filter fun a => decide (shoelace a < 0)).length =
              (Nest.above (all.map Cell1.vertices).toFinset (cellW net) cellPos c.vertices).card := by
            rw [← List.toFinset_card_of_nodup (hnd.filter _)]
            congr 1
            ext a
            rw [List.mem_toFinset, List.mem_filter, hmem, Nest.mem_above, List.mem_toFinset, decide_eq_true_iff]
            unfold cellPos
            tauto
          have e2 : (if c.negative = true then 0 else 1) = if cellPos c.vertices then 1 else 0 := by
            have := S.sign c hcm
            have h0 := S.area hcv
            unfold cellPos
            by_cases hn : c.negative = true
            · rw [if_pos hn, if_neg (not_lt.2 (this.1 hn).le)]
            · rw [if_neg hn, if_pos]
              exact lt_of_le_of_ne (not_lt.1 fun h => hn (this.2 h)) h0
          rw [e1, e2]
      · exact i3 x hx

/-! ### The choice -/

theorem argmaxFrom_spec (best : List Pt × ℕ) (l : List (List Pt × ℕ)) :
    argmaxFrom best l ∈ best :: l ∧ ∀ y ∈ best :: l, y.2 ≤ (argmaxFrom best l).2 := by
  induction l generalizing best with
  | nil => simp [argmaxFrom]
  | cons x l ih =>
    rw [argmaxFrom]
    split_ifs with h
    · obtain ⟨h1, h2⟩ := ih x
      refine ⟨List.mem_cons_of_mem _ h1, fun y hy => ?_⟩
      rcases List.mem_cons.1 hy with rfl | hy
      · exact h.le.trans (h2 x List.mem_cons_self)
      · exact h2 y hy
    · obtain ⟨h1, h2⟩ := ih best
      refine ⟨?_, fun y hy => ?_⟩
      · rcases List.mem_cons.1 h1 with h1 | h1
        · rw [h1]; exact List.mem_cons_self
        · exact List.mem_cons_of_mem _ (List.mem_cons_of_mem _ h1)
      · rcases List.mem_cons.1 hy with rfl | hy
        · exact h2 _ List.mem_cons_self
        · rcases List.mem_cons.1 hy with rfl | hy
          · exact (not_lt.1 h).trans (h2 _ List.mem_cons_self)
          · exact h2 y (List.mem_cons_of_mem _ hy)

theorem degreesOf_ok (info : List (List Pt × List (List Pt) × ℕ)) (deg : List Pt → ℕ)
    (l : List (List Pt)) (hl : ∀ c ∈ l, c ∈ info.map Prod.fst) (hd : ∀ x ∈ info, x.2.2 = deg x.1) :
    degreesOf info l = .ok (l.map deg) := by
  induction l with
  | nil => rfl
  | cons c l ih =>
    obtain ⟨v, hv⟩ := dget_ok (k := c) (d := info.map fun x => (x.1, x.2.2)) (by
      rw [List.map_map]; exact hl c List.mem_cons_self)
    obtain ⟨x, hx, e⟩ := List.mem_map.1 (dget_mem hv)
    have e1 := congrArg Prod.fst e
    have e2 := congrArg Prod.snd e
    dsimp only at e1 e2
    rw [degreesOf, hv]
    show (degreesOf info l >>= _) = _
    rw [ih fun y hy => hl y (List.mem_cons_of_mem _ hy)]
    show Except.ok _ = _
    rw [List.map_cons, ← e2, hd x hx, e1]

/-- The container of a cell. -/
def ContOK (net : Net) (cells : List (List Pt)) (x : List Pt × Option (List Pt)) : Prop :=
  (x.2 = none → ∀ a ∈ cells, a ≠ x.1 → cellW net a x.1 = 0) ∧
  ∀ c, x.2 = some c → c ∈ cells ∧ c ≠ x.1 ∧ cellW net c x.1 ≠ 0 ∧
    degree cells.toFinset (cellW net) cellPos c + 1 = degree cells.toFinset (cellW net) cellPos x.1 ∧
    (cellPos c ↔ ¬ cellPos x.1)

open Classical in
theorem Setting.chooseContainers (S : Setting net R hc all pts) (info : List (List Pt × List (List Pt) × ℕ))
    (hk : info.map Prod.fst = all.map Cell1.vertices) (hinfo : ∀ x ∈ info, InfoOK net (all.map Cell1.vertices) x)
    (l : List (List Pt × List (List Pt) × ℕ)) (hl : ∀ x ∈ l, x ∈ info) :
    ∃ conts, chooseContainers all info l = .ok conts ∧ conts.map Prod.fst = l.map Prod.fst ∧
      ∀ x ∈ conts, ContOK net (all.map Cell1.vertices) x := by
  induction l with
  | nil => exact ⟨[], rfl, rfl, by simp⟩
  | cons x l ih =>
    obtain ⟨conts, i1, i2, i3⟩ := ih fun y hy => hl y (List.mem_cons_of_mem _ hy)
    have hxi := hl x List.mem_cons_self
    obtain ⟨hx1, hx2⟩ := hinfo x hxi
    set cells := all.map Cell1.vertices with hcells
    set deg := degree cells.toFinset (cellW net) cellPos with hdeg
    have hxm : x.1 ∈ cells := by rw [← hk]; exact List.mem_map_of_mem hxi
    have N := nested S.wheel S.tiling
    cases hcont : x.2.1 with
    | nil =>
      refine ⟨(x.1, none) :: conts, ?_, by simp [i2], ?_⟩
      · rw [Arr.chooseContainers, hcont]
        show (Arr.chooseContainers all info l >>= _) = _
        rw [i1]
        rfl
      · intro y hy
        rcases List.mem_cons.1 hy with rfl | hy
        · refine ⟨fun _ a ha hne => ?_, fun c hc => by cases hc⟩
          by_contra hw
          have := (hx1 a).2 ⟨ha, hne, hw⟩
          rw [hcont] at this
          cases this
        · exact i3 y hy
    | cons c cs =>
      rw [hcont] at hx1
      have hdegs := degreesOf_ok info deg (c :: cs) (by
        intro a ha
        rw [hk]
        exact ((hx1 a).1 ha).1) (fun y hy => (hinfo y hy).2)
      obtain ⟨b1, b2⟩ := argmaxFrom_spec (c, deg c) (cs.map fun a => (a, deg a))
      have hzip : (c :: cs).zip ((c :: cs).map deg) = (c, deg c) :: cs.map fun a => (a, deg a) := by
        rw [List.map_cons, List.zip_cons_cons]
        congr 1
        clear hdegs b1 b2 hx1 hcont
        induction cs with
        | nil => rfl
        | cons a cs ih => rw [List.map_cons, List.zip_cons_cons, ih]; rfl
      obtain ⟨best, hb⟩ : ∃ best, best = argmaxFrom (c, deg c) (cs.map fun a => (a, deg a)) := ⟨_, rfl⟩
      rw [← hb] at b1 b2
      have hlist : (c, deg c) :: cs.map (fun a => (a, deg a)) = (c :: cs).map fun a => (a, deg a) := by simp
      rw [hlist] at b1 b2
      obtain ⟨bc, hbc, ebc⟩ := List.mem_map.1 b1
      obtain ⟨m1, m2, m3⟩ := (hx1 bc).1 hbc
      have hlt := N.degree_lt (List.mem_toFinset.2 m1) (List.mem_toFinset.2 hxm) m2 m3
      obtain ⟨k, k1, k2, k3, k4⟩ := N.degree_eq (List.mem_toFinset.2 m1) (List.mem_toFinset.2 hxm) m2 m3
      have hkl := b2 (k, deg k) (List.mem_map.2 ⟨k, (hx1 k).2 ⟨List.mem_toFinset.1 k1, k2, k3⟩, rfl⟩)
      have hb1 : best.1 = bc := by rw [← ebc]
      have hb2 : best.2 = deg bc := by rw [← ebc]
      rw [hb2] at hkl
      have hd1 : deg bc + 1 = deg x.1 := by
        have hlt' : deg bc + 1 ≤ deg x.1 := hlt
        have k4' : deg k + 1 = deg x.1 := k4
        have hkl' : deg k ≤ deg bc := hkl
        omega
      have hsign : cellPos bc ↔ ¬ cellPos x.1 := by
        have : deg bc + 1 = deg x.1 := hd1
        rw [hdeg] at this
        unfold degree at this
        by_cases p1 : cellPos bc <;> by_cases p2 : cellPos x.1 <;> simp only [p1, p2, if_true, if_false] at this ⊢ <;>
          first
            | omega
            | simp
      refine ⟨(x.1, some best.1) :: conts, ?_, by simp [i2], ?_⟩
      · rw [Arr.chooseContainers, hcont]
        show (degreesOf info (c :: cs) >>= _) = _
        rw [hdegs]
        show (match (c :: cs).zip ((c :: cs).map deg) with
          | [] => (.error .valueError : Except PyErr (List (List Pt × Option (List Pt))))
          | y :: ys => do
            let best := argmaxFrom y ys
            ensure ((best.2 : ℤ) = (x.2.2 : ℤ) - 1)
            let n0 ← Arr.isNegative all best.1
            let n1 ← Arr.isNegative all x.1
            ensure (n0 ≠ n1)
            let r ← Arr.chooseContainers all info l
            return (x.1, some best.1) :: r) = _
        rw [hzip]
        dsimp only
        rw [← hb, ensure_pos (show (best.2 : ℤ) = (x.2.2 : ℤ) - 1 by
          rw [hb2, hx2]
          have : deg bc + 1 = deg x.1 := hd1
          rw [← this]; push_cast; ring)]
        show (Arr.isNegative all best.1 >>= _) = _
        rw [hb1, S.isNegative m1]
        show (Arr.isNegative all x.1 >>= _) = _
        rw [S.isNegative hxm]
        show (ensure (decide (0 < shoelace bc) ≠ decide (0 < shoelace x.1)) >>= _) = _
        rw [ensure_pos]
        · show (Arr.chooseContainers all info l >>= _) = _
          rw [i1]
          rfl
        · intro heq
          rw [decide_eq_decide] at heq
          have z1 := S.area m1
          have z2 := S.area hxm
          unfold cellPos at hsign
          rcases lt_or_gt_of_ne z1 with p1 | p1 <;> rcases lt_or_gt_of_ne z2 with p2 | p2
          · exact (hsign.1 p1) p2
          · linarith [heq.2 p2]
          · linarith [heq.1 p1]
          · linarith [hsign.2 (not_lt.2 p2.le)]
      · intro y hy
        rcases List.mem_cons.1 hy with rfl | hy
        · refine ⟨fun h => (by cases h), fun c' hc' => ?_⟩
          cases hc'
          rw [hb1]
          exact ⟨m1, m2, m3, hd1, hsign⟩
        · exact i3 y hy

end Ply.Arr
