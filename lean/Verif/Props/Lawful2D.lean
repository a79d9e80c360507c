import Verif.Props.Arrangement2D
import Verif.Proofs.Area
import Verif.Props.Clusters
import Verif.Props.MakeFingers
import Verif.Props.OkSide
import Verif.Props.CleanUp

/-!
# The 2D operations of the code meet the laws used for the sheet build: C69, C70
-/

namespace Ply

open Arr MeasureTheory

/-! ### Results of `union` -/

theorem union_small (ch : Choices) (hch : ch.Valid) (fuel : ℕ) (gs : List Geom2D) (hg : ∀ g ∈ gs, Geom2D.WellMade g)
    (hl : gs.length ≤ 64) (r : Geom2D) (h : Geom2D.union (arrangementOp ch) fuel gs = .ok r) : r.Proper := by
  cases fuel with
  | zero => rw [Geom2D.union] at h; cases h
  | succ f =>
    rw [Geom2D.union, if_neg (by unfold Geom2D.unionN; omega)] at h
    exact arrangementOp_proper ch hch gs _ r (by simp) hg h

theorem unionPass_proper (ch : Choices) (hch : ch.Valid) (fuel : ℕ) (gs : List Geom2D)
    (hg : ∀ g ∈ gs, Geom2D.WellMade g) (xs : List Geom2D) (h : Geom2D.unionPass (arrangementOp ch) fuel gs = .ok xs) :
    (∀ x ∈ xs, Geom2D.WellMade x) ∧ (1 < gs.length → xs.length ≤ 1 → ∀ x ∈ xs, Geom2D.Proper x) := by
  induction fuel generalizing gs xs with
  | zero => rw [Geom2D.unionPass] at h; cases h
  | succ f ih =>
    cases gs with
    | nil => rw [Geom2D.unionPass] at h; cases h; simp
    | cons g gs =>
      rw [Geom2D.unionPass] at h
      obtain ⟨x, h1, h⟩ := (bind_ok _ _ _).1 h
      obtain ⟨rest, h2, h⟩ := (bind_ok _ _ _).1 h
      cases h
      have hx : Geom2D.WellMade x ∧ (1 < (g :: gs).length → Geom2D.Proper x) := by
        split_ifs at h1 with hc
        · have := union_small ch hch f _ (fun y hy => hg y (List.mem_of_mem_take hy))
            (by simp [Geom2D.unionN]) x h1
          exact ⟨this.made, fun _ => this⟩
        · have hl : (g :: gs).length ≤ 1 := by
            simp only [List.length_take, Geom2D.unionN] at hc
            omega
          have : gs = [] := by
            rw [List.length_cons] at hl
            exact List.length_eq_zero_iff.1 (by omega)
          subst this
          have h1' : Geom2D.onlyElem [g] = .ok x := h1
          cases h1'
          exact ⟨hg g (by simp), fun h => by simp at h⟩
      obtain ⟨i1, _⟩ := ih _ (fun y hy => hg y (List.mem_of_mem_drop hy)) rest h2
      refine ⟨?_, fun hl hx1 => ?_⟩
      · intro y hy
        rcases List.mem_cons.1 hy with rfl | hy
        · exact hx.1
        · exact i1 y hy
      · intro y hy
        have : rest = [] := List.length_eq_zero_iff.1 (by rw [List.length_cons] at hx1; omega)
        subst this
        rw [List.mem_singleton] at hy
        rw [hy]
        exact hx.2 hl

theorem proper_empty : Geom2D.Proper [] :=
  ⟨by intro s hs; simp at hs, fun p _ => by rw [locate_empty]; simp [Geom2D.windSum, Geom2D.signed]⟩

theorem unionTree_proper (ch : Choices) (hch : ch.Valid) (fuel : ℕ) (gs : List Geom2D)
    (hg : ∀ g ∈ gs, Geom2D.WellMade g) (hl : 1 < gs.length ∨ ∀ g ∈ gs, Geom2D.Proper g) (r : Geom2D)
    (h : Geom2D.unionTree (arrangementOp ch) fuel gs = .ok r) : r.Proper := by
  induction fuel generalizing gs with
  | zero => rw [Geom2D.unionTree] at h; cases h
  | succ f ih =>
    rw [Geom2D.unionTree.eq_def] at h
    dsimp only at h
    split_ifs at h with hc
    · obtain ⟨nxt, h1, h⟩ := (bind_ok _ _ _).1 h
      obtain ⟨p1, p2⟩ := unionPass_proper ch hch f gs hg nxt h1
      refine ih nxt p1 ?_ h
      by_cases h2 : 1 < nxt.length
      · exact Or.inl h2
      · exact Or.inr (p2 hc (not_lt.1 h2))
    · cases gs with
      | nil => cases h; exact proper_empty
      | cons g gs =>
        cases h
        rcases hl with hl | hl
        · exact absurd hl hc
        · exact hl r List.mem_cons_self

theorem union_proper (ch : Choices) (hch : ch.Valid) (fuel : ℕ) (gs : List Geom2D) (hg : ∀ g ∈ gs, Geom2D.WellMade g)
    (r : Geom2D) (h : Geom2D.union (arrangementOp ch) fuel gs = .ok r) : r.Proper := by
  by_cases hl : gs.length ≤ 64
  · exact union_small ch hch fuel gs hg hl r h
  · cases fuel with
    | zero => rw [Geom2D.union] at h; cases h
    | succ f =>
      rw [Geom2D.union, if_pos (by unfold Geom2D.unionN; omega)] at h
      exact unionTree_proper ch hch f gs hg (Or.inl (by omega)) r h

/-! ### Fingers -/

theorem fingerLoop_made (s : InterSide) (f0 f1 : ℚ) (ivs : List Ivl) (res : List Geom2D)
    (h : s.fingerLoop f0 f1 ivs = .ok res) : ∀ g ∈ res, Geom2D.WellMade g := by
  induction ivs generalizing res with
  | nil => rw [InterSide.fingerLoop] at h; cases h; simp
  | cons iv ivs ih =>
    rw [InterSide.fingerLoop] at h
    obtain ⟨a, _, h⟩ := (bind_ok _ _ _).1 h
    obtain ⟨b, _, h⟩ := (bind_ok _ _ _).1 h
    obtain ⟨g, h1, h⟩ := (bind_ok _ _ _).1 h
    obtain ⟨r, h2, h⟩ := (bind_ok _ _ _).1 h
    cases h
    intro x hx
    rcases List.mem_cons.1 hx with rfl | hx
    · exact polygon_wellMade _ _ h1
    · exact ih r h2 x hx

theorem makeFingers_proper (ch : Choices) (hch : ch.Valid) (s : InterSide) (v : Geom1D) (f0 f1 : ℚ) (r : Geom2D)
    (h : s.makeFingers (arrangementOp ch) v f0 f1 = .ok r) : r.Proper := by
  unfold InterSide.makeFingers at h
  obtain ⟨res, h1, h⟩ := (bind_ok _ _ _).1 h
  exact union_proper ch hch _ res (fingerLoop_made s f0 f1 _ res h1) r h

/-! ### Operators on the points of the real plane -/

/-- Operands that are only well made. -/
theorem operators_region' (ch : Choices) (hch : ch.Valid) (a b r : Geom2D) (ha : a.WellMade) (hb : b.WellMade)
    (P : Prop → Prop → Prop)
    (h : (Geom2D.or (arrangementOp ch) a b = .ok r ∧ P = Or) ∨ (Geom2D.and (arrangementOp ch) a b = .ok r ∧ P = And) ∨
      (Geom2D.sub (arrangementOp ch) a b = .ok r ∧ P = fun x y => x ∧ ¬ y)) :
    r.WellMade ∧ ∀ᵐ z : ℝ × ℝ, z ∈ r.region ↔ P (z ∈ a.region) (z ∈ b.region) := by
  obtain ⟨h1, h2, h3⟩ := c35_operators ch hch a b ha hb r P h
  refine ⟨h1, ?_⟩
  filter_upwards [near_ae [a, b, r] (by
    intro g hg
    simp only [List.mem_cons, List.not_mem_nil, or_false] at hg
    rcases hg with rfl | rfl | rfl
    · exact ha
    · exact hb
    · exact h1)] with z hz
  obtain ⟨p, hp⟩ := hz
  have sub : ∀ g ∈ [a, b, r], ∀ e ∈ Geom2D.allSegments g, e ∈ [a, b, r].flatMap Geom2D.allSegments := fun g hg e he =>
    List.mem_flatMap.2 ⟨g, hg, he⟩
  have off : ∀ g ∈ [a, b, r], ¬ Geom2D.OnEdge g p := by
    intro g hg hc
    obtain ⟨e, he, hx⟩ := (onEdge_iff g p).2 hc
    exact hp.off ⟨e, sub g hg e he, hx⟩
  rw [hp.region h1 (sub r (by simp)), hp.region ha (sub a (by simp)), hp.region hb (sub b (by simp))]
  exact (h3 p (off a (by simp)) (off b (by simp))).1

theorem operators_region (ch : Choices) (hch : ch.Valid) (a b r : Geom2D) (ha : a.Proper) (hb : b.Proper)
    (P : Prop → Prop → Prop)
    (h : (Geom2D.or (arrangementOp ch) a b = .ok r ∧ P = Or) ∨ (Geom2D.and (arrangementOp ch) a b = .ok r ∧ P = And) ∨
      (Geom2D.sub (arrangementOp ch) a b = .ok r ∧ P = fun x y => x ∧ ¬ y)) :
    r.Proper ∧ ∀ᵐ z : ℝ × ℝ, z ∈ r.region ↔ P (z ∈ a.region) (z ∈ b.region) := by
  refine ⟨?_, (operators_region' ch hch a b r ha.made hb.made P h).2⟩
  have hab : ∀ g ∈ [a, b], Geom2D.WellMade g := by
    intro g hg
    simp only [List.mem_cons, List.not_mem_nil, or_false] at hg
    rcases hg with rfl | rfl
    · exact ha.made
    · exact hb.made
  have key : ∀ op : List Bool → Bool, op [false, false] = false → arrangementOp ch [a, b] op = .ok r → r.Proper :=
    fun op h0 h => arrangementOp_proper ch hch [a, b] op r h0 hab h
  rcases h with ⟨h, _⟩ | ⟨h, _⟩ | ⟨h, _⟩
  · unfold Geom2D.or at h
    split_ifs at h
    · cases h; exact hb
    · cases h; exact ha
    · exact key _ rfl h
  · exact key _ rfl h
  · unfold Geom2D.sub at h
    split_ifs at h
    · cases h; exact ha
    · exact key _ rfl h

theorem region_empty (z : ℝ × ℝ) : z ∉ Geom2D.region [] := by
  rintro ⟨s, hs, _⟩
  exact absurd hs List.not_mem_nil

/-- **C70.** The operations of the code meet the laws under which the sheet build is proved right: the
points of the real plane inside a geom, up to a set of measure zero. -/
theorem c70_lawful (ch : Choices) (hch : ch.Valid) (buffer : Geom2D → ℚ → Except PyErr Geom2D) :
    Lawful (geom2dOps (arrangementOp ch) buffer) (ae (volume : Measure (ℝ × ℝ))) Geom2D.Proper Geom2D.region where
  empty := ⟨proper_empty, Filter.Eventually.of_forall fun z => by
    rintro ⟨s, hs, _⟩
    exact absurd hs List.not_mem_nil⟩
  or a b c ha hb h := operators_region ch hch a b c ha hb Or (Or.inl ⟨h, rfl⟩)
  and a b c ha hb h := operators_region ch hch a b c ha hb And (Or.inr (Or.inl ⟨h, rfl⟩))
  sub a b c ha hb h := operators_region ch hch a b c ha hb _ (Or.inr (Or.inr ⟨h, rfl⟩))
  fingers s v f _ h := makeFingers_proper ch hch s v 0 1 f h
  project s g v _ h := geom2d_projectMade (arrangementOp ch) buffer s g v h
  isEmpty a _ h := by
    have : a = [] := List.length_eq_zero_iff.1 (of_decide_eq_true h)
    rw [this]
    refine Filter.Eventually.of_forall fun z => ?_
    rintro ⟨s, hs, _⟩
    exact absurd hs List.not_mem_nil

/-- **C70.** The area of the code is the Lebesgue measure of the points. -/
theorem c70_area (arr : Geom2D.ArrOp) (buffer : Geom2D → ℚ → Except PyErr Geom2D) :
    LawfulArea (geom2dOps arr buffer) (ae (volume : Measure (ℝ × ℝ))) Geom2D.Proper Geom2D.region
      (fun S => volume S) where
  mono _ _ h := measure_mono h
  union _ _ := measure_union_le _ _
  area a q ha h := (proper_area a ha q h).1
  null S h := by
    rw [ae_iff] at h
    simpa using h

/-! ### Single polygons -/

theorem wellMade_lawful (ch : Choices) (hch : ch.Valid) (buffer : Geom2D → ℚ → Except PyErr Geom2D) :
    Lawful (geom2dOps (arrangementOp ch) buffer) (ae (volume : Measure (ℝ × ℝ))) Geom2D.WellMade Geom2D.region where
  empty := ⟨proper_empty.made, Filter.Eventually.of_forall region_empty⟩
  or a b c ha hb h := operators_region' ch hch a b c ha hb Or (Or.inl ⟨h, rfl⟩)
  and a b c ha hb h := operators_region' ch hch a b c ha hb And (Or.inr (Or.inl ⟨h, rfl⟩))
  sub a b c ha hb h := operators_region' ch hch a b c ha hb _ (Or.inr (Or.inr ⟨h, rfl⟩))
  fingers s v f _ h := (makeFingers_proper ch hch s v 0 1 f h).made
  project s g v _ h := geom2d_projectMade (arrangementOp ch) buffer s g v h
  isEmpty a _ h := by
    have : a = [] := List.length_eq_zero_iff.1 (of_decide_eq_true h)
    rw [this]
    exact Filter.Eventually.of_forall region_empty

theorem pair_wellMade {a b : Geom2D} (ha : a.WellMade) (hb : b.WellMade) : ∀ g ∈ [a, b], Geom2D.WellMade g := by
  intro g hg
  simp only [List.mem_cons, List.not_mem_nil, or_false] at hg
  rcases hg with rfl | rfl
  · exact ha
  · exact hb

/-- The single polygons of a geom. -/
theorem geom2d_polygons (ch : Choices) (hch : ch.Valid) (buffer : Geom2D → ℚ → Except PyErr Geom2D) :
    LawfulPolygons (geom2dOps (arrangementOp ch) buffer) (ae (volume : Measure (ℝ × ℝ))) Geom2D.Proper Geom2D.WellMade
      Geom2D.region where
  lawful := wellMade_lawful ch hch buffer
  weak g h := h.made
  polygons g h p hp := by
    obtain ⟨s, hs, rfl⟩ := List.mem_map.1 hp
    intro t ht
    rw [List.mem_singleton] at ht
    rw [ht]
    exact h.made s hs
  and a b c ha hb h := arrangementOp_proper ch hch [a, b] _ c (by rfl) (pair_wellMade ha hb) h
  sub a b c ha hb h := by
    have h : Geom2D.sub (arrangementOp ch) a b = .ok c := h
    unfold Geom2D.sub at h
    split_ifs at h
    · cases h; exact ha
    · exact arrangementOp_proper ch hch [a, b] _ c (by rfl) (pair_wellMade ha.made hb) h

theorem geom2d_totalArea (arr : Geom2D.ArrOp) (buffer : Geom2D → ℚ → Except PyErr Geom2D) :
    TotalArea (geom2dOps arr buffer) Geom2D.Proper := fun a ha => ⟨_, c31_area a ha.made⟩

/-! ### The sheet build with the 2D operations of the code

The build holds geoms whose polygons cover each point at most once (`Geom2D.Proper`), as every result of a 2D
operation does. -/

variable (ch : Choices) (buffer : Geom2D → ℚ → Except PyErr Geom2D)

/-- C44 with the 2D operations of the code. -/
theorem c44_2d (hch : ch.Valid) (sb sb' : SheetBuild Geom2D) (hg : Good Geom2D.Proper sb) (ops : List (SbOp Geom2D))
    (hm : ∀ op ∈ ops, op.Made1) (hv : ∀ op ∈ ops, op.Valid2 Geom2D.Proper)
    (h : runOps (geom2dOps (arrangementOp ch) buffer) ops sb = .ok sb') :
    Good Geom2D.Proper sb' ∧
    (∀ k, pts sb.interChosen k ⊆ pts sb'.interChosen k) ∧ (∀ k, pts sb'.interOk k ⊆ pts sb.interOk k) ∧
    (∀ k, ∀ᵐ z : ℝ × ℝ, z ∈ dens Geom2D.region sb.sheetChosen k → z ∈ dens Geom2D.region sb'.sheetChosen k) ∧
    (∀ k, ∀ᵐ z : ℝ × ℝ, z ∈ dens Geom2D.region sb'.sheetOk k → z ∈ dens Geom2D.region sb.sheetOk k) :=
  c44_monotone (c70_lawful ch hch buffer) sb sb' hg ops hm hv h

/-- C45 for sheets with the 2D operations of the code. -/
theorem c45_2d (hch : ch.Valid) (sb sb' : SheetBuild Geom2D) (hg : Good Geom2D.Proper sb) (ops : List (SbOp Geom2D))
    (hm : ∀ op ∈ ops, op.Made1) (hv : ∀ op ∈ ops, op.Valid2 Geom2D.Proper)
    (h : runOps (geom2dOps (arrangementOp ch) buffer) ops sb = .ok sb') (k : Name) :
    volume (dens Geom2D.region sb'.sheetChosen k \ dens Geom2D.region sb'.sheetOk k) ≤
      volume (dens Geom2D.region sb.sheetChosen k \ dens Geom2D.region sb.sheetOk k) +
        (nChoose ops * ENNReal.ofReal (tol6 : ℝ) + nAreas ops * ENNReal.ofReal (tol5 : ℝ)) :=
  c45_sheet (c70_lawful ch hch buffer) (c70_area _ buffer) sb sb' hg ops hm hv h k

/-- C62 with the 2D operations of the code: a choice is accepted exactly when it is within the tolerances
and no 2D operation called raises. -/
theorem c62_2d (hch : ch.Valid) (sb : SheetBuild Geom2D) (hg : Good Geom2D.Proper sb) (hf : Full sb)
    (id : Name × Name) (s t : InterSide) (hs : sb.sheetplex.interside id = .ok s)
    (ht : s.opposite sb.sheetplex = .ok t) (v : Geom1D) (hv : Geom1D.Made v) (tentative : Bool) :
    (∃ sb', sb.chooseInterside (geom2dOps (arrangementOp ch) buffer) id v tentative = .ok sb') ↔
      volume (pointsOf v.intervals \ pts sb.interOk id) < ENNReal.ofReal (tol6 : ℝ) ∧
      (∀ F, t.makeFingers (arrangementOp ch) v 0 1 = .ok F →
        volume (F.region ∩ dens Geom2D.region sb.sheetChosen t.sheet) < ENNReal.ofReal (tol6 : ℝ)) ∧
      ChooseCalls (geom2dOps (arrangementOp ch) buffer) sb s t v tentative :=
  c62_exact (c70_lawful ch hch buffer) (c70_area _ buffer) (geom2d_totalArea _ buffer) sb hg hf id s t hs ht v hv tentative

/-- C63 with the 2D operations of the code. -/
theorem c63_2d (hch : ch.Valid) (sb : SheetBuild Geom2D) (hg : Good Geom2D.Proper sb) (hf : Full sb)
    (hs : ∀ e ∈ sb.sheetplex.sheets, (∃ g, sb.sheetChosen.get? e.2.id = some g) ∧ ∃ g, sb.sheetOk.get? e.2.id = some g) :
    sb.check (geom2dOps (arrangementOp ch) buffer) = .ok () ↔ CheckCalls (geom2dOps (arrangementOp ch) buffer) sb ∧
    (∀ e ∈ sb.sheetplex.sheets,
      volume (dens Geom2D.region sb.sheetChosen e.2.id \ dens Geom2D.region sb.sheetOk e.2.id) <
        ENNReal.ofReal (tol7 : ℝ)) ∧
    ∀ s t, Joint sb.sheetplex s t →
      volume (pts sb.interChosen s.id \ pts sb.interOk s.id) < ENNReal.ofReal (tol7 : ℝ) ∧
      pts sb.interChosen s.id ∩ pts sb.interOk t.id = ∅ ∧
      ∀ v f, sb.interOk.get? t.id = some v → s.makeFingers (arrangementOp ch) v 0 1 = .ok f →
        volume (dens Geom2D.region sb.sheetChosen s.sheet ∩ f.region) < ENNReal.ofReal (tol3 : ℝ) :=
  c63_exact (c70_lawful ch hch buffer) (c70_area _ buffer) (geom2d_totalArea _ buffer) sb hg hf hs

/-- C51 with the 2D operations of the code: unless a 2D operation raises, only `check` can stop the choice. -/
theorem c51_2d (hch : ch.Valid) (el : ℕ → Bool) (n : ℕ) (sb : SheetBuild Geom2D) (hg : Good Geom2D.Proper sb)
    (hf : Full sb) (s t : InterSide) (hj : Joint sb.sheetplex s t)
    (hopp : ∀ v F, Geom1D.Made v → pointsOf v.intervals = broad (onlyHere sb s t) →
      t.makeFingers (arrangementOp ch) v 0 1 = .ok F →
      volume (F.region ∩ dens Geom2D.region sb.sheetChosen t.sheet) < ENNReal.ofReal (tol6 : ℝ))
    (calls : ∀ v, Geom1D.Made v → pointsOf v.intervals = broad (onlyHere sb s t) →
      ChooseCalls (geom2dOps (arrangementOp ch) buffer) sb s t v false) :
    ∃ sb', Heu.okSideAt (geom2dOps (arrangementOp ch) buffer) el n sb s =
      (Heu.checkAt (geom2dOps (arrangementOp ch) buffer) el n sb' >>= fun _ => .ok sb') ∧
      Good Geom2D.Proper sb' ∧ Full sb' :=
  c51_calls (c70_lawful ch hch buffer) (c70_area _ buffer) (geom2d_totalArea _ buffer) el n sb hg hf s t hj hopp calls

/-- C52 with the 2D operations of the code, one sheet of `remove_loose`: the allowed area loses exactly some
whole polygons of the possible area, each off the support and overlapping what is chosen in less than 1e-2; the
other polygons meet the support. -/
theorem c52_loose_2d (hch : ch.Valid) (geoms : Name → SheetGeoms Geom2D) (hgm : ValidGeoms Geom2D.Proper geoms)
    (e : Name × Sheet) (sb sb' : SheetBuild Geom2D) (hg : Good Geom2D.Proper sb)
    (h : Heu.looseSheet (geom2dOps (arrangementOp ch) buffer) geoms sb e = .ok sb') :
    Shrunk (ae (volume : Measure (ℝ × ℝ))) Geom2D.Proper Geom2D.region sb sb' ∧
    (∀ k, k ≠ e.2.id → sb'.sheetOk.get? k = sb.sheetOk.get? k) ∧
    ∃ (c ok possible : Geom2D) (qs : List Geom2D), sb.sheetChosen.get? e.2.id = some c ∧
      sb.sheetOk.get? e.2.id = some ok ∧ Geom2D.or (arrangementOp ch) c ok = .ok possible ∧
      qs.Sublist (Geom2D.polygons possible) ∧
      (∀ᵐ z : ℝ × ℝ, z ∈ dens Geom2D.region sb'.sheetOk e.2.id ↔ z ∈ ok.region ∧ ∀ q ∈ qs, z ∉ q.region) ∧
      (∀ q ∈ qs, (∀ᵐ z : ℝ × ℝ, ¬ (z ∈ q.region ∧ z ∈ (geoms e.2.id).face0.region ∧ z ∈ (geoms e.2.id).face1.region)) ∧
        volume (c.region ∩ q.region) < ENNReal.ofReal (Heu.tol2 : ℝ)) ∧
      ∀ q ∈ Geom2D.polygons possible, q ∉ qs → ∃ support m,
        Geom2D.and (arrangementOp ch) (geoms e.2.id).face0 (geoms e.2.id).face1 = .ok support ∧
        Geom2D.and (arrangementOp ch) q support = .ok m ∧ Geom2D.isEmpty m = false :=
  c52_loose_sheet (c70_lawful ch hch buffer) (c70_area _ buffer) (geom2d_polygons ch hch buffer) geoms hgm e sb sb' hg h

/-- C37 with the 2D operations of the code. -/
theorem c37_union_2d (hch : ch.Valid) (s : InterSide) (h : s.Proper) (f0 f1 : ℚ)
    (hf : f0 < f1) (w : Geom1D) (hw : w.Made) (hb : Bornology.IsBounded (pointsOf w.intervals)) (r : Geom2D)
    (hr : s.makeFingers (arrangementOp ch) w f0 f1 = .ok r) :
    r.Proper ∧
    (∀ al nc, (∃ iv ∈ w.intervals, iv.1 < Ext.fin al ∧ Ext.fin al < iv.2) →
      s.acrossAt f0 < nc → nc < s.acrossAt f1 → Geom2D.locate r (s.point al nc) = .ok 1) ∧
    (∀ al nc, r.OnEdge (s.point al nc) ∨ Geom2D.locate r (s.point al nc) = .ok 1 →
      (∃ iv ∈ w.intervals, iv.1 ≤ Ext.fin al ∧ Ext.fin al ≤ iv.2) ∧
      s.acrossAt f0 ≤ nc ∧ nc ≤ s.acrossAt f1) :=
  ⟨makeFingers_proper ch hch s w f0 f1 r hr,
    (c37_union _ (arrangementOp_sound ch hch) s h f0 f1 hf w hw hb r hr).2⟩

/-- C37 with the 2D operations of the code: projecting back. -/
theorem c37_roundtrip_2d (hch : ch.Valid) (s : InterSide) (h : s.Proper)
    (hu : s.direction.1 ^ 2 + s.direction.2 ^ 2 = 1) (f0 f1 : ℚ)
    (hf : f0 < f1) (w : Geom1D) (hw : w.Made) (hb : Bornology.IsBounded (pointsOf w.intervals)) (r : Geom2D)
    (hr : s.makeFingers (arrangementOp ch) w f0 f1 = .ok r) : s.projectTo1d r = .ok w :=
  c37_roundtrip _ (arrangementOp_sound ch hch) s h hu f0 f1 hf w hw hb r hr


end Ply
