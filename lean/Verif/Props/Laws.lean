import Verif.Props.Rings
import Verif.Props.BufferDist
import Verif.Props.Total

/-!
# Every law of sets holds for the 2D operators

Two ways of writing the same set with `|`, `&`, `-` and `union` give geoms that agree at every point, edges included,
whatever order the sets inside the operators are gone through in, and that look the same to everything that reads them:
`locate`, `area`, `is_empty`, `project_to_1d` and, without polygons in holes of others, `buffer`.
-/

namespace Ply

open Arr Filter Topology MeasureTheory

/-- Two geoms agree at every point. -/
def Geom2D.Same (a b : Geom2D) : Prop := ∀ p, Geom2D.locate a p = Geom2D.locate b p

/-! ### Geoms that agree -/

theorem locate_eq {a b : Geom2D} (ha : a.WellMade) (hb : b.WellMade) {p : Pt} (h1 : a.Has p ↔ b.Has p)
    (h2 : Geom2D.locate a p = .ok 1 ↔ Geom2D.locate b p = .ok 1) : Geom2D.locate a p = Geom2D.locate b p := by
  by_cases h : Geom2D.locate a p = .ok 1
  · rw [h, h2.1 h]
  by_cases h' : a.Has p
  · have e1 : Geom2D.locate a p = .ok 0 := h'.resolve_left h
    have e2 : Geom2D.locate b p = .ok 0 := (h1.1 h').resolve_left fun hc => h (h2.2 hc)
    rw [e1, e2]
  · rw [(not_has ha p).1 h', (not_has hb p).1 fun hc => h' (h1.2 hc)]

/-- It is enough to agree off the edges. -/
theorem same_of_off {a b : Geom2D} (ha : a.Fine) (hb : b.Fine) (S : List Seg)
    (h : ∀ p, ¬ OnAny S p → (Geom2D.locate a p = .ok 1 ↔ Geom2D.locate b p = .ok 1)) : a.Same b := by
  have has : ∀ {a b : Geom2D}, a.Fine → b.Fine →
      (∀ p, ¬ OnAny S p → (Geom2D.locate a p = .ok 1 → Geom2D.locate b p = .ok 1)) → ∀ p, a.Has p → b.Has p := by
    intro a b ha hb h p hp
    by_contra hc
    obtain ⟨v, v1, v2, v3⟩ := ha.near_in S hp (stable_outside hb.proper.made p) (by
      rw [add_zero]; exact (not_has hb.proper.made p).1 hc)
    rw [h _ v3 v2] at v1; cases v1
  have ins : ∀ {a b : Geom2D}, a.Fine → b.Fine →
      (∀ p, ¬ OnAny S p → (Geom2D.locate a p = .ok 1 → Geom2D.locate b p = .ok 1)) →
      ∀ p, Geom2D.locate a p = .ok 1 → Geom2D.locate b p = .ok 1 := by
    intro a b ha hb h p hp
    by_contra hc
    obtain ⟨v, v1, v2, v3⟩ := hb.near_out S hc (stable_inside ha.proper.made p) (by rw [add_zero]; exact hp)
    rw [h _ v3 v1] at v2; cases v2
  intro p
  exact locate_eq ha.proper.made hb.proper.made
    ⟨has ha hb (fun q hq => (h q hq).1) p, has hb ha (fun q hq => (h q hq).2) p⟩
    ⟨ins ha hb (fun q hq => (h q hq).1) p, ins hb ha (fun q hq => (h q hq).2) p⟩

/-- It is enough to have the same points. -/
theorem same_of_has {a b : Geom2D} (ha : a.Fine) (hb : b.Fine) (h : ∀ p, a.Has p ↔ b.Has p) : a.Same b := by
  refine same_of_off ha hb (a.allSegments ++ b.allSegments) fun p hp => ?_
  obtain ⟨n1, n2⟩ := off_pair hp
  have e := h p
  rw [ha.crisp.has ha.proper.made, hb.crisp.has hb.proper.made] at e
  simpa [n1, n2] using e

theorem Geom2D.Same.has {a b : Geom2D} (h : a.Same b) (p : Pt) : a.Has p ↔ b.Has p := by
  unfold Geom2D.Has; rw [h p]

theorem Geom2D.Same.symm {a b : Geom2D} (h : a.Same b) : b.Same a := fun p => (h p).symm

/-- A point of every polygon. -/
theorem has_some {g : Geom2D} (hg : g.Fine) (hne : g ≠ []) : ∃ p, g.Has p := by
  obtain ⟨s, hs⟩ := List.exists_mem_of_ne_nil _ hne
  have hw := ((SPWH.mk'_iff _ _ _).1 (hg.proper.made s hs)).2.wf.1
  obtain ⟨q, hq⟩ := List.exists_mem_of_ne_nil _ hw
  refine ⟨q, (hg.crisp.has hg.proper.made q).2 (Or.inr ⟨s, hs, Or.inl ?_⟩)⟩
  obtain ⟨e, he, rfl⟩ := polyEdges_fst hq
  exact ⟨e, he, onSeg_left e⟩

theorem project_sub {a b : Geom2D} (ha : a.Fine) (hb : b.Fine) (hab : ∀ p, a.Has p → b.Has p) (v : Pt) (offs : ℚ)
    {ra rb : Geom1D} (h1 : Geom2D.projectTo1d a v offs = .ok ra) (h2 : Geom2D.projectTo1d b v offs = .ok rb) {x : ℝ}
    (hx : x ∈ pointsOf ra.intervals) : x ∈ pointsOf rb.intervals := by
  obtain ⟨r, e1, -, e3⟩ := c36_succeeds a ha.proper.made v offs
  rw [h1] at e1; cases e1
  obtain ⟨r, f1, -, f3⟩ := c36_succeeds b hb.proper.made v offs
  rw [h2] at f1; cases f1
  by_contra hc
  -- nothing of the other shadow is just above
  obtain ⟨y, hy, hgap⟩ : ∃ y : ℝ, x < y ∧ ∀ z, x ≤ z → z < y → z ∉ pointsOf rb.intervals := by
    have hev : ∀ᶠ z in 𝓝[>] x, z ∉ pointsOf rb.intervals := by
      have : ∀ s ∈ b, ∀ᶠ z in 𝓝[>] x, ¬ ((∃ p ∈ s.outer, ((shadow v offs p : ℚ) : ℝ) ≤ z) ∧
          ∃ q ∈ s.outer, z < ((shadow v offs q : ℚ) : ℝ)) := by
        intro s hs
        have hx' : ¬ ((∃ p ∈ s.outer, ((shadow v offs p : ℚ) : ℝ) ≤ x) ∧
            ∃ q ∈ s.outer, x < ((shadow v offs q : ℚ) : ℝ)) := fun h => hc ((f3 x).2 ⟨s, hs, h⟩)
        by_cases hp : ∃ p ∈ s.outer, ((shadow v offs p : ℚ) : ℝ) ≤ x
        · have hq : ∀ q ∈ s.outer, ((shadow v offs q : ℚ) : ℝ) ≤ x := fun q hq => not_lt.1 fun h => hx' ⟨hp, q, hq, h⟩
          filter_upwards [self_mem_nhdsWithin] with z hz
          rintro ⟨-, q, hq', hlt⟩
          exact absurd (hq q hq') (not_le.2 ((Set.mem_Ioi.1 hz).trans hlt))
        · push Not at hp
          have : ∀ᶠ z in 𝓝 x, ∀ p ∈ s.outer.toFinset, z < ((shadow v offs p : ℚ) : ℝ) := by
            rw [eventually_all_finset]
            intro p hp'
            exact eventually_lt_nhds (hp p (List.mem_toFinset.1 hp'))
          filter_upwards [nhdsWithin_le_nhds this] with z hz
          rintro ⟨⟨p, hp', hle⟩, -⟩
          exact absurd hle (not_le.2 (hz p (List.mem_toFinset.2 hp')))
      have hall : ∀ᶠ z in 𝓝[>] x, ∀ s ∈ {s | s ∈ b}, ¬ ((∃ p ∈ s.outer, ((shadow v offs p : ℚ) : ℝ) ≤ z) ∧
          ∃ q ∈ s.outer, z < ((shadow v offs q : ℚ) : ℝ)) := (List.finite_toSet b).eventually_all.2 this
      filter_upwards [hall] with z hz hzc
      obtain ⟨s, hs, h⟩ := (f3 z).1 hzc
      exact hz s hs h
    obtain ⟨y, hy, h⟩ := (mem_nhdsGT_iff_exists_Ioo_subset).1 hev
    refine ⟨y, hy, fun z hz hzy => ?_⟩
    rcases hz.lt_or_eq with hlt | rfl
    · exact h ⟨hlt, hzy⟩
    · exact hc
  obtain ⟨s, hs, ⟨p, hp, hpx⟩, q, hq, hqx⟩ := (e3 x).1 hx
  obtain ⟨t, ht1, ht2⟩ := exists_rat_btwn (lt_min hy hqx)
  have htm : (t : ℝ) ∈ pointsOf ra.intervals := (e3 t).2 ⟨s, hs, ⟨p, hp, hpx.trans ht1.le⟩, q, hq, ht2.trans_le (min_le_right _ _)⟩
  obtain ⟨s', hs', m, hm, hmt⟩ := c36_attained a ha.proper.made v offs ra h1 t htm
  have hv : v.1 ≠ 0 ∨ v.2 ≠ 0 := by
    by_contra hz
    push Not at hz
    have : ∀ p, shadow v offs p = offs := fun p => by unfold shadow; rw [hz.1, hz.2]; ring
    rw [this] at hpx hqx
    exact absurd hqx (not_lt.2 hpx)
  have hst : Stable fun w => x < ((shadow v offs (m + w) : ℚ) : ℝ) ∧ ((shadow v offs (m + w) : ℚ) : ℝ) < y := by
    intro w hw u
    have hcont : Continuous fun ε : ℚ => ((shadow v offs (m + (w + ε • u)) : ℚ) : ℝ) := by
      unfold shadow
      refine Rat.continuous_coe_real.comp ?_
      fun_prop
    have h0 : ((shadow v offs (m + (w + (0 : ℚ) • u)) : ℚ) : ℝ) ∈ Set.Ioo x y := by rw [zero_smul, add_zero]; exact hw
    exact nhdsWithin_le_nhds (hcont.continuousAt.eventually_mem (isOpen_Ioo.mem_nhds h0))
  have hmh : a.Has m := (ha.crisp.has ha.proper.made m).2 (Or.inr ⟨s', hs', Or.inl hm⟩)
  have hmb := hab m hmh
  obtain ⟨w, ⟨w1, w2⟩, w3, -⟩ := hb.near_in [] hmb hst (by
    rw [add_zero, hmt]; exact ⟨ht1, ht2.trans_le (min_le_left _ _)⟩)
  exact hgap _ w1.le w2 ((c36_covers b hb.proper.made v offs rb h2).1 _ hv w3)

/-- **C94.** Geoms that agree at every point look the same to everything that reads them. -/
theorem c94_read {a b : Geom2D} (ha : a.Fine) (hb : b.Fine) (h : a.Same b) :
    Geom2D.area a = Geom2D.area b ∧ Geom2D.isEmpty a = Geom2D.isEmpty b ∧
      ∀ v offs, Geom2D.projectTo1d a v offs = Geom2D.projectTo1d b v offs := by
  refine ⟨?_, ?_, ?_⟩
  · have e1 := c31_area a ha.proper.made
    have e2 := c31_area b hb.proper.made
    obtain ⟨a1, a2⟩ := proper_area a ha.proper _ e1
    obtain ⟨b1, b2⟩ := proper_area b hb.proper _ e2
    rw [e1, e2]
    congr 1
    apply ofReal_inj_rat a2 b2
    rw [← a1, ← b1]
    refine measure_congr ?_
    filter_upwards [has_region ha hb fun p => (h.has p).1, has_region hb ha fun p => (h.has p).2] with z h1 h2
    exact propext ⟨h1, h2⟩
  · have key : ∀ {a b : Geom2D}, b.Fine → a.Same b → a = [] → b = [] := by
      intro a b hb h e
      by_contra hc
      obtain ⟨p, hp⟩ := has_some hb hc
      have := (h.has p).2 hp
      rw [e] at this
      rcases this with h | h <;> cases h
    unfold Geom2D.isEmpty
    rw [decide_eq_decide, List.length_eq_zero_iff, List.length_eq_zero_iff]
    exact ⟨key hb h, key ha h.symm⟩
  · intro v offs
    obtain ⟨ra, e1, e2, -⟩ := c36_succeeds a ha.proper.made v offs
    obtain ⟨rb, f1, f2, -⟩ := c36_succeeds b hb.proper.made v offs
    rw [e1, f1]
    congr 1
    refine Geom1D.c03_canonical ra rb ((Geom1D.made_iff_nf _).2 e2) ((Geom1D.made_iff_nf _).2 f2) fun x => ?_
    exact ⟨project_sub ha hb (fun p => (h.has p).1) v offs e1 f1, project_sub hb ha (fun p => (h.has p).2) v offs f1 e1⟩

/-- **C94.** They stay so when they are grown or shrunk, if neither has a polygon in a hole of another. -/
theorem c94_buffer {ch ch' : Choices} (hch : ch.Valid) (hch' : ch'.Valid) {sq : ℚ → ℚ} (hsq : RootLike sq)
    (hone : sq 1 = 1) {a b ra rb : Geom2D} (ha : a.Fine) (hb : b.Fine) (h : a.Same b) (na : a.NoIslands) (nb : b.NoIslands)
    {amount : ℚ} (hne : amount ≠ 0) (h1 : Geom2D.bufferBy (arrangementOp ch) sq a amount = .ok ra)
    (h2 : Geom2D.bufferBy (arrangementOp ch') sq b amount = .ok rb) : ra.Same rb := by
  have fa := buffer_fine' ch hch hsq ha h1
  have fb := buffer_fine' ch' hch' hsq hb h2
  rcases lt_or_gt_of_ne hne with h0 | h0
  · refine same_of_off fa fb [] fun p _ => ?_
    rw [c72_shrink ch hch hsq ha h1 hone h0 na, c72_shrink ch' hch' hsq hb h2 hone h0 nb]
    simp only [h _]
  · refine same_of_has fa fb fun p => ?_
    rw [c71_grow ch hch hsq ha h1 hone h0 na, c71_grow ch' hch' hsq hb h2 hone h0 nb]
    simp only [h.has]

/-! ### Expressions -/

/-- A set written with the operators. -/
inductive PlaneExpr
  | var (n : ℕ)
  | empty
  | or (a b : PlaneExpr)
  | and (a b : PlaneExpr)
  | sub (a b : PlaneExpr)

/-- Whether a point is in the set, from the sets that it is in. -/
def PlaneExpr.holds (v : ℕ → Prop) : PlaneExpr → Prop
  | .var n => v n
  | .empty => False
  | .or a b => a.holds v ∨ b.holds v
  | .and a b => a.holds v ∧ b.holds v
  | .sub a b => a.holds v ∧ ¬ b.holds v

/-- The code computes `r` for the expression; every operation may go through its sets in its own order. -/
inductive Computes (env : ℕ → Geom2D) : PlaneExpr → Geom2D → Prop
  | var (n : ℕ) : Computes env (.var n) (env n)
  | empty : Computes env .empty []
  | or {a b : PlaneExpr} {x y r : Geom2D} (ch : Choices) (hch : ch.Valid) (hx : Computes env a x) (hy : Computes env b y)
      (h : Geom2D.or (arrangementOp ch) x y = .ok r) : Computes env (.or a b) r
  | and {a b : PlaneExpr} {x y r : Geom2D} (ch : Choices) (hch : ch.Valid) (hx : Computes env a x) (hy : Computes env b y)
      (h : Geom2D.and (arrangementOp ch) x y = .ok r) : Computes env (.and a b) r
  | sub {a b : PlaneExpr} {x y r : Geom2D} (ch : Choices) (hch : ch.Valid) (hx : Computes env a x) (hy : Computes env b y)
      (h : Geom2D.sub (arrangementOp ch) x y = .ok r) : Computes env (.sub a b) r

theorem computes_spec {env : ℕ → Geom2D} (he : ∀ n, (env n).Fine) {e : PlaneExpr} {r : Geom2D} (h : Computes env e r) :
    r.Fine ∧ ∃ S : List Seg, ∀ p, ¬ OnAny S p →
      (Geom2D.locate r p = .ok 1 ↔ e.holds fun n => Geom2D.locate (env n) p = .ok 1) := by
  have off : ∀ {S T : List Seg} {x y : Geom2D} {p : Pt}, ¬ OnAny (S ++ T ++ (x.allSegments ++ y.allSegments)) p →
      ¬ OnAny S p ∧ ¬ OnAny T p ∧ ¬ x.OnEdge p ∧ ¬ y.OnEdge p := by
    intro S T x y p hp
    refine ⟨fun hc => hp (hc.mono fun s hs => ?_), fun hc => hp (hc.mono fun s hs => ?_),
      off_pair fun hc => hp (hc.mono fun s hs => ?_)⟩ <;> simp_all
  induction h with
  | var n => exact ⟨he n, [], fun p _ => Iff.rfl⟩
  | empty => exact ⟨fine_empty, [], fun p _ => ⟨fun h => (by cases h), fun h => False.elim h⟩⟩
  | @or a b x y r ch hch hx hy h ihx ihy =>
    obtain ⟨fx, S, hS⟩ := ihx
    obtain ⟨fy, T, hT⟩ := ihy
    refine ⟨or_fine ch hch fx fy h, S ++ T ++ (x.allSegments ++ y.allSegments), fun p hp => ?_⟩
    obtain ⟨p1, p2, p3, p4⟩ := off hp
    rw [((c35_operators ch hch _ _ fx.proper.made fy.proper.made _ Or (Or.inl ⟨h, rfl⟩)).2.2 p p3 p4).1, hS p p1, hT p p2]
    rfl
  | @and a b x y r ch hch hx hy h ihx ihy =>
    obtain ⟨fx, S, hS⟩ := ihx
    obtain ⟨fy, T, hT⟩ := ihy
    refine ⟨and_fine ch hch fx.usable fy.usable h, S ++ T ++ (x.allSegments ++ y.allSegments), fun p hp => ?_⟩
    obtain ⟨p1, p2, p3, p4⟩ := off hp
    rw [((c35_operators ch hch _ _ fx.proper.made fy.proper.made _ And (Or.inr (Or.inl ⟨h, rfl⟩))).2.2 p p3 p4).1, hS p p1,
      hT p p2]
    rfl
  | @sub a b x y r ch hch hx hy h ihx ihy =>
    obtain ⟨fx, S, hS⟩ := ihx
    obtain ⟨fy, T, hT⟩ := ihy
    refine ⟨sub_fine ch hch fx fy.usable h, S ++ T ++ (x.allSegments ++ y.allSegments), fun p hp => ?_⟩
    obtain ⟨p1, p2, p3, p4⟩ := off hp
    rw [((c35_operators ch hch _ _ fx.proper.made fy.proper.made _ (fun x y => x ∧ ¬ y) (Or.inr (Or.inr ⟨h, rfl⟩))).2.2 p p3
      p4).1, hS p p1, hT p p2]
    rfl

theorem holds_congr {v w : ℕ → Prop} (h : ∀ n, v n ↔ w n) (e : PlaneExpr) : e.holds v ↔ e.holds w := by
  have : v = w := funext fun n => propext (h n)
  rw [this]

/-- **C94.** If two expressions are the same set for all sets, then what the code computes for them agrees at every point,
edges included; operands that agree may be exchanged, and the orders of the sets inside do not matter. -/
theorem c94_laws {e f : PlaneExpr} (hef : ∀ v : ℕ → Prop, e.holds v ↔ f.holds v) {env env' : ℕ → Geom2D}
    (he : ∀ n, (env n).Fine) (he' : ∀ n, (env' n).Fine) (hs : ∀ n, (env n).Same (env' n)) {r r' : Geom2D}
    (h : Computes env e r) (h' : Computes env' f r') : r.Fine ∧ r'.Fine ∧ r.Same r' := by
  obtain ⟨f1, S, hS⟩ := computes_spec he h
  obtain ⟨f2, T, hT⟩ := computes_spec he' h'
  refine ⟨f1, f2, same_of_off f1 f2 (S ++ T) fun p hp => ?_⟩
  rw [hS p fun hc => hp (hc.mono fun s hs => List.mem_append_left _ hs),
    hT p fun hc => hp (hc.mono fun s hs => List.mem_append_right _ hs), hef]
  exact holds_congr (fun n => by rw [hs n p]) f

/-- An expression without `|`. -/
def PlaneExpr.orFree : PlaneExpr → Prop
  | .var _ => True
  | .empty => True
  | .or _ _ => False
  | .and a b => a.orFree ∧ b.orFree
  | .sub a b => a.orFree ∧ b.orFree

/-- **C94.** Without `|` there is always a result. -/
theorem c94_total (ch : Choices) (hch : ch.Valid) {env : ℕ → Geom2D} (he : ∀ n, (env n).Fine) {e : PlaneExpr}
    (h : e.orFree) : ∃ r, Computes env e r := by
  induction e with
  | var n => exact ⟨_, .var n⟩
  | empty => exact ⟨_, .empty⟩
  | or a b => exact h.elim
  | and a b iha ihb =>
    obtain ⟨x, hx⟩ := iha h.1
    obtain ⟨y, hy⟩ := ihb h.2
    obtain ⟨r, hr, -⟩ := c85_and ch hch x y (computes_spec he hx).1 (computes_spec he hy).1
    exact ⟨r, .and ch hch hx hy hr⟩
  | sub a b iha ihb =>
    obtain ⟨x, hx⟩ := iha h.1
    obtain ⟨y, hy⟩ := ihb h.2
    obtain ⟨r, hr, -⟩ := c85_sub ch hch x y (computes_spec he hx).1 (computes_spec he hy).1
    exact ⟨r, .sub ch hch hx hy hr⟩

/-- **C94.** `union` depends only on which geoms are there: not on their order, on repetitions, or on the grouping, also
when geoms are exchanged for others that agree with them. -/
theorem c94_union {ch ch' : Choices} (hch : ch.Valid) (hch' : ch'.Valid) {gs gs' : List Geom2D}
    (hg : ∀ g ∈ gs, Geom2D.Fine g) (hg' : ∀ g ∈ gs', Geom2D.Fine g) (h1 : ∀ g ∈ gs, ∃ g' ∈ gs', Geom2D.Same g g')
    (h2 : ∀ g' ∈ gs', ∃ g ∈ gs, Geom2D.Same g g') {fuel fuel' : ℕ} (hf : gs.length + 4 ≤ fuel)
    (hf' : gs'.length + 4 ≤ fuel') {r r' : Geom2D} (h : Geom2D.union (arrangementOp ch) fuel gs = .ok r)
    (h' : Geom2D.union (arrangementOp ch') fuel' gs' = .ok r') : r.Same r' := by
  refine same_of_has (union_fine ch hch fuel gs (fun g k => (hg g k).usable) r h)
    (union_fine ch' hch' fuel' gs' (fun g k => (hg' g k).usable) r' h') fun p => ?_
  rw [c78_union ch hch gs hg fuel hf h, c78_union ch' hch' gs' hg' fuel' hf' h']
  constructor
  · rintro ⟨g, k, hp⟩
    obtain ⟨g', k', e⟩ := h1 g k
    exact ⟨g', k', (e.has p).1 hp⟩
  · rintro ⟨g', k', hp⟩
    obtain ⟨g, k, e⟩ := h2 g' k'
    exact ⟨g, k, (e.has p).2 hp⟩

/-! ### Examples -/

/-- Some laws. -/
example {ch ch' : Choices} (hch : ch.Valid) (hch' : ch'.Valid) {a b c u x y z : Geom2D} (ha : a.Fine) (hb : b.Fine)
    (hc : c.Fine) (h1 : Geom2D.or (arrangementOp ch) b c = .ok u) (h2 : Geom2D.sub (arrangementOp ch) a u = .ok x)
    (h3 : Geom2D.sub (arrangementOp ch') a b = .ok y) (h4 : Geom2D.sub (arrangementOp ch') y c = .ok z) :
    x.Same z ∧ Geom2D.area x = Geom2D.area z := by
  set env : ℕ → Geom2D := fun n => if n = 0 then a else if n = 1 then b else c with henv
  have he : ∀ n, (env n).Fine := by
    intro n
    rw [henv]
    dsimp only
    split_ifs <;> assumption
  obtain ⟨f1, f2, hs⟩ := c94_laws (e := .sub (.var 0) (.or (.var 1) (.var 2))) (f := .sub (.sub (.var 0) (.var 1)) (.var 2))
    (by intro v; simp only [PlaneExpr.holds]; tauto) he he (fun _ _ => rfl)
    (.sub ch hch (.var 0) (.or ch hch (.var 1) (.var 2) h1) h2)
    (.sub ch' hch' (.sub ch' hch' (.var 0) (.var 1) h3) (.var 2) h4)
  exact ⟨hs, (c94_read f1 f2 hs).1⟩

/-- What is left of a geom without itself is nothing at all. -/
example (ch : Choices) (hch : ch.Valid) {r : Geom2D}
    (h : Geom2D.sub (arrangementOp ch) frameLeft frameLeft = .ok r) : r = [] := by
  obtain ⟨f1, f2, hs⟩ := c94_laws (e := .sub (.var 0) (.var 0)) (f := .empty)
    (env := fun _ => frameLeft) (env' := fun _ => frameLeft)
    (by intro v; simp only [PlaneExpr.holds]; tauto) (fun _ => frameLeft_fine) (fun _ => frameLeft_fine) (fun _ _ => rfl)
    (.sub ch hch (.var 0) (.var 0) h) .empty
  have := (c94_read f1 f2 hs).2.1
  unfold Geom2D.isEmpty at this
  rw [decide_eq_decide, List.length_eq_zero_iff] at this
  exact this.2 rfl

/-- Taking the difference twice gives the common part: the results exist and agree. -/
example (ch : Choices) (hch : ch.Valid) : ∃ d r i, Geom2D.sub (arrangementOp ch) frameLeft rightNub = .ok d ∧
    Geom2D.sub (arrangementOp ch) frameLeft d = .ok r ∧ Geom2D.and (arrangementOp ch) frameLeft rightNub = .ok i ∧
    r.Same i := by
  obtain ⟨d, hd, fd, -⟩ := c85_sub ch hch _ _ frameLeft_fine rightNub_fine
  obtain ⟨r, hr, -⟩ := c85_sub ch hch _ _ frameLeft_fine fd
  obtain ⟨i, hi, -⟩ := c85_and ch hch _ _ frameLeft_fine rightNub_fine
  refine ⟨d, r, i, hd, hr, hi, ?_⟩
  have he : ∀ n : ℕ, Geom2D.Fine (if n = 0 then frameLeft else rightNub) := by
    intro n; split_ifs
    · exact frameLeft_fine
    · exact rightNub_fine
  exact (c94_laws (e := .sub (.var 0) (.sub (.var 0) (.var 1))) (f := .and (.var 0) (.var 1))
    (env := fun n => if n = 0 then frameLeft else rightNub) (env' := fun n => if n = 0 then frameLeft else rightNub)
    (by intro v; simp only [PlaneExpr.holds]; tauto) he he (fun _ _ => rfl)
    (.sub ch hch (.var 0) (.sub ch hch (.var 0) (.var 1) hd) hr) (.and ch hch (.var 0) (.var 1) hi)).2.2

end Ply
