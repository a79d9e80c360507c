import Verif.Proofs.Geom1D

/-! # C01–C11: one-dimensional geometry -/

namespace Ply
namespace Geom1D
open MeasureTheory

/-- "`g` is a `Geom1D` object": some constructor call returned it.  Every operator of the class
returns through the constructor. -/
def Made (g : Geom1D) : Prop := ∃ raw, construct raw = .ok g

theorem Made.nf {g : Geom1D} (h : Made g) : NormalForm g.intervals := by
  obtain ⟨raw, hr⟩ := h
  obtain ⟨_, _, h1, _⟩ := construct_ok hr
  exact h1

theorem made_iff_nf (g : Geom1D) : Made g ↔ NormalForm g.intervals :=
  ⟨Made.nf, fun h => ⟨_, construct_of_nf h⟩⟩

/-- Sample values used in the examples: `[-1, 2) ∪ [3, ∞)` and `[0, 1)`. -/
def sampleA : Geom1D := ⟨[(Ext.fin (-1), Ext.fin 2), (Ext.fin 3, ⊤)]⟩
def sampleB : Geom1D := ⟨[(Ext.fin 0, Ext.fin 1)]⟩

theorem sampleA_made : Made sampleA := by
  rw [made_iff_nf]
  refine ⟨?_, ?_⟩
  · intro iv hi
    simp only [sampleA, List.mem_cons, List.not_mem_nil, or_false] at hi
    rcases hi with rfl | rfl
    · exact Ext.fin_lt_fin.2 (by norm_num)
    · exact Ext.fin_lt_top _
  · simp only [sampleA, List.pairwise_cons, List.mem_cons, List.not_mem_nil, or_false,
      forall_eq, List.Pairwise.nil, and_true, false_implies, implies_true]
    exact Ext.fin_lt_fin.2 (by norm_num)

theorem sampleB_made : Made sampleB := by
  rw [made_iff_nf]
  exact nf_singleton (Ext.fin_lt_fin.2 (by norm_num))

/-! ### C01 -/

/-- C01: whatever the constructor returns is in normal form. -/
theorem c01_normal_form (raw : List (PyNum × PyNum)) (g : Geom1D) (h : construct raw = .ok g) :
    NormalForm g.intervals := Made.nf ⟨raw, h⟩

/-- C01 for the operators: all of them return through the constructor. -/
theorem c01_operators (a b g : Geom1D) (f : Ext → Ext → Bool) (amount : PyNum)
    (h : a.or b = .ok g ∨ a.and b = .ok g ∨ a.sub b = .ok g ∨ a.xor b = .ok g ∨ a.invert = .ok g ∨
      a.filter f = .ok g ∨ a.buffer amount = .ok g ∨ Geom1D.empty = .ok g ∨ full = .ok g) :
    NormalForm g.intervals := by
  have bind_ok : ∀ {α β : Type} {r : Except PyErr α} {f : α → Except PyErr β} {g : β},
      (r >>= f) = .ok g → ∃ x, r = .ok x ∧ f x = .ok g := by
    intro α β r f g h
    cases r with
    | error e => exact absurd h (by simp [bind, Except.bind])
    | ok x => exact ⟨x, rfl, h⟩
  have hor : ∀ a b g : Geom1D, a.or b = .ok g → NormalForm g.intervals :=
    fun a b g h => c01_normal_form _ g h
  have hinv : ∀ a g : Geom1D, a.invert = .ok g → NormalForm g.intervals :=
    fun a g h => c01_normal_form _ g h
  have hand : ∀ a b g : Geom1D, a.and b = .ok g → NormalForm g.intervals := by
    intro a b g h
    obtain ⟨_, _, h⟩ := bind_ok h
    obtain ⟨_, _, h⟩ := bind_ok h
    obtain ⟨_, _, h⟩ := bind_ok h
    exact hinv _ _ h
  rcases h with h | h | h | h | h | h | h | h | h
  · exact hor _ _ _ h
  · exact hand _ _ _ h
  · obtain ⟨_, _, h⟩ := bind_ok h
    exact hand _ _ _ h
  · obtain ⟨_, _, h⟩ := bind_ok h
    obtain ⟨_, _, h⟩ := bind_ok h
    obtain ⟨_, _, h⟩ := bind_ok h
    obtain ⟨_, _, h⟩ := bind_ok h
    exact hor _ _ _ h
  · exact hinv _ _ h
  · exact c01_normal_form _ g h
  · obtain ⟨_, _, h⟩ := bind_ok h
    exact c01_normal_form _ g h
  · exact c01_normal_form _ g h
  · exact c01_normal_form _ g h

/-- Non-vacuity: overlapping, touching, nested and empty intervals, out of order. -/
example : ∃ g, construct [(.int 3, .fraction 5), (.mpq 1, .int 3), (.int 4, .posInf),
    (.int 2, .int 2)] = .ok g ∧ g.intervals ≠ [] := by
  obtain ⟨g, hg⟩ := (construct_isOk_iff [(.int 3, .fraction 5), (.mpq 1, .int 3),
    (.int 4, .posInf), (.int 2, .int 2)]).2 (by
      intro iv hi
      simp only [List.mem_cons, List.not_mem_nil, or_false] at hi
      rcases hi with rfl | rfl | rfl | rfl
      · exact ⟨(Ext.fin 3, Ext.fin 5), checkConvert_of rfl rfl (Ext.fin_le_fin.2 (by norm_num))⟩
      · exact ⟨(Ext.fin 1, Ext.fin 3), checkConvert_of rfl rfl (Ext.fin_le_fin.2 (by norm_num))⟩
      · exact ⟨(Ext.fin 4, ⊤), checkConvert_of rfl rfl (Ext.fin_lt_top _).le⟩
      · exact ⟨(Ext.fin 2, Ext.fin 2), checkConvert_of rfl rfl le_rfl⟩)
  refine ⟨g, hg, fun he => ?_⟩
  have := (construct_points hg 2).2 ⟨(.mpq 1, .int 3), by simp, Ext.fin 1, Ext.fin (3 : ℤ), rfl, rfl,
    ⟨by rw [Ext.toE_fin, EReal.coe_le_coe_iff]; norm_num,
     by rw [Ext.toE_fin, EReal.coe_lt_coe_iff]; norm_num⟩⟩
  rw [he, pointsOf_nil] at this
  exact this

/-! ### C02 -/

theorem convert_iff (v : PyNum) (a : Ext) : fractionFromExactOrInf v = .ok a ↔ ExactOrInf v a := by
  constructor
  · intro h
    cases v <;> simp [fractionFromExactOrInf, fractionFromExact, bind, Except.bind, pure,
      Except.pure] at h <;> subst h <;> constructor
  · intro h; cases h <;> rfl

/-- C02 (acceptance): the constructor returns iff every interval has exact or infinite end points
with low ≤ high. -/
theorem c02_accepts_iff (raw : List (PyNum × PyNum)) :
    (∃ g, construct raw = .ok g) ↔
      ∀ iv ∈ raw, ∃ a b, ExactOrInf iv.1 a ∧ ExactOrInf iv.2 b ∧ a ≤ b := by
  rw [construct_isOk_iff]
  refine forall₂_congr fun iv _ => ?_
  constructor
  · rintro ⟨r, hr⟩
    obtain ⟨_, _, h1, h2, h3⟩ := checkConvert_ok hr
    exact ⟨r.1, r.2, (convert_iff _ _).1 h2, (convert_iff _ _).1 h3, h1⟩
  · rintro ⟨a, b, ha, hb, hab⟩
    exact ⟨(a, b), checkConvert_of ((convert_iff _ _).2 ha) ((convert_iff _ _).2 hb) hab⟩

/-- C02 (meaning): the result contains exactly the points of the input intervals. -/
theorem c02_points (raw : List (PyNum × PyNum)) (g : Geom1D) (h : construct raw = .ok g) (x : ℝ) :
    x ∈ pointsOf g.intervals ↔
      ∃ iv ∈ raw, ∃ a b, ExactOrInf iv.1 a ∧ ExactOrInf iv.2 b ∧ x ∈ icoSet a b := by
  rw [construct_points h]
  have hok := (c02_accepts_iff raw).1 ⟨g, h⟩
  constructor
  · rintro ⟨iv, hi, a, b, ha, hb, hx⟩
    obtain ⟨a', b', ha', hb', _⟩ := hok iv hi
    have e1 := val_of_convert ((convert_iff _ _).2 ha')
    have e2 := val_of_convert ((convert_iff _ _).2 hb')
    rw [ha, Option.some.injEq] at e1
    rw [hb, Option.some.injEq] at e2
    subst e1; subst e2
    exact ⟨iv, hi, a, b, ha', hb', hx⟩
  · rintro ⟨iv, hi, a, b, ha, hb, hx⟩
    exact ⟨iv, hi, a, b, val_of_convert ((convert_iff _ _).2 ha),
      val_of_convert ((convert_iff _ _).2 hb), hx⟩

/-- Non-vacuity: a reversed interval, a NaN and a finite float are rejected. -/
example : (¬ ∃ g, construct [(.int 0, .int 1), (.int 3, .int 2)] = .ok g) ∧
    (¬ ∃ g, construct [(.int 0, .nan)] = .ok g) ∧
    (¬ ∃ g, construct [(.int 0, .float 1)] = .ok g) := by
  refine ⟨?_, ?_, ?_⟩ <;> rw [c02_accepts_iff] <;> intro h
  · obtain ⟨a, b, h1, h2, h3⟩ := h (.int 3, .int 2) (by simp)
    cases h1; cases h2
    rw [Ext.fin_le_fin] at h3
    norm_num at h3
  · obtain ⟨a, b, h1, h2, h3⟩ := h (.int 0, .nan) (by simp)
    cases h2
  · obtain ⟨a, b, h1, h2, h3⟩ := h (.int 0, .float 1) (by simp)
    cases h2

/-! ### C03 -/

/-- C03: two `Geom1D` objects with the same points are identical. -/
theorem c03_canonical (a b : Geom1D) (ha : Made a) (hb : Made b)
    (h : ∀ x, x ∈ pointsOf a.intervals ↔ x ∈ pointsOf b.intervals) : a = b := by
  cases a; cases b
  simp only [Geom1D.mk.injEq]
  exact nf_canonical ha.nf hb.nf (Set.ext h)

/-- C03: the order of the constructor argument is irrelevant. -/
theorem c03_order_irrelevant (raw raw' : List (PyNum × PyNum)) (hp : raw.Perm raw') (g : Geom1D)
    (h : construct raw = .ok g) : construct raw' = .ok g := by
  have hok := (c02_accepts_iff raw).1 ⟨g, h⟩
  obtain ⟨g', h'⟩ := (c02_accepts_iff raw').2 (fun iv hi => hok iv (hp.mem_iff.2 hi))
  have : g' = g := c03_canonical g' g ⟨_, h'⟩ ⟨_, h⟩ (by
    intro x
    rw [c02_points _ _ h', c02_points _ _ h]
    simp only [hp.mem_iff])
  rw [h', this]

/-- C03: cutting one input interval in two, or adding a duplicate, is irrelevant. -/
theorem c03_split_irrelevant (raw : List (PyNum × PyNum)) (a b m : PyNum) (a' b' m' : Ext)
    (ha : ExactOrInf a a') (hb : ExactOrInf b b') (hm : ExactOrInf m m')
    (h1 : a' ≤ m') (h2 : m' ≤ b') (g : Geom1D)
    (h : construct ((a, b) :: raw) = .ok g) :
    construct ((a, m) :: (m, b) :: raw) = .ok g := by
  have hok := (c02_accepts_iff _).1 ⟨g, h⟩
  obtain ⟨g', h'⟩ := (c02_accepts_iff ((a, m) :: (m, b) :: raw)).2 (by
    intro iv hi
    rcases List.mem_cons.1 hi with rfl | hi
    · exact ⟨a', m', ha, hm, h1⟩
    rcases List.mem_cons.1 hi with rfl | hi
    · exact ⟨m', b', hm, hb, h2⟩
    · exact hok iv (by simp [hi]))
  have huniq : ∀ {v : PyNum} {x y : Ext}, ExactOrInf v x → ExactOrInf v y → x = y := by
    intro v x y hx hy
    have e1 := (convert_iff _ _).2 hx
    have e2 := (convert_iff _ _).2 hy
    rw [e1, Except.ok.injEq] at e2
    exact e2
  have : g' = g := c03_canonical g' g ⟨_, h'⟩ ⟨_, h⟩ (by
    intro x
    rw [c02_points _ _ h', c02_points _ _ h]
    constructor
    · rintro ⟨iv, hi, p, q, hp, hq, hx⟩
      rcases List.mem_cons.1 hi with rfl | hi
      · have := huniq hp ha; subst this
        have := huniq hq hm; subst this
        exact ⟨(a, b), by simp, p, b', ha, hb, hx.1, lt_of_lt_of_le hx.2 (Ext.toE_le.2 h2)⟩
      rcases List.mem_cons.1 hi with rfl | hi
      · have := huniq hp hm; subst this
        have := huniq hq hb; subst this
        exact ⟨(a, b), by simp, a', q, ha, hb, (Ext.toE_le.2 h1).trans hx.1, hx.2⟩
      · exact ⟨iv, by simp [hi], p, q, hp, hq, hx⟩
    · rintro ⟨iv, hi, p, q, hp, hq, hx⟩
      rcases List.mem_cons.1 hi with rfl | hi
      · have := huniq hp ha; subst this
        have := huniq hq hb; subst this
        by_cases hc : (x : EReal) < m'.toE
        · exact ⟨(a, m), by simp, p, m', ha, hm, hx.1, hc⟩
        · exact ⟨(m, b), by simp, m', q, hm, hb, not_lt.1 hc, hx.2⟩
      · exact ⟨iv, by simp [hi], p, q, hp, hq, hx⟩)
  rw [h', this]

example : Made sampleA ∧ Made sampleB := ⟨sampleA_made, sampleB_made⟩

/-! ### C04 -/

/-- C04: union. -/
theorem c04_or (a b : Geom1D) (ha : Made a) (hb : Made b) :
    ∃ g, a.or b = .ok g ∧ pointsOf g.intervals = pointsOf a.intervals ∪ pointsOf b.intervals :=
  let ⟨g, h1, _, h3⟩ := or_denotes ha.nf hb.nf
  ⟨g, h1, h3⟩

/-- C04: intersection. -/
theorem c04_and (a b : Geom1D) (ha : Made a) (hb : Made b) :
    ∃ g, a.and b = .ok g ∧ pointsOf g.intervals = pointsOf a.intervals ∩ pointsOf b.intervals :=
  let ⟨g, h1, _, h3⟩ := and_denotes ha.nf hb.nf
  ⟨g, h1, h3⟩

/-- C04: difference. -/
theorem c04_sub (a b : Geom1D) (ha : Made a) (hb : Made b) :
    ∃ g, a.sub b = .ok g ∧ pointsOf g.intervals = pointsOf a.intervals \ pointsOf b.intervals :=
  let ⟨g, h1, _, h3⟩ := sub_denotes ha.nf hb.nf
  ⟨g, h1, h3⟩

/-- C04: symmetric difference. -/
theorem c04_xor (a b : Geom1D) (ha : Made a) (hb : Made b) :
    ∃ g, a.xor b = .ok g ∧
      pointsOf g.intervals = symmDiff (pointsOf a.intervals) (pointsOf b.intervals) :=
  let ⟨g, h1, _, h3⟩ := xor_denotes ha.nf hb.nf
  ⟨g, h1, h3⟩

/-- C04: complement. -/
theorem c04_invert (a : Geom1D) (ha : Made a) :
    ∃ g, a.invert = .ok g ∧ pointsOf g.intervals = (pointsOf a.intervals)ᶜ :=
  let ⟨g, h1, _, h3⟩ := invert_denotes ha.nf
  ⟨g, h1, h3⟩

/-- Non-vacuity: the intersection of the samples is the second one. -/
example : sampleA.and sampleB = .ok sampleB := by
  obtain ⟨g, h1, h2, h3⟩ := and_denotes sampleA_made.nf sampleB_made.nf
  have : g = sampleB := by
    refine c03_canonical _ _ ((made_iff_nf _).2 h2) sampleB_made fun x => ?_
    rw [h3]
    refine ⟨fun h => h.2, fun h => ⟨?_, h⟩⟩
    obtain ⟨iv, hi, a, b⟩ := mem_pointsOf.1 h
    simp only [sampleB, List.mem_singleton] at hi
    subst hi
    refine mem_pointsOf.2 ⟨(Ext.fin (-1), Ext.fin 2), by simp [sampleA], ?_, ?_⟩
    · exact (Ext.toE_le.2 (Ext.fin_le_fin.2 (by norm_num))).trans a
    · exact lt_of_lt_of_le b (Ext.toE_le.2 (Ext.fin_le_fin.2 (by norm_num)))
  rw [h1, this]

/-! ### C05 -/

/-- Evaluate a set expression with the `Geom1D` operators, as Python does. -/
def evalExpr (env : Nat → Geom1D) : SetExpr → Except PyErr Geom1D
  | .var n => .ok (env n)
  | .empty => Geom1D.empty
  | .full => full
  | .or a b => do let x ← evalExpr env a; let y ← evalExpr env b; x.or y
  | .and a b => do let x ← evalExpr env a; let y ← evalExpr env b; x.and y
  | .sub a b => do let x ← evalExpr env a; let y ← evalExpr env b; x.sub y
  | .xor a b => do let x ← evalExpr env a; let y ← evalExpr env b; x.xor y
  | .not a => do let x ← evalExpr env a; x.invert

theorem evalExpr_denotes (env : Nat → Geom1D) (he : ∀ n, Made (env n)) (e : SetExpr) :
    Denotes (evalExpr env e)
      {x | e.holds fun n => x ∈ pointsOf (env n).intervals} := by
  induction e with
  | var n => exact ⟨env n, rfl, (he n).nf, rfl⟩
  | empty => exact empty_denotes
  | full => exact full_denotes
  | or a b iha ihb =>
    refine iha.bind fun x nx px => ihb.bind fun y ny py => ?_
    obtain ⟨g, h1, h2, h3⟩ := or_denotes nx ny
    exact ⟨g, h1, h2, by rw [h3, px, py]; rfl⟩
  | and a b iha ihb =>
    refine iha.bind fun x nx px => ihb.bind fun y ny py => ?_
    obtain ⟨g, h1, h2, h3⟩ := and_denotes nx ny
    exact ⟨g, h1, h2, by rw [h3, px, py]; rfl⟩
  | sub a b iha ihb =>
    refine iha.bind fun x nx px => ihb.bind fun y ny py => ?_
    obtain ⟨g, h1, h2, h3⟩ := sub_denotes nx ny
    exact ⟨g, h1, h2, by rw [h3, px, py]; rfl⟩
  | xor a b iha ihb =>
    refine iha.bind fun x nx px => ihb.bind fun y ny py => ?_
    obtain ⟨g, h1, h2, h3⟩ := xor_denotes nx ny
    exact ⟨g, h1, h2, by rw [h3, px, py]; rfl⟩
  | not a iha =>
    refine iha.bind fun x nx px => ?_
    obtain ⟨g, h1, h2, h3⟩ := invert_denotes nx
    exact ⟨g, h1, h2, by rw [h3, px]; rfl⟩

/-- C05: expressions that are equal as set expressions evaluate to identical objects. -/
theorem c05_boolean_algebra (e₁ e₂ : SetExpr)
    (heq : ∀ ρ : Nat → Prop, e₁.holds ρ ↔ e₂.holds ρ)
    (env : Nat → Geom1D) (he : ∀ n, Made (env n)) :
    ∃ g, evalExpr env e₁ = .ok g ∧ evalExpr env e₂ = .ok g := by
  obtain ⟨g₁, h1, h2, h3⟩ := evalExpr_denotes env he e₁
  obtain ⟨g₂, k1, k2, k3⟩ := evalExpr_denotes env he e₂
  have : g₂ = g₁ := c03_canonical _ _ ((made_iff_nf _).2 k2) ((made_iff_nf _).2 h2) (by
    intro x
    rw [h3, k3]
    exact (heq _).symm)
  exact ⟨g₁, h1, by rw [k1, this]⟩

/-- Non-vacuity and use: `a ^ b == (a | b) - (a & b)`. -/
example (a b : Geom1D) (ha : Made a) (hb : Made b) :
    ∃ g u i, a.xor b = .ok g ∧ a.or b = .ok u ∧ a.and b = .ok i ∧ u.sub i = .ok g := by
  obtain ⟨g, h1, h2⟩ := c05_boolean_algebra (.xor (.var 0) (.var 1))
    (.sub (.or (.var 0) (.var 1)) (.and (.var 0) (.var 1)))
    (by intro ρ; simp only [SetExpr.holds]; tauto)
    (fun n => if n = 0 then a else b) (by intro n; by_cases hn : n = 0 <;> simp [hn, ha, hb])
  obtain ⟨u, hu, _⟩ := c04_or a b ha hb
  obtain ⟨i, hi, _⟩ := c04_and a b ha hb
  refine ⟨g, u, i, by simpa [evalExpr, bind, Except.bind] using h1, hu, hi, ?_⟩
  simpa [evalExpr, bind, Except.bind, hu, hi] using h2

/-! ### C06 -/

/-- C06: `locate` classifies points; the three cases are exhaustive. -/
theorem c06_locate (g : Geom1D) (hg : Made g) (x : Ext) :
    (g.locate x = 0 ↔ ∃ iv ∈ g.intervals, x = iv.1 ∨ x = iv.2) ∧
    (g.locate x = 1 ↔ ∃ iv ∈ g.intervals, iv.1 < x ∧ x < iv.2) ∧
    (g.locate x = -1 ↔ ¬ ∃ iv ∈ g.intervals, iv.1 ≤ x ∧ x ≤ iv.2) := by
  obtain ⟨h0, h1, h2⟩ := locateLoop_spec x g.intervals hg.nf
  refine ⟨h0, h1, ?_⟩
  have key : (∃ iv ∈ g.intervals, iv.1 ≤ x ∧ x ≤ iv.2) ↔
      g.locate x = 0 ∨ g.locate x = 1 := by
    unfold locate
    rw [h0, h1]
    constructor
    · rintro ⟨iv, hi, ha, hb⟩
      rcases ha.eq_or_lt with e | ha
      · exact Or.inl ⟨iv, hi, Or.inl e.symm⟩
      · rcases hb.eq_or_lt with e | hb
        · exact Or.inl ⟨iv, hi, Or.inr e⟩
        · exact Or.inr ⟨iv, hi, ha, hb⟩
    · rintro (⟨iv, hi, e | e⟩ | ⟨iv, hi, ha, hb⟩)
      · exact ⟨iv, hi, e.ge, by rw [e]; exact (hg.nf.1 iv hi).le⟩
      · exact ⟨iv, hi, by rw [e]; exact (hg.nf.1 iv hi).le, e.le⟩
      · exact ⟨iv, hi, ha.le, hb.le⟩
  rw [key]
  change _ ∨ _ ∨ _ at h2
  unfold locate
  rcases h2 with h | h | h <;> rw [h] <;> decide

example : sampleA.locate (Ext.fin 1) = 1 ∧ sampleA.locate ⊤ = 0 ∧
    sampleA.locate (Ext.fin (5 / 2)) = -1 := by
  obtain ⟨h0, h1, h2⟩ := And.intro (c06_locate sampleA sampleA_made (Ext.fin 1))
    (And.intro (c06_locate sampleA sampleA_made ⊤) (c06_locate sampleA sampleA_made (Ext.fin (5/2))))
  refine ⟨?_, ?_, ?_⟩
  · rw [h0.2.1]
    exact ⟨(Ext.fin (-1), Ext.fin 2), by simp [sampleA], Ext.fin_lt_fin.2 (by norm_num),
      Ext.fin_lt_fin.2 (by norm_num)⟩
  · rw [h1.1]
    exact ⟨(Ext.fin 3, ⊤), by simp [sampleA], Or.inr rfl⟩
  · rw [h2.2.2]
    rintro ⟨iv, hi, ha, hb⟩
    simp only [sampleA, List.mem_cons, List.not_mem_nil, or_false] at hi
    rcases hi with rfl | rfl
    · rw [Ext.fin_le_fin] at hb; norm_num at hb
    · rw [Ext.fin_le_fin] at ha; norm_num at ha

/-! ### C07, C08 -/

/-- C07: non-negative `buffer` is dilation. -/
theorem c07_dilate (g : Geom1D) (hg : Made g) (amount : PyNum) (r : ℚ)
    (ha : ExactOrInf amount (Ext.fin r)) (hr : 0 ≤ r) :
    ∃ g', g.buffer amount = .ok g' ∧ pointsOf g'.intervals = dilate (pointsOf g.intervals) r := by
  have hc : fractionFromExact amount = .ok r := by
    cases ha <;> rfl
  obtain ⟨g', h1, _, h3⟩ := buffer_denotes g amount r hc
  exact ⟨g', h1, h3.trans (dilate_points hg.nf.1 hr)⟩

/-- C07: negative `buffer` is erosion. -/
theorem c07_erode (g : Geom1D) (hg : Made g) (amount : PyNum) (r : ℚ)
    (ha : ExactOrInf amount (Ext.fin (-r))) (hr : 0 ≤ r) :
    ∃ g', g.buffer amount = .ok g' ∧ pointsOf g'.intervals = erode (pointsOf g.intervals) r := by
  have hc : fractionFromExact amount = .ok (-r) := by
    generalize hs : Ext.fin (-r) = s at ha
    cases ha
    any_goals (rw [Ext.fin_inj] at hs; rw [hs]; rfl)
    · exact absurd hs (Ext.fin_lt_top _).ne
    · exact absurd hs (Ext.bot_lt_fin _).ne'
  obtain ⟨g', h1, _, h3⟩ := buffer_denotes g amount (-r) hc
  exact ⟨g', h1, h3.trans (erode_points hg.nf hr)⟩

/-- C07: an amount that is not exact is refused. -/
theorem c07_inexact (g : Geom1D) (amount : PyNum) (h : ∀ r : ℚ, ¬ ExactOrInf amount (Ext.fin r)) :
    g.buffer amount = .error .exception := by
  cases amount
  case int z => exact absurd (ExactOrInf.int z) (h _)
  case fraction z => exact absurd (ExactOrInf.fraction z) (h _)
  case mpz z => exact absurd (ExactOrInf.mpz z) (h _)
  case mpq z => exact absurd (ExactOrInf.mpq z) (h _)
  all_goals rfl

example : Made sampleA ∧ ExactOrInf (.int 2) (Ext.fin 2) ∧
    ExactOrInf (.mpq (-1/3)) (Ext.fin (-(1/3))) := by
  refine ⟨sampleA_made, ?_, ?_⟩
  · exact ExactOrInf.int 2
  · have := ExactOrInf.mpq (-1/3)
    norm_num at this ⊢
    exact this

/-- A `buffer` call with an `mpq` amount, as a total function on objects. -/
theorem buffer_mpq (g : Geom1D) (hg : Made g) (r : ℚ) :
    ∃ g', g.buffer (.mpq r) = .ok g' ∧ Made g' ∧
      (0 ≤ r → pointsOf g'.intervals = dilate (pointsOf g.intervals) r) ∧
      (r ≤ 0 → pointsOf g'.intervals = erode (pointsOf g.intervals) (-r)) := by
  obtain ⟨g', h1, h2, _⟩ := buffer_denotes g (.mpq r) r rfl
  refine ⟨g', h1, (made_iff_nf _).2 h2, ?_, ?_⟩
  · intro hr
    obtain ⟨k, k1, k2⟩ := c07_dilate g hg (.mpq r) r (.mpq r) hr
    rw [h1, Except.ok.injEq] at k1
    rw [k1, k2]
  · intro hr
    obtain ⟨k, k1, k2⟩ := c07_erode g hg (.mpq r) (-r) (by rw [neg_neg]; exact .mpq r) (by linarith)
    rw [h1, Except.ok.injEq] at k1
    rw [k1, k2]
    push_cast
    rfl

theorem dilate_dilate {S : Set ℝ} {r s : ℝ} (hr : 0 ≤ r) (hs : 0 ≤ s) :
    dilate (dilate S r) s = dilate S (r + s) := by
  ext x
  constructor
  · rintro ⟨y, ⟨z, hz, h1⟩, h2⟩
    refine ⟨z, hz, ?_⟩
    have := abs_sub_le x y z
    linarith
  · rintro ⟨z, hz, h⟩
    rw [abs_le] at h
    -- move from `z` towards `x` by at most `r`
    refine ⟨max (z - r) (min (z + r) x), ⟨z, hz, ?_⟩, ?_⟩
    · rw [abs_le]
      rcases max_cases (z - r) (min (z + r) x) with ⟨e, _⟩ | ⟨e, _⟩ <;>
      rcases min_cases (z + r) x with ⟨e', _⟩ | ⟨e', _⟩ <;> rw [e] <;>
      (try rw [e']) <;> constructor <;> linarith
    · rw [abs_le]
      rcases max_cases (z - r) (min (z + r) x) with ⟨e, _⟩ | ⟨e, _⟩ <;>
      rcases min_cases (z + r) x with ⟨e', _⟩ | ⟨e', _⟩ <;> rw [e] <;>
      (try rw [e']) <;> constructor <;> linarith

theorem erode_eq (S : Set ℝ) (r : ℝ) : erode S r = (dilate Sᶜ r)ᶜ := by
  ext x
  constructor
  · rintro h ⟨y, hy, hxy⟩
    exact hy (h y hxy)
  · intro h y hxy
    by_contra hy
    exact h ⟨y, hy, hxy⟩

theorem erode_erode {S : Set ℝ} {r s : ℝ} (hr : 0 ≤ r) (hs : 0 ≤ s) :
    erode (erode S r) s = erode S (r + s) := by
  rw [erode_eq, erode_eq, erode_eq, compl_compl, dilate_dilate hr hs]

/-- C08: buffers of the same sign compose. -/
theorem c08_compose (g : Geom1D) (hg : Made g) (a b : ℚ)
    (hab : (0 ≤ a ∧ 0 ≤ b) ∨ (a ≤ 0 ∧ b ≤ 0)) :
    (do let g₁ ← g.buffer (.mpq a); g₁.buffer (.mpq b)) = g.buffer (.mpq (a + b)) := by
  obtain ⟨g₁, h1, m1, d1, e1⟩ := buffer_mpq g hg a
  obtain ⟨g₂, h2, m2, d2, e2⟩ := buffer_mpq g₁ m1 b
  obtain ⟨g₃, h3, m3, d3, e3⟩ := buffer_mpq g hg (a + b)
  rw [h1, h3]
  refine (show _ = g₁.buffer (.mpq b) from rfl).trans ?_
  rw [h2, Except.ok.injEq]
  refine c03_canonical _ _ m2 m3 fun x => ?_
  rcases hab with ⟨ha, hb⟩ | ⟨ha, hb⟩
  · rw [d2 hb, d1 ha, d3 (by linarith), dilate_dilate (by exact_mod_cast ha) (by exact_mod_cast hb)]
    push_cast; rfl
  · have ha' : (0 : ℝ) ≤ -a := by have : (a : ℝ) ≤ 0 := by exact_mod_cast ha
                                  linarith
    have hb' : (0 : ℝ) ≤ -b := by have : (b : ℝ) ≤ 0 := by exact_mod_cast hb
                                  linarith
    rw [e2 hb, e1 ha, e3 (by linarith), erode_erode ha' hb']
    push_cast
    rw [neg_add]

/-- C08: `buffer` preserves inclusion. -/
theorem c08_monotone (g h : Geom1D) (hg : Made g) (hh : Made h)
    (hsub : pointsOf g.intervals ⊆ pointsOf h.intervals) (r : ℚ) :
    ∃ g' h', g.buffer (.mpq r) = .ok g' ∧ h.buffer (.mpq r) = .ok h' ∧
      pointsOf g'.intervals ⊆ pointsOf h'.intervals := by
  obtain ⟨g', h1, _, d1, e1⟩ := buffer_mpq g hg r
  obtain ⟨h', h2, _, d2, e2⟩ := buffer_mpq h hh r
  refine ⟨g', h', h1, h2, ?_⟩
  rcases le_total 0 r with hr | hr
  · rw [d1 hr, d2 hr]
    rintro x ⟨y, hy, hxy⟩
    exact ⟨y, hsub hy, hxy⟩
  · rw [e1 hr, e2 hr]
    intro x hx y hy
    exact hsub (hx y hy)

/-- C08: opening never adds points, closing never removes any. -/
theorem c08_open_close (g : Geom1D) (hg : Made g) (r : ℚ) (hr : 0 ≤ r) :
    (∃ e o, g.buffer (.mpq (-r)) = .ok e ∧ e.buffer (.mpq r) = .ok o ∧
      pointsOf o.intervals ⊆ pointsOf g.intervals) ∧
    (∃ d c, g.buffer (.mpq r) = .ok d ∧ d.buffer (.mpq (-r)) = .ok c ∧
      pointsOf g.intervals ⊆ pointsOf c.intervals) := by
  constructor
  · obtain ⟨e, h1, m1, _, e1⟩ := buffer_mpq g hg (-r)
    obtain ⟨o, h2, _, d2, _⟩ := buffer_mpq e m1 r
    refine ⟨e, o, h1, h2, ?_⟩
    rw [d2 hr, e1 (by linarith)]
    push_cast
    rw [neg_neg]
    rintro x ⟨y, hy, hxy⟩
    exact hy x (by rw [abs_sub_comm]; exact hxy)
  · obtain ⟨e, h1, m1, d1, _⟩ := buffer_mpq g hg r
    obtain ⟨o, h2, _, _, e2⟩ := buffer_mpq e m1 (-r)
    refine ⟨e, o, h1, h2, ?_⟩
    rw [e2 (by linarith), d1 hr]
    push_cast
    rw [neg_neg]
    intro x hx y hxy
    exact ⟨x, hx, by rw [abs_sub_comm]; exact hxy⟩

/-- C08: `buffer(0)` is the identity. -/
theorem c08_zero (g : Geom1D) (hg : Made g) : g.buffer (.int 0) = .ok g := by
  obtain ⟨g', h1, h2, h3⟩ := buffer_denotes g (.int 0) 0 rfl
  rw [h1, Except.ok.injEq]
  refine c03_canonical _ _ ((made_iff_nf _).2 h2) hg fun x => ?_
  rw [h3]
  simp [mem_pointsOf]

/-! ### C09 -/

/-- C09: `measure1d` is the Lebesgue measure. -/
theorem c09_measure (g : Geom1D) (hg : Made g) :
    ∃ v, g.measure1d = some v ∧ v.toE = ((volume (pointsOf g.intervals) : ENNReal) : EReal) :=
  measure1d_spec hg.nf

/-- C09: monotone. -/
theorem c09_mono (a b : Geom1D) (ha : Made a) (hb : Made b)
    (h : pointsOf a.intervals ⊆ pointsOf b.intervals) :
    ∃ u v, a.measure1d = some u ∧ b.measure1d = some v ∧ u ≤ v := by
  obtain ⟨u, h1, h2⟩ := c09_measure a ha
  obtain ⟨v, k1, k2⟩ := c09_measure b hb
  refine ⟨u, v, h1, k1, Ext.toE_le.1 ?_⟩
  rw [h2, k2]
  exact EReal.coe_ennreal_le_coe_ennreal_iff.2 (measure_mono h)

theorem volume_icoSet_pos {a b : Ext} (h : a < b) : 0 < volume (icoSet a b) := by
  obtain ⟨x, h1, h2⟩ := Ext.exists_real_between h
  obtain ⟨y, h3, h4⟩ := EReal.lt_iff_exists_real_btwn.1 h2
  have hxy : x < y := EReal.coe_lt_coe_iff.1 h3
  have hsub : Set.Ico x y ⊆ icoSet a b := fun z hz =>
    ⟨h1.le.trans (EReal.coe_le_coe_iff.2 hz.1), lt_trans (EReal.coe_lt_coe_iff.2 hz.2) h4⟩
  refine lt_of_lt_of_le ?_ (measure_mono hsub)
  rw [Real.volume_Ico]
  simpa using hxy

/-- C09: zero only for the empty object. -/
theorem c09_zero_iff (g : Geom1D) (hg : Made g) :
    g.measure1d = some (Ext.fin 0) ↔ g.intervals = [] := by
  constructor
  · intro h
    obtain ⟨v, h1, h2⟩ := c09_measure g hg
    rw [h, Option.some.injEq] at h1
    subst h1
    cases hl : g.intervals with
    | nil => rfl
    | cons p l =>
      exfalso
      have hn := hg.nf
      rw [hl] at hn h2
      have hz : volume (pointsOf (p :: l)) = 0 := by
        rw [Ext.toE_fin] at h2
        simpa using h2.symm
      have := volume_icoSet_pos (nf_head hn)
      have hle : volume (icoSet p.1 p.2) ≤ volume (pointsOf (p :: l)) :=
        measure_mono (by rw [pointsOf_cons]; exact Set.subset_union_left)
      rw [hz] at hle
      exact absurd this (not_lt.2 hle)
  · intro h
    rw [measure1d, h]; rfl

/-- C09: the modular law `measure(a|b) + measure(a&b) = measure(a) + measure(b)`, with Python's
addition (in which infinities add up to infinity). -/
theorem c09_modular (a b : Geom1D) (ha : Made a) (hb : Made b) :
    ∃ u i s, a.or b = .ok u ∧ a.and b = .ok i ∧
      pyAdd u.measure1d i.measure1d = some s ∧ pyAdd a.measure1d b.measure1d = some s := by
  obtain ⟨u, u1, u2, u3⟩ := or_denotes ha.nf hb.nf
  obtain ⟨i, i1, i2, i3⟩ := and_denotes ha.nf hb.nf
  obtain ⟨mu, mu1, mu2⟩ := measure1d_spec u2
  obtain ⟨mi, mi1, mi2⟩ := measure1d_spec i2
  obtain ⟨ma, ma1, ma2⟩ := measure1d_spec ha.nf
  obtain ⟨mb, mb1, mb2⟩ := measure1d_spec hb.nf
  have hnn : ∀ s : Set ℝ, (0 : EReal) ≤ ((volume s : ENNReal) : EReal) :=
    fun s => EReal.coe_ennreal_nonneg _
  obtain ⟨s, s1, _, s2⟩ := pyAdd_toE (a := mu) (b := mi) (by rw [mu2]; exact hnn _)
    (by rw [mi2]; exact hnn _)
  obtain ⟨t, t1, _, t2⟩ := pyAdd_toE (a := ma) (b := mb) (by rw [ma2]; exact hnn _)
    (by rw [mb2]; exact hnn _)
  refine ⟨u, i, s, u1, i1, by rw [mu1, mi1]; exact s1, ?_⟩
  rw [ma1, mb1, t1, Option.some.injEq]
  apply Ext.toE_inj.1
  rw [s2, t2, mu2, mi2, ma2, mb2, u3, i3, ← EReal.coe_ennreal_add, ← EReal.coe_ennreal_add,
    measure_union_add_inter _ (pointsOf_measurable _)]

example : sampleB.measure1d = some (Ext.fin 1) ∧ sampleA.measure1d = some ⊤ := by
  refine ⟨?_, rfl⟩
  change some (Ext.fin (0 + (1 - 0))) = _
  norm_num

/-! ### C10 -/

/-- C10: emptiness. -/
theorem c10_isEmpty (g : Geom1D) (hg : Made g) :
    g.isEmpty = true ↔ ∀ x, x ∉ pointsOf g.intervals := by
  unfold isEmpty
  constructor
  · intro h x hx
    have : g.intervals = [] := by simpa using h
    rw [this, pointsOf_nil] at hx
    exact hx
  · intro h
    cases hl : g.intervals with
    | nil => rfl
    | cons p l =>
      exfalso
      have hn := hg.nf
      rw [hl] at hn
      obtain ⟨x, hx⟩ := icoSet_nonempty (nf_head hn)
      exact h x (by rw [hl, pointsOf_cons]; exact Or.inl hx)

/-- C10: the pieces are single intervals, pairwise disjoint, and together make up the original. -/
theorem c10_pieces (g : Geom1D) (hg : Made g) :
    ∃ ps, g.disjointPieces = .ok ps ∧
      (∀ p ∈ ps, Made p ∧ p.intervals.length = 1) ∧
      ps.Pairwise (fun p q => Disjoint (pointsOf p.intervals) (pointsOf q.intervals)) ∧
      (∀ x, x ∈ pointsOf g.intervals ↔ ∃ p ∈ ps, x ∈ pointsOf p.intervals) := by
  have hsingle : ∀ iv ∈ g.intervals, ofIvls [iv] = .ok ⟨[iv]⟩ := fun iv hi =>
    construct_of_nf (g := ⟨[iv]⟩) (nf_singleton (hg.nf.1 iv hi))
  refine ⟨g.intervals.map fun iv => ⟨[iv]⟩, mapM_except_ok _ _ _ hsingle, ?_, ?_, ?_⟩
  · intro p hp
    obtain ⟨iv, hi, rfl⟩ := List.mem_map.1 hp
    exact ⟨⟨_, hsingle iv hi⟩, rfl⟩
  · rw [List.pairwise_map]
    refine hg.nf.2.imp fun {p q} hpq => ?_
    rw [Set.disjoint_left]
    intro x h1 h2
    obtain ⟨i, hi, _, a2⟩ := mem_pointsOf.1 h1
    obtain ⟨j, hj, b1, _⟩ := mem_pointsOf.1 h2
    rw [List.mem_singleton] at hi hj
    subst hi; subst hj
    exact absurd (lt_of_lt_of_le (a2.trans (Ext.toE_lt.2 hpq)) b1) (lt_irrefl _)
  · intro x
    rw [mem_pointsOf]
    constructor
    · rintro ⟨iv, hi, hx⟩
      exact ⟨⟨[iv]⟩, List.mem_map.2 ⟨iv, hi, rfl⟩, mem_pointsOf.2 ⟨iv, by simp, hx⟩⟩
    · rintro ⟨p, hp, hx⟩
      obtain ⟨iv, hi, rfl⟩ := List.mem_map.1 hp
      obtain ⟨j, hj, hx'⟩ := mem_pointsOf.1 hx
      rw [List.mem_singleton] at hj
      subst hj
      exact ⟨j, hi, hx'⟩

/-- C10: `filter` keeps exactly the accepted intervals, in order. -/
theorem c10_filter (g : Geom1D) (hg : Made g) (f : Ext → Ext → Bool) :
    g.filter f = .ok ⟨g.intervals.filter fun iv => f iv.1 iv.2⟩ := by
  apply construct_of_nf (g := ⟨g.intervals.filter fun iv => f iv.1 iv.2⟩)
  exact ⟨fun iv hi => hg.nf.1 iv (List.mem_filter.1 hi).1, hg.nf.2.sublist List.filter_sublist⟩

/-- C10: boundedness. -/
theorem c10_isBounded (g : Geom1D) (hg : Made g) :
    g.isBounded = true ↔ Bornology.IsBounded (pointsOf g.intervals) := by
  obtain ⟨v, h1, h2⟩ := c09_measure g hg
  unfold isBounded
  rw [h1]
  have hv : (match (some v : Option Ext) with
      | some (some (some _)) => true
      | _ => false) = true ↔ volume (pointsOf g.intervals) ≠ ⊤ := by
    rcases Ext.cases3 v with rfl | rfl | ⟨q, rfl⟩
    · exfalso
      have := EReal.coe_ennreal_nonneg (volume (pointsOf g.intervals))
      rw [← h2] at this
      simp at this
    · have : volume (pointsOf g.intervals) = ⊤ := by
        simpa using h2.symm
      rw [this]
      exact ⟨fun h => absurd h (by simp), fun h => absurd rfl h⟩
    · refine ⟨fun _ h => ?_, fun _ => rfl⟩
      rw [h, Ext.toE_fin] at h2
      exact absurd h2 (by simp)
  refine hv.trans ?_
  constructor
  · intro hfin
    have hb : ∀ iv ∈ g.intervals, Bornology.IsBounded (icoSet iv.1 iv.2) := by
      intro iv hi
      have hlt := hg.nf.1 iv hi
      have hle : volume (icoSet iv.1 iv.2) ≤ volume (pointsOf g.intervals) :=
        measure_mono fun x hx => ⟨iv, hi, hx⟩
      obtain ⟨w, w1, _, w3⟩ := pySub_measure hlt
      rcases Ext.cases3 iv.1 with e | e | ⟨p, e⟩
      · exfalso
        rw [e] at w1
        have : w = ⊤ := by
          rcases Ext.cases3 iv.2 with e' | e' | ⟨q, e'⟩ <;> rw [e'] at w1
          · rw [e, e'] at hlt; exact absurd hlt (lt_irrefl _)
          · exact (Option.some.inj w1).symm
          · exact (Option.some.inj w1).symm
        rw [this, ] at w3
        have : volume (icoSet iv.1 iv.2) = ⊤ := by simpa using w3.symm
        rw [this, top_le_iff] at hle
        exact hfin hle
      · rw [e] at hlt
        exact absurd hlt (by simp)
      · rcases Ext.cases3 iv.2 with e' | e' | ⟨q, e'⟩
        · rw [e'] at hlt; exact absurd hlt (by simp)
        · exfalso
          rw [e, e'] at w1
          have : w = ⊤ := (Option.some.inj w1).symm
          rw [this] at w3
          have : volume (icoSet iv.1 iv.2) = ⊤ := by simpa using w3.symm
          rw [this, top_le_iff] at hle
          exact hfin hle
        · rw [e, e']
          refine (Metric.isBounded_Ico (p : ℝ) q).subset fun x hx => ?_
          exact ⟨EReal.coe_le_coe_iff.1 hx.1, EReal.coe_lt_coe_iff.1 hx.2⟩
    have hfinite : (pointsOf g.intervals) = ⋃ iv ∈ {iv | iv ∈ g.intervals}, icoSet iv.1 iv.2 := by
      ext x
      simp only [mem_pointsOf, Set.mem_iUnion, mem_icoSet, Set.mem_ofPred_eq, exists_prop]
    rw [hfinite]
    exact (Bornology.isBounded_biUnion (List.finite_toSet g.intervals)).2 hb
  · intro hb
    exact hb.measure_lt_top.ne

example : sampleB.isBounded = true ∧ sampleA.isBounded = false ∧ sampleA.isEmpty = false :=
  ⟨rfl, rfl, rfl⟩

/-! ### C11 -/

/-- C11: `FractionFromExact` returns exactly on the exact classes, with the exact value. -/
theorem c11_exact (v : PyNum) (q : ℚ) :
    fractionFromExact v = .ok q ↔
      (∃ z : Int, (v = .int z ∨ v = .mpz z) ∧ q = z) ∨ v = .fraction q ∨ v = .mpq q := by
  cases v <;> simp [fractionFromExact, eq_comm]

/-- C11: otherwise it raises; in particular for every float. -/
theorem c11_refused (v : PyNum) (h : ∀ q, ¬ ExactOrInf v (Ext.fin q)) :
    fractionFromExact v = .error .exception := by
  cases v
  case int z => exact absurd (ExactOrInf.int z) (h _)
  case fraction z => exact absurd (ExactOrInf.fraction z) (h _)
  case mpz z => exact absurd (ExactOrInf.mpz z) (h _)
  case mpq z => exact absurd (ExactOrInf.mpq z) (h _)
  all_goals rfl

/-- C11: `FractionFromExactOrInf` in addition passes infinities through; whatever it returns is the
value of its argument. -/
theorem c11_exactOrInf (v : PyNum) (a : Ext) :
    fractionFromExactOrInf v = .ok a ↔ ExactOrInf v a := convert_iff v a

theorem c11_value (v : PyNum) (a : Ext) (h : fractionFromExactOrInf v = .ok a) : v.val = some a :=
  val_of_convert h

example : fractionFromExact (.float 1) = .error .exception ∧ fractionFromExact (.int 7) = .ok 7 :=
  ⟨rfl, rfl⟩

end Geom1D
end Ply
