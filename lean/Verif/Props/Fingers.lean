import Verif.Model.Fingers
import Verif.Spec.Fingers
import Verif.Props.Geom1D

/-! # C47–C49: random fingers -/

namespace Ply
open MeasureTheory

/-- A uniform draw lies between its bounds. -/
def DrawsBetween (u : ℕ → ℚ → ℚ → ℚ) : Prop :=
  ∀ k low hi, low ≤ hi → low ≤ u k low hi ∧ u k low hi ≤ hi

/-! ### C47 -/

theorem lengthsLoop_spec (u : ℕ → ℚ → ℚ → ℚ) (hu : DrawsBetween u) (n : ℕ) (mn mx total : ℚ)
    (todo done : List ℕ) (f : ℕ → ℚ) (running : ℚ) (hnd : (done ++ todo).Nodup)
    (hlen : done.length + todo.length = n) (hrun : (done.map f).sum = running)
    (hb : ∀ i ∈ done, mn ≤ f i ∧ f i ≤ mx)
    (h1 : (todo.length : ℚ) * mn ≤ total - running) (h2 : total - running ≤ (todo.length : ℚ) * mx) :
    ∃ g, lengthsLoop u n mn mx total todo f running done.length = .ok g ∧
      (((done ++ todo).map g).sum = total) ∧ ∀ i ∈ done ++ todo, mn ≤ g i ∧ g i ≤ mx := by
  induction todo generalizing done f running with
  | nil =>
    refine ⟨f, rfl, ?_, by simpa using hb⟩
    rw [List.append_nil, hrun]
    simp only [List.length_nil, Nat.cast_zero, zero_mul] at h1 h2
    linarith
  | cons i rest ih =>
    rw [lengthsLoop.eq_def]
    dsimp only
    have hk : (n : ℚ) - done.length - 1 = rest.length := by
      rw [← hlen]; simp only [List.length_cons]; push_cast; ring
    rw [hk]
    simp only [List.length_cons] at h1 h2
    push_cast at h1 h2
    generalize hL : total - running = L at *
    generalize hr : (rest.length : ℚ) = r at *
    have hr0 : 0 ≤ r := by rw [← hr]; positivity
    have hmm : mn ≤ mx := by
      by_contra hc
      push Not at hc
      nlinarith
    have hlow : (if L - r * mx < mn then mn else L - r * mx) ≤ (if mx < L - r * mn then mx else L - r * mn) := by
      split_ifs <;> nlinarith
    rw [if_pos hlow]
    obtain ⟨c1, c2⟩ := hu done.length _ _ hlow
    generalize hc : u done.length (if L - r * mx < mn then mn else L - r * mx)
      (if mx < L - r * mn then mx else L - r * mn) = c at *
    have c3 : mn ≤ c := le_trans (by split_ifs <;> linarith) c1
    have c4 : L - r * mx ≤ c := le_trans (by split_ifs <;> linarith) c1
    have c5 : c ≤ mx := le_trans c2 (by split_ifs <;> linarith)
    have c6 : c ≤ L - r * mn := le_trans c2 (by split_ifs <;> linarith)
    have hi : i ∉ done := by
      intro hi
      exact (List.nodup_append.1 hnd).2.2 i hi i (by simp) rfl
    have hset : ∀ j ∈ done, setAt f i c j = f j := by
      intro j hj
      unfold setAt
      rw [if_neg (fun (e : j = i) => hi (e ▸ hj))]
    have hseti : setAt f i c i = c := by simp [setAt]
    obtain ⟨g, g1, g2, g3⟩ := ih (done ++ [i]) (setAt f i c) (running + c) (by simpa using hnd)
      (by simp only [List.length_append, List.length_cons, List.length_nil]
          simp only [List.length_cons] at hlen; omega)
      (by rw [List.map_append, List.sum_append, List.map_congr_left hset, hrun]; simp [hseti])
      (by
        intro j hj
        rcases List.mem_append.1 hj with hj | hj
        · rw [hset j hj]; exact hb j hj
        · rw [List.mem_singleton.1 hj, hseti]; exact ⟨c3, c5⟩)
      (by linarith) (by linarith)
    refine ⟨g, ?_, by simpa using g2, by simpa using g3⟩
    simpa using g1

theorem accumulate_spec (a : ℚ) (l : List ℚ) :
    (accumulate a l).2 = a + l.sum ∧ Consecutive a (accumulate a l).1 (a + l.sum) ∧
      (accumulate a l).1.map (fun s => s.2 - s.1) = l := by
  induction l generalizing a with
  | nil => simp [accumulate, Consecutive]
  | cons x l ih =>
    obtain ⟨h1, h2, h3⟩ := ih (a + x)
    rw [accumulate.eq_def]
    dsimp only
    refine ⟨by rw [h1, List.sum_cons]; ring, ⟨rfl, ?_⟩, ?_⟩
    · rw [List.sum_cons, ← add_assoc]; exact h2
    · simp only [List.map_cons, h3]
      congr 1
      ring

/-- C47: `random_min_max` never fails when its precondition holds: it returns `n` consecutive spans
from 0 to `total` with widths between the bounds, for every shuffle and all draws. -/
theorem c47_fits (u : ℕ → ℚ → ℚ → ℚ) (hu : DrawsBetween u) (n : ℕ) (order : List ℕ)
    (ho : order.Perm (List.range n)) (mn mx total : ℚ) (h1 : mn * n ≤ total) (h2 : total ≤ mx * n) :
    ∃ l, randomMinMax u order n mn mx total = .ok l ∧ l.length = n ∧ Consecutive 0 l total ∧
      ∀ s ∈ l, mn ≤ s.2 - s.1 ∧ s.2 - s.1 ≤ mx := by
  have hlen : order.length = n := by rw [ho.length_eq, List.length_range]
  obtain ⟨g, g1, g2, g3⟩ := lengthsLoop_spec u hu n mn mx total order [] (fun _ => 0) 0
    (by simpa using ho.nodup_iff.2 List.nodup_range) (by simpa using hlen) rfl (by simp)
    (by rw [hlen]; linarith) (by rw [hlen]; linarith)
  have hsum : ((List.range n).map g).sum = total := by
    rw [← g2]
    simpa using (ho.map g).sum_eq.symm
  obtain ⟨a1, a2, a3⟩ := accumulate_spec 0 ((List.range n).map g)
  refine ⟨(accumulate 0 ((List.range n).map g)).1, ?_, ?_, ?_, ?_⟩
  · unfold randomMinMax
    rw [if_pos (by push_cast; exact ⟨h1, h2⟩), if_neg (by omega)]
    have e : ((n : ℤ)).toNat = n := Int.toNat_natCast n
    rw [e]
    have g1' : lengthsLoop u n mn mx total order (fun _ => 0) 0 0 = .ok g := g1
    rw [g1']
    show (if (accumulate 0 ((List.range n).map g)).2 - total < 1 / 100000000 then _ else _) = _
    rw [if_pos]
    rw [a1, hsum]
    norm_num
  · have := congrArg List.length a3
    simpa using this
  · rw [hsum, zero_add] at a2
    exact a2
  · intro s hs
    have : s.2 - s.1 ∈ (List.range n).map g := by
      rw [← a3]
      exact List.mem_map_of_mem hs
    obtain ⟨i, hi, e⟩ := List.mem_map.1 this
    rw [← e]
    exact g3 i (by simpa using ho.mem_iff.2 hi)

/-- C47: otherwise the assertion at the start fails. -/
theorem c47_refuses (u : ℕ → ℚ → ℚ → ℚ) (order : List ℕ) (n : ℤ) (mn mx total : ℚ)
    (h : ¬ (mn * n ≤ total ∧ total ≤ mx * n)) :
    randomMinMax u order n mn mx total = .error .assertion := by
  unfold randomMinMax
  rw [if_neg h]

/-- Three fingers of widths between 3 and 5 in a stretch of 12, order (2, 0, 1), always drawing the
lower bound. -/
example : ∃ l, randomMinMax (fun _ low _ => low) [2, 0, 1] 3 3 5 12 = .ok l ∧ l.length = 3 ∧
    Consecutive 0 l 12 := by
  obtain ⟨l, h1, h2, h3, _⟩ := c47_fits (fun _ low _ => low) (fun _ _ _ h => ⟨le_rfl, h⟩) 3 [2, 0, 1]
    (by decide) 3 5 12 (by norm_num) (by norm_num)
  exact ⟨l, h1, h2, h3⟩

/-! ### C48 -/

/-- The length of what is chosen in `[lo, hi)`. -/
noncomputable def chosenIn (g : Geom1D) (lo hi : ℚ) : ENNReal :=
  volume (pointsOf g.intervals ∩ {x | (lo : ℝ) ≤ x ∧ x < (hi : ℝ)})

theorem icoSet_fin (a b : ℚ) : icoSet (Ext.fin a) (Ext.fin b) = {x | (a : ℝ) ≤ x ∧ x < (b : ℝ)} := by
  ext x
  simp [icoSet, Ext.toE_fin]

theorem construct_fin (a b : ℚ) (h : a ≤ b) :
    Geom1D.Denotes (Geom1D.construct [(.mpq a, .mpq b)]) {x | (a : ℝ) ≤ x ∧ x < (b : ℝ)} := by
  obtain ⟨g, e, n, pp⟩ := Geom1D.ofIvls_ok (l := [(Ext.fin a, Ext.fin b)])
    (by simpa using Ext.fin_le_fin.2 h)
  refine ⟨g, e, n, pp.trans ?_⟩
  rw [pointsOf_cons, pointsOf_nil, Set.union_empty]
  exact icoSet_fin a b

/-- `on_side` is 1 exactly when side 1 has chosen more of the end interval than side 0. -/
theorem onSide_spec (ch0 ch1 : Geom1D) (h0 : ch0.Made) (h1 : ch1.Made) (lo hi : ℚ) (h : lo ≤ hi) :
    ∃ s, onSide ch0 ch1 lo hi = .ok s ∧ (s = 0 ∨ s = 1) ∧
      (s = 1 ↔ chosenIn ch0 lo hi < chosenIn ch1 lo hi) := by
  unfold onSide
  obtain ⟨ei, e1, e2, e3⟩ := construct_fin lo hi h
  rw [e1]
  obtain ⟨a, a1, a2, a3⟩ := Geom1D.and_denotes h0.nf e2
  obtain ⟨b, b1, b2, b3⟩ := Geom1D.and_denotes h1.nf e2
  show ∃ s, (do
    let a ← ch0.and ei
    let b ← ch1.and ei
    return argmax2 a.measure1d b.measure1d : Except PyErr ℕ) = .ok s ∧ _
  rw [a1, b1]
  obtain ⟨x, x1, x2⟩ := Geom1D.measure1d_spec a2
  obtain ⟨y, y1, y2⟩ := Geom1D.measure1d_spec b2
  refine ⟨argmax2 a.measure1d b.measure1d, rfl, ?_, ?_⟩
  · rw [x1, y1]
    unfold argmax2
    dsimp only
    split_ifs <;> simp
  · rw [x1, y1]
    have : x < y ↔ chosenIn ch0 lo hi < chosenIn ch1 lo hi := by
      rw [← Ext.toE_lt, x2, y2, a3, b3, e3]
      exact EReal.coe_ennreal_lt_coe_ennreal_iff
    unfold argmax2
    dsimp only
    rw [← this]
    split_ifs with hh <;> simp [hh]

theorem parity_min (b : ℤ) (odd : Bool) :
    let m := if odd then b + b % 2 else b + 1 - b % 2
    b ≤ m ∧ (m % 2 = if odd then 0 else 1) ∧ ∀ k, b ≤ k → (k % 2 = if odd then 0 else 1) → m ≤ k := by
  cases odd <;> simp only [if_true, if_false, Bool.false_eq_true] <;>
    exact ⟨by omega, by omega, fun k _ _ => by omega⟩

theorem parity_max (b : ℤ) (odd : Bool) :
    let m := if odd then b - b % 2 else b - 1 + b % 2
    m ≤ b ∧ (m % 2 = if odd then 0 else 1) ∧ ∀ k, k ≤ b → (k % 2 = if odd then 0 else 1) → k ≤ m := by
  cases odd <;> simp only [if_true, if_false, Bool.false_eq_true] <;>
    exact ⟨by omega, by omega, fun k _ _ => by omega⟩

/-- The finger counts that can be drawn fit; none can be drawn exactly when no count of the wanted
parity fits. -/
theorem fingerCount_spec (minW maxW len : ℚ) (h1 : 0 < minW) (h2 : 0 < maxW) (hl : 0 < len) (odd : Bool) :
    (fingerCount minW maxW len odd = .ok none ∧
      ∀ k : ℤ, (k % 2 = if odd then 0 else 1) → ¬ (minW * k ≤ len ∧ len ≤ maxW * k)) ∨
    ∃ lo hi, fingerCount minW maxW len odd = .ok (some (lo, hi)) ∧ lo ≤ hi ∧
      (hi % 2 = if odd then 0 else 1) ∧ (hi ≤ 5 → lo = hi) ∧
      ∀ k : ℤ, lo ≤ k → k ≤ hi → 1 ≤ k ∧ minW * k ≤ len ∧ len ≤ maxW * k := by
  unfold fingerCount
  rw [if_neg (by rintro (h | h) <;> linarith)]
  extract_lets a b m0 M0 m1
  have pm := parity_min ⌈len / maxW⌉ odd
  have pM := parity_max ⌊len / minW⌋ odd
  change a ≤ m0 ∧ (m0 % 2 = _) ∧ ∀ k, a ≤ k → _ → m0 ≤ k at pm
  change M0 ≤ b ∧ (M0 % 2 = _) ∧ ∀ k, k ≤ b → _ → k ≤ M0 at pM
  obtain ⟨a1, a2, a3⟩ := pm
  obtain ⟨b1, b2, b3⟩ := pM
  have up : ∀ k : ℤ, a ≤ k ↔ len ≤ maxW * k := by
    intro k
    rw [show a = ⌈len / maxW⌉ from rfl, Int.ceil_le, div_le_iff₀ h2, mul_comm]
  have dn : ∀ k : ℤ, k ≤ b ↔ minW * k ≤ len := by
    intro k
    rw [show b = ⌊len / minW⌋ from rfl, Int.le_floor, le_div_iff₀ h1, mul_comm]
  by_cases h : m0 > M0
  · left
    rw [if_pos h]
    refine ⟨rfl, fun k hk hf => ?_⟩
    have := a3 k ((up k).2 hf.2) hk
    have := b3 k ((dn k).2 hf.1) hk
    omega
  · right
    rw [if_neg h]
    have hc : 1 ≤ a := by
      rw [show a = ⌈len / maxW⌉ from rfl, Int.one_le_ceil_iff]
      positivity
    have hm1 : m0 ≤ m1 ∧ m1 ≤ M0 ∧ (m1 = m0 ∨ m1 = M0 ∨ m1 = 5) ∧ (M0 ≤ 5 → m1 = M0) := by
      have : m1 = if m0 < 5 then (if M0 < 5 then M0 else 5) else m0 := rfl
      rw [this]
      split_ifs <;> refine ⟨by omega, by omega, by omega, ?_⟩ <;> intro <;> omega
    refine ⟨m1, M0, rfl, hm1.2.1, b2, hm1.2.2.2, ?_⟩
    intro k hk1 hk2
    exact ⟨by omega, (dn k).1 (by omega), (up k).1 (by omega)⟩

theorem consecutive_le {a b : ℚ} {l : List (ℚ × ℚ)} (h : Consecutive a l b) (hw : ∀ s ∈ l, s.1 ≤ s.2) :
    a ≤ b := by
  induction l generalizing a with
  | nil => exact le_of_eq h
  | cons s l ih =>
    obtain ⟨rfl, h2⟩ := h
    exact (hw s (by simp)).trans (ih h2 fun t ht => hw t (by simp [ht]))

theorem everySecond_cons (s : ℚ × ℚ) (l : List (ℚ × ℚ)) :
    everySecond (s :: l) = {x | (s.1 : ℝ) ≤ x ∧ x < (s.2 : ℝ)} ∪ everySecond l.tail := by
  cases l with
  | nil => simp [everySecond]
  | cons t l => rfl

theorem everySecond_bounds {a b : ℚ} {l : List (ℚ × ℚ)} (h : Consecutive a l b)
    (hw : ∀ s ∈ l, s.1 ≤ s.2) :
    everySecond l ∪ everySecond l.tail = {x | (a : ℝ) ≤ x ∧ x < (b : ℝ)} ∧
    Disjoint (everySecond l) (everySecond l.tail) := by
  induction l generalizing a with
  | nil =>
    have : a = b := h
    subst this
    refine ⟨?_, by simp [everySecond]⟩
    ext x
    simp only [everySecond, List.tail_nil, Set.union_self, Set.mem_empty_iff_false, Set.mem_ofPred_eq,
      false_iff, not_and, not_lt]
    exact fun h => h
  | cons s l ih =>
    obtain ⟨rfl, h2⟩ := h
    have hw' : ∀ t ∈ l, t.1 ≤ t.2 := fun t ht => hw t (by simp [ht])
    obtain ⟨i1, i2⟩ := ih h2 hw'
    have hle := consecutive_le h2 hw'
    have hs := hw s (by simp)
    rw [everySecond_cons, List.tail_cons]
    have hle' : (s.2 : ℝ) ≤ b := by exact_mod_cast hle
    have hs' : (s.1 : ℝ) ≤ s.2 := by exact_mod_cast hs
    constructor
    · rw [Set.union_assoc, Set.union_comm (everySecond l.tail), i1]
      ext x
      simp only [Set.mem_union, Set.mem_ofPred_eq]
      constructor
      · rintro (⟨a1, a2⟩ | ⟨a1, a2⟩)
        · exact ⟨a1, lt_of_lt_of_le a2 hle'⟩
        · exact ⟨hs'.trans a1, a2⟩
      · rintro ⟨a1, a2⟩
        rcases lt_or_ge x s.2 with h | h
        · exact Or.inl ⟨a1, h⟩
        · exact Or.inr ⟨h, a2⟩
    · rw [Set.disjoint_union_left]
      refine ⟨?_, i2.symm⟩
      rw [Set.disjoint_left]
      intro x hx hx'
      have : x ∈ everySecond l ∪ everySecond l.tail := Or.inl hx'
      rw [i1] at this
      exact absurd hx.2 (not_lt.2 this.1)

/-- Spans moved by `t`. -/
def shift (t : ℚ) (l : List (ℚ × ℚ)) : List (ℚ × ℚ) := l.map fun s => (t + s.1, t + s.2)

theorem consecutive_shift (t : ℚ) {a b : ℚ} {l : List (ℚ × ℚ)} (h : Consecutive a l b) :
    Consecutive (t + a) (shift t l) (t + b) := by
  induction l generalizing a with
  | nil => exact congrArg _ h
  | cons s l ih => exact ⟨congrArg (t + ·) h.1, ih h.2⟩

theorem assignLoop_spec (start : ℚ) (l : List (ℚ × ℚ)) (hw : ∀ s ∈ l, s.1 ≤ s.2) (side : ℕ)
    (hs : side = 0 ∨ side = 1) (f0 f1 : Geom1D) (h0 : NormalForm f0.intervals)
    (h1 : NormalForm f1.intervals) :
    ∃ g0 g1, assignLoop start l side f0 f1 = .ok (g0, g1) ∧ NormalForm g0.intervals ∧
      NormalForm g1.intervals ∧
      pointsOf g0.intervals = pointsOf f0.intervals ∪
        (if side = 0 then everySecond (shift start l) else everySecond (shift start l).tail) ∧
      pointsOf g1.intervals = pointsOf f1.intervals ∪
        (if side = 0 then everySecond (shift start l).tail else everySecond (shift start l)) := by
  induction l generalizing side f0 f1 with
  | nil =>
    refine ⟨f0, f1, rfl, h0, h1, ?_, ?_⟩ <;> simp [shift, everySecond]
  | cons s l ih =>
    have hw' : ∀ t ∈ l, t.1 ≤ t.2 := fun t ht => hw t (by simp [ht])
    have hsl : shift start (s :: l) = (start + s.1, start + s.2) :: shift start l := rfl
    rw [assignLoop.eq_def]
    dsimp only
    obtain ⟨sp, s1, s2, s3⟩ := construct_fin (start + s.1) (start + s.2) (by linarith [hw s (by simp)])
    rw [s1]
    rcases hs with rfl | rfl
    · obtain ⟨f, a1, a2, a3⟩ := Geom1D.or_denotes h0 s2
      obtain ⟨g0, g1, b1, b2, b3, b4, b5⟩ := ih hw' 1 (Or.inr rfl) f f1 a2 h1
      refine ⟨g0, g1, ?_, b2, b3, ?_, ?_⟩
      · show (do
          let f0' ← f0.or sp
          assignLoop start l (1 - 0) f0' f1 : Except PyErr _) = _
        rw [a1]
        exact b1
      · rw [b4, a3, s3, if_neg (by decide), if_pos rfl, hsl, everySecond_cons, Set.union_assoc]
      · rw [b5, if_neg (by decide), if_pos rfl, hsl, List.tail_cons]
    · obtain ⟨f, a1, a2, a3⟩ := Geom1D.or_denotes h1 s2
      obtain ⟨g0, g1, b1, b2, b3, b4, b5⟩ := ih hw' 0 (Or.inl rfl) f0 f h0 a2
      refine ⟨g0, g1, ?_, b2, b3, ?_, ?_⟩
      · show (do
          let f1' ← f1.or sp
          assignLoop start l (1 - 1) f0 f1' : Except PyErr _) = _
        rw [a1]
        exact b1
      · rw [b4, if_pos rfl, if_neg (by decide), hsl, List.tail_cons]
      · rw [b5, a3, s3, if_pos rfl, if_neg (by decide), hsl, everySecond_cons, Set.union_assoc]

/-- Random decisions as numpy makes them: shuffles, draws between the bounds, integers in range. -/
structure Draws.Valid (d : Draws) : Prop where
  order : ∀ n : ℤ, (d.order n).Perm (List.range n.toNat)
  u : DrawsBetween d.u
  pick : ∀ lo hi, lo ≤ hi → lo ≤ d.pick lo hi ∧ d.pick lo hi ≤ hi

/-- The side of the joint that has chosen more of `[lo, hi)`; side 0 if both have the same. -/
def Majority (ch0 ch1 : Geom1D) (lo hi : ℚ) (s : ℕ) : Prop :=
  (s = 0 ∨ s = 1) ∧ (s = 1 ↔ chosenIn ch0 lo hi < chosenIn ch1 lo hi)

/-- C48: every stretch is given to side 0 as a whole, and then no number of fingers of the wanted
parity fits, or it is cut into consecutive spans within the width limits, which go alternately to the
two sides, beginning with the side opposite to the majority before the stretch; the number of spans is
the number drawn.  No assertion can fail. -/
theorem c48_split (d : Draws) (hd : d.Valid) (minW maxW : ℚ) (h1 : 0 < minW) (h2 : 0 < maxW)
    (ch0 ch1 : Geom1D) (hc0 : ch0.Made) (hc1 : ch1.Made) (start stop : ℚ) (hss : start < stop) :
    ∃ before after, Majority ch0 ch1 (start - 2) start before ∧
      Majority ch0 ch1 stop (stop + 2) after ∧
      ((∃ g, stretchFingers d minW maxW ch0 ch1 start stop = .ok [(0, g)] ∧ g.Made ∧
          pointsOf g.intervals = {x | (start : ℝ) ≤ x ∧ x < (stop : ℝ)} ∧
          ∀ k : ℤ, (k % 2 = if before ≠ after then 0 else 1) →
            ¬ (minW * k ≤ stop - start ∧ stop - start ≤ maxW * k)) ∨
       (∃ g0 g1 spans lo hi, stretchFingers d minW maxW ch0 ch1 start stop = .ok [(0, g0), (1, g1)] ∧
          g0.Made ∧ g1.Made ∧ Consecutive start spans stop ∧
          fingerCount minW maxW (stop - start) (decide (before ≠ after)) = .ok (some (lo, hi)) ∧
          (spans.length : ℤ) = d.pick lo hi ∧ spans ≠ [] ∧
          (∀ s ∈ spans, minW ≤ s.2 - s.1 ∧ s.2 - s.1 ≤ maxW) ∧
          pointsOf g0.intervals = everySecond (if before = 0 then spans.tail else spans) ∧
          pointsOf g1.intervals = everySecond (if before = 0 then spans else spans.tail) ∧
          Disjoint (pointsOf g0.intervals) (pointsOf g1.intervals) ∧
          pointsOf g0.intervals ∪ pointsOf g1.intervals = {x | (start : ℝ) ≤ x ∧ x < (stop : ℝ)})) := by
  obtain ⟨before, b1, b2, b3⟩ := onSide_spec ch0 ch1 hc0 hc1 (start - 2) start (by linarith)
  obtain ⟨after, a1, a2, a3⟩ := onSide_spec ch0 ch1 hc0 hc1 stop (stop + 2) (by linarith)
  refine ⟨before, after, ⟨b2, b3⟩, ⟨a2, a3⟩, ?_⟩
  obtain ⟨g, g1, g2, g3⟩ := construct_fin start stop hss.le
  have key : stretchFingers d minW maxW ch0 ch1 start stop =
      (do
        let cnt ← fingerCount minW maxW (stop - start) (decide (before ≠ after))
        match cnt with
        | none => .ok [(0, g)]
        | some (lo, hi) => do
          let n := d.pick lo hi
          let locations ← randomMinMax d.u (d.order n) n minW maxW (stop - start)
          let e ← Geom1D.empty
          let (f0, f1) ← assignLoop start locations (1 - before) e e
          return [(0, f0), (1, f1)]) := by
    unfold stretchFingers
    rw [g1, b1, a1]
    rfl
  rcases fingerCount_spec minW maxW (stop - start) h1 h2 (by linarith) (decide (before ≠ after)) with
    ⟨c1, c2⟩ | ⟨lo, hi, c1, c2, _, _, c3⟩
  · left
    refine ⟨g, ?_, (Geom1D.made_iff_nf _).2 g2, g3, ?_⟩
    · rw [key, c1]; rfl
    · intro k hk
      apply c2 k
      rw [hk]
      by_cases h : before = after <;> simp [h]
  · right
    obtain ⟨p1, p2⟩ := hd.pick lo hi c2
    obtain ⟨k1, k2, k3⟩ := c3 _ p1 p2
    have hn : ((d.pick lo hi).toNat : ℤ) = d.pick lo hi := Int.toNat_of_nonneg (by omega)
    have hnq : (((d.pick lo hi).toNat : ℕ) : ℚ) = ((d.pick lo hi : ℤ) : ℚ) := by exact_mod_cast hn
    obtain ⟨l, l1, l2, l3, l4⟩ := c47_fits d.u hd.u (d.pick lo hi).toNat (d.order (d.pick lo hi))
      (hd.order _) minW maxW (stop - start) (by rw [hnq]; exact k2) (by rw [hnq]; exact k3)
    rw [hn] at l1
    have hw : ∀ s ∈ l, s.1 ≤ s.2 := fun s hs => by linarith [(l4 s hs).1]
    obtain ⟨e, e1, e2, e3⟩ := Geom1D.empty_denotes
    obtain ⟨g0, g1', q1, q2, q3, q4, q5⟩ := assignLoop_spec start l hw (1 - before) (by omega) e e e2 e2
    have hcons := consecutive_shift start l3
    rw [add_zero, add_sub_cancel] at hcons
    have hw' : ∀ s ∈ shift start l, s.1 ≤ s.2 := by
      intro s hs
      obtain ⟨t, ht, rfl⟩ := List.mem_map.1 hs
      simpa using hw t ht
    obtain ⟨u1, u2⟩ := everySecond_bounds hcons hw'
    rw [e3, Set.empty_union] at q4 q5
    have q4' : pointsOf g0.intervals =
        everySecond (if before = 0 then (shift start l).tail else shift start l) := by
      rw [q4]
      rcases b2 with rfl | rfl <;> simp
    have q5' : pointsOf g1'.intervals =
        everySecond (if before = 0 then shift start l else (shift start l).tail) := by
      rw [q5]
      rcases b2 with rfl | rfl <;> simp
    refine ⟨g0, g1', shift start l, lo, hi, ?_, (Geom1D.made_iff_nf _).2 q2,
      (Geom1D.made_iff_nf _).2 q3, hcons, c1, ?_, ?_, ?_, q4', q5', ?_, ?_⟩
    · rw [key, c1]
      show (do
          let locations ← randomMinMax d.u (d.order (d.pick lo hi)) (d.pick lo hi) minW maxW (stop - start)
          let e ← Geom1D.empty
          let (f0, f1) ← assignLoop start locations (1 - before) e e
          return [(0, f0), (1, f1)] : Except PyErr _) = _
      rw [l1]
      show (do
          let e ← Geom1D.empty
          let (f0, f1) ← assignLoop start l (1 - before) e e
          return [(0, f0), (1, f1)] : Except PyErr _) = _
      rw [e1]
      show (do
          let (f0, f1) ← assignLoop start l (1 - before) e e
          return [(0, f0), (1, f1)] : Except PyErr _) = _
      rw [q1]
      rfl
    · rw [shift, List.length_map, l2, hn]
    · intro hnil
      have : l.length = 0 := by simpa [shift] using congrArg List.length hnil
      omega
    · intro s hs
      obtain ⟨t, ht, rfl⟩ := List.mem_map.1 hs
      have := l4 t ht
      simpa using this
    · rw [q4', q5']
      rcases b2 with rfl | rfl
      · simpa using u2.symm
      · simpa using u2
    · rw [q4', q5']
      rcases b2 with rfl | rfl
      · simpa [Set.union_comm] using u1
      · simpa using u1

/-- A stretch of 20 with fingers between 3 and 5, nothing chosen yet, drawing the lower bounds. -/
def lowDraws : Draws where
  order n := List.range n.toNat
  u _ low _ := low
  pick lo _ := lo

theorem lowDraws_valid : lowDraws.Valid :=
  ⟨fun _ => List.Perm.refl _, fun _ _ _ h => ⟨le_rfl, h⟩, fun _ _ h => ⟨le_rfl, h⟩⟩

example : ∃ e, Geom1D.empty = .ok e ∧ ∃ g0 g1,
    stretchFingers lowDraws 3 5 e e 0 20 = .ok [(0, g0), (1, g1)] ∧
      Disjoint (pointsOf g0.intervals) (pointsOf g1.intervals) := by
  obtain ⟨e, e1, e2, e3⟩ := Geom1D.empty_denotes
  have he : e.Made := (Geom1D.made_iff_nf _).2 e2
  refine ⟨e, e1, ?_⟩
  obtain ⟨b, a, hb, ha, h⟩ := c48_split lowDraws lowDraws_valid 3 5 (by norm_num) (by norm_num) e e he he
    0 20 (by norm_num)
  have hb0 : b = 0 := hb.1.resolve_right fun h => lt_irrefl _ (hb.2.1 h)
  have ha0 : a = 0 := ha.1.resolve_right fun h => lt_irrefl _ (ha.2.1 h)
  rcases h with ⟨g, _, _, _, hk⟩ | ⟨g0, g1, _, _, _, h1, _, _, _, _, _, _, _, _, _, h2, _⟩
  · exact absurd (by norm_num) (hk 5 (by rw [hb0, ha0]; simp))
  · exact ⟨g0, g1, h1, h2⟩

/-! ### C49 -/

theorem everySecond_last {a b : ℚ} {l : List (ℚ × ℚ)} (h : Consecutive a l b) (w : ℚ)
    (hw : ∀ s ∈ l, w ≤ s.2 - s.1) (hne : l ≠ []) :
    {x | (b : ℝ) - w ≤ x ∧ x < (b : ℝ)} ⊆
      everySecond (if l.length % 2 = 1 then l else l.tail) := by
  induction l generalizing a with
  | nil => exact absurd rfl hne
  | cons s l ih =>
    obtain ⟨rfl, h2⟩ := h
    cases l with
    | nil =>
      have h3 : s.2 = b := h2
      subst h3
      rintro x ⟨x1, x2⟩
      have := hw s (by simp)
      have : (w : ℝ) ≤ s.2 - s.1 := by exact_mod_cast this
      simp only [List.length_cons, List.length_nil, Nat.zero_add, Nat.mod_succ, if_true, everySecond]
      exact ⟨by linarith, x2⟩
    | cons t l =>
      refine (ih h2 (fun r hr => hw r (by simp [hr])) (by simp)).trans ?_
      rcases Nat.mod_two_eq_zero_or_one (t :: l).length with hp | hp
      · rw [if_neg (by omega), if_pos (by simp only [List.length_cons] at hp ⊢; omega),
          everySecond_cons s]
        exact Set.subset_union_right
      · rw [if_pos hp, if_neg (by simp only [List.length_cons] at hp ⊢; omega), List.tail_cons]

/-- What the first and the last finger of a stretch are: the first is always on the side opposite to
the majority before the stretch, the last on the side determined by the parity of the number drawn. -/
theorem stretch_ends (d : Draws) (hd : d.Valid) (minW maxW : ℚ) (h1 : 0 < minW) (h2 : 0 < maxW)
    (ch0 ch1 : Geom1D) (hc0 : ch0.Made) (hc1 : ch1.Made) (start stop : ℚ) (hss : start < stop)
    (g0 g1 : Geom1D) (hr : stretchFingers d minW maxW ch0 ch1 start stop = .ok [(0, g0), (1, g1)]) :
    ∃ before after lo hi, Majority ch0 ch1 (start - 2) start before ∧
      Majority ch0 ch1 stop (stop + 2) after ∧
      fingerCount minW maxW (stop - start) (decide (before ≠ after)) = .ok (some (lo, hi)) ∧
      {x | (start : ℝ) ≤ x ∧ x < (start : ℝ) + minW} ⊆
        pointsOf (if before = 0 then g1 else g0).intervals ∧
      {x | (stop : ℝ) - minW ≤ x ∧ x < (stop : ℝ)} ⊆
        pointsOf (if (before + d.pick lo hi) % 2 = 0 then g0 else g1).intervals ∧
      Disjoint (pointsOf g0.intervals) (pointsOf g1.intervals) := by
  obtain ⟨before, after, hb, ha, h⟩ := c48_split d hd minW maxW h1 h2 ch0 ch1 hc0 hc1 start stop hss
  rcases h with ⟨g, e, _⟩ | ⟨g0', g1', spans, lo, hi, e, _, _, hcons, hcnt, hlen, hne, hw, p0, p1, hdis, _⟩
  · rw [e] at hr
    simp at hr
  · rw [e] at hr
    simp only [Except.ok.injEq, List.cons.injEq, Prod.mk.injEq, true_and, and_true] at hr
    obtain ⟨rfl, rfl⟩ := hr
    refine ⟨before, after, lo, hi, hb, ha, hcnt, ?_, ?_, hdis⟩
    · have key : {x | (start : ℝ) ≤ x ∧ x < (start : ℝ) + minW} ⊆ everySecond spans := by
        cases spans with
        | nil => exact absurd rfl hne
        | cons s l =>
          rw [everySecond_cons]
          rintro x ⟨x1, x2⟩
          left
          have e1 : s.1 = start := hcons.1
          have := (hw s (by simp)).1
          have : (minW : ℝ) ≤ s.2 - s.1 := by exact_mod_cast this
          rw [e1] at this
          exact ⟨by rw [e1]; exact x1, by linarith⟩
      rcases hb.1 with rfl | rfl
      · rw [if_pos rfl, p1, if_pos rfl]; exact key
      · rw [if_neg (by decide), p0, if_neg (by decide)]; exact key
    · have key := everySecond_last hcons minW (fun s hs => (hw s hs).1) hne
      rw [← hlen]
      rcases hb.1 with rfl | rfl
      · rcases Nat.mod_two_eq_zero_or_one spans.length with hp | hp
        · rw [if_pos (by omega), p0, if_pos rfl]
          rwa [if_neg (by omega)] at key
        · rw [if_neg (by omega), p1, if_pos rfl]
          rwa [if_pos hp] at key
      · rcases Nat.mod_two_eq_zero_or_one spans.length with hp | hp
        · rw [if_neg (by push_cast; omega), p1, if_neg (by decide)]
          rwa [if_neg (by omega)] at key
        · rw [if_pos (by push_cast; omega), p0, if_neg (by decide)]
          rwa [if_pos hp] at key

/-- C49, first half: whenever the stretch is cut into fingers, the first one goes to the side opposite
to the one that has chosen more of the two units before the stretch. -/
theorem c49_first (d : Draws) (hd : d.Valid) (minW maxW : ℚ) (h1 : 0 < minW) (h2 : 0 < maxW)
    (ch0 ch1 : Geom1D) (hc0 : ch0.Made) (hc1 : ch1.Made) (start stop : ℚ) (hss : start < stop)
    (g0 g1 : Geom1D) (hr : stretchFingers d minW maxW ch0 ch1 start stop = .ok [(0, g0), (1, g1)]) :
    (chosenIn ch1 (start - 2) start < chosenIn ch0 (start - 2) start →
      {x | (start : ℝ) ≤ x ∧ x < (start : ℝ) + minW} ⊆ pointsOf g1.intervals) ∧
    (chosenIn ch0 (start - 2) start < chosenIn ch1 (start - 2) start →
      {x | (start : ℝ) ≤ x ∧ x < (start : ℝ) + minW} ⊆ pointsOf g0.intervals) := by
  obtain ⟨before, after, lo, hi, hb, _, _, h, _⟩ :=
    stretch_ends d hd minW maxW h1 h2 ch0 ch1 hc0 hc1 start stop hss g0 g1 hr
  constructor
  · intro hlt
    have : before = 0 := hb.1.resolve_right fun e => lt_asymm hlt (hb.2.1 e)
    rwa [if_pos this] at h
  · intro hlt
    have : before ≠ 0 := by rw [hb.2.2 hlt]; decide
    rwa [if_neg this] at h

/-- The side of the last finger when the number drawn has the parity of the upper limit. -/
theorem last_of_parity (d : Draws) (hd : d.Valid) (minW maxW : ℚ) (h1 : 0 < minW) (h2 : 0 < maxW)
    (ch0 ch1 : Geom1D) (hc0 : ch0.Made) (hc1 : ch1.Made) (start stop : ℚ) (hss : start < stop)
    (g0 g1 : Geom1D) (hr : stretchFingers d minW maxW ch0 ch1 start stop = .ok [(0, g0), (1, g1)])
    (hpar : ∀ lo hi : ℤ, lo ≤ hi → (hi ≤ 5 → lo = hi) →
      (∃ odd, fingerCount minW maxW (stop - start) odd = .ok (some (lo, hi))) →
      d.pick lo hi % 2 = hi % 2) :
    (chosenIn ch1 stop (stop + 2) < chosenIn ch0 stop (stop + 2) →
      {x | (stop : ℝ) - minW ≤ x ∧ x < (stop : ℝ)} ⊆ pointsOf g1.intervals) ∧
    (chosenIn ch0 stop (stop + 2) < chosenIn ch1 stop (stop + 2) →
      {x | (stop : ℝ) - minW ≤ x ∧ x < (stop : ℝ)} ⊆ pointsOf g0.intervals) := by
  obtain ⟨before, after, lo, hi, hb, ha, hcnt, _, h, _⟩ :=
    stretch_ends d hd minW maxW h1 h2 ch0 ch1 hc0 hc1 start stop hss g0 g1 hr
  rcases fingerCount_spec minW maxW (stop - start) h1 h2 (by linarith) (decide (before ≠ after)) with
    ⟨c1, _⟩ | ⟨lo', hi', c1, c2, c3, c4, _⟩
  · rw [c1] at hcnt; simp at hcnt
  · rw [c1] at hcnt
    simp only [Except.ok.injEq, Option.some.injEq, Prod.mk.injEq] at hcnt
    obtain ⟨rfl, rfl⟩ := hcnt
    have hp := hpar lo' hi' c2 c4 ⟨_, c1⟩
    rw [c3] at hp
    constructor
    · intro hlt
      have ha0 : after = 0 := ha.1.resolve_right fun e => lt_asymm hlt (ha.2.1 e)
      subst ha0
      rcases hb.1 with rfl | rfl
      · simp at hp
        rwa [if_neg (by push_cast; omega)] at h
      · simp at hp
        rwa [if_neg (by push_cast; omega)] at h
    · intro hlt
      have ha1 : after = 1 := ha.2.2 hlt
      subst ha1
      rcases hb.1 with rfl | rfl
      · simp at hp
        rwa [if_pos (by push_cast; omega)] at h
      · simp at hp
        rwa [if_pos (by push_cast; omega)] at h

/-- C49, second half, as far as it is true: when the number drawn has the parity of its upper limit, the
last finger goes to the side opposite to the one that has chosen more of the two units after the
stretch.  The code does not make sure of the parity; see `c49_last_wrong`. -/
theorem c49_last_partial (d : Draws) (hd : d.Valid) (hpar : ∀ lo hi : ℤ, d.pick lo hi % 2 = hi % 2)
    (minW maxW : ℚ) (h1 : 0 < minW) (h2 : 0 < maxW)
    (ch0 ch1 : Geom1D) (hc0 : ch0.Made) (hc1 : ch1.Made) (start stop : ℚ) (hss : start < stop)
    (g0 g1 : Geom1D) (hr : stretchFingers d minW maxW ch0 ch1 start stop = .ok [(0, g0), (1, g1)]) :
    (chosenIn ch1 stop (stop + 2) < chosenIn ch0 stop (stop + 2) →
      {x | (stop : ℝ) - minW ≤ x ∧ x < (stop : ℝ)} ⊆ pointsOf g1.intervals) ∧
    (chosenIn ch0 stop (stop + 2) < chosenIn ch1 stop (stop + 2) →
      {x | (stop : ℝ) - minW ≤ x ∧ x < (stop : ℝ)} ⊆ pointsOf g0.intervals) :=
  last_of_parity d hd minW maxW h1 h2 ch0 ch1 hc0 hc1 start stop hss g0 g1 hr
    fun lo hi _ _ _ => hpar lo hi

/-- C49, second half, for short stretches: below six times the minimal width the number of fingers is
forced, so the last finger is right for all draws. -/
theorem c49_last_short_partial (d : Draws) (hd : d.Valid)
    (minW maxW : ℚ) (h1 : 0 < minW) (h2 : 0 < maxW)
    (ch0 ch1 : Geom1D) (hc0 : ch0.Made) (hc1 : ch1.Made) (start stop : ℚ) (hss : start < stop)
    (hshort : stop - start < 6 * minW)
    (g0 g1 : Geom1D) (hr : stretchFingers d minW maxW ch0 ch1 start stop = .ok [(0, g0), (1, g1)]) :
    (chosenIn ch1 stop (stop + 2) < chosenIn ch0 stop (stop + 2) →
      {x | (stop : ℝ) - minW ≤ x ∧ x < (stop : ℝ)} ⊆ pointsOf g1.intervals) ∧
    (chosenIn ch0 stop (stop + 2) < chosenIn ch1 stop (stop + 2) →
      {x | (stop : ℝ) - minW ≤ x ∧ x < (stop : ℝ)} ⊆ pointsOf g0.intervals) := by
  refine last_of_parity d hd minW maxW h1 h2 ch0 ch1 hc0 hc1 start stop hss g0 g1 hr ?_
  rintro lo hi hle h5 ⟨odd, hodd⟩
  have hhi : hi ≤ 5 := by
    rcases fingerCount_spec minW maxW (stop - start) h1 h2 (by linarith) odd with
      ⟨c1, _⟩ | ⟨lo', hi', c1, c2, c3, c4, c5⟩
    · rw [c1] at hodd; simp at hodd
    · rw [c1] at hodd
      simp only [Except.ok.injEq, Option.some.injEq, Prod.mk.injEq] at hodd
      obtain ⟨rfl, rfl⟩ := hodd
      have := (c5 hi' c2 le_rfl).2.1
      by_contra hc
      have h6 : (6 : ℚ) ≤ (hi' : ℚ) := by exact_mod_cast (by omega : (6 : ℤ) ≤ hi')
      nlinarith
  have := h5 hhi
  subst this
  obtain ⟨p1, p2⟩ := hd.pick lo lo le_rfl
  rw [le_antisymm p2 p1]

/-- Draws that take the largest number but one. -/
def highDraws : Draws where
  order n := List.range n.toNat
  u _ low _ := low
  pick lo hi := if lo < hi then hi - 1 else lo

theorem highDraws_valid : highDraws.Valid := by
  refine ⟨fun _ => List.Perm.refl _, fun _ _ _ h => ⟨le_rfl, h⟩, fun lo hi h => ?_⟩
  show lo ≤ (if lo < hi then hi - 1 else lo) ∧ (if lo < hi then hi - 1 else lo) ≤ hi
  split_ifs <;> constructor <;> omega

/-- The second half of C49 is false for the code as it is: with fingers between 3 and 5 wide and a
stretch of length 30, between two parts both chosen by side 0, a permitted draw gives the last finger to
side 0 again. -/
theorem c49_last_wrong : ∃ (d : Draws) (ch0 ch1 g0 g1 : Geom1D), d.Valid ∧ ch0.Made ∧ ch1.Made ∧
    stretchFingers d 3 5 ch0 ch1 0 30 = .ok [(0, g0), (1, g1)] ∧
    chosenIn ch1 30 (30 + 2) < chosenIn ch0 30 (30 + 2) ∧
    {x : ℝ | 30 - 3 ≤ x ∧ x < 30} ⊆ pointsOf g0.intervals ∧
    Disjoint {x : ℝ | 30 - 3 ≤ x ∧ x < 30} (pointsOf g1.intervals) := by
  obtain ⟨e, e1, e2, e3⟩ := Geom1D.empty_denotes
  have he : e.Made := (Geom1D.made_iff_nf _).2 e2
  obtain ⟨c, c1, c2, c3⟩ := construct_fin 30 32 (by norm_num)
  have hc : c.Made := (Geom1D.made_iff_nf _).2 c2
  have hch : chosenIn e 30 (30 + 2) < chosenIn c 30 (30 + 2) := by
    unfold chosenIn
    rw [e3, c3]
    norm_num
    have : {x : ℝ | 30 ≤ x ∧ x < 32} = Set.Ico 30 32 := rfl
    rw [this]
    simp only [Real.volume_Ico]
    norm_num
  have hbe : ∀ b, Majority c e (0 - 2) 0 b → b = 0 := by
    intro b hb
    refine hb.1.resolve_right fun h => ?_
    have := hb.2.1 h
    unfold chosenIn at this
    rw [e3] at this
    simp at this
  obtain ⟨b, a, hb, ha, h⟩ := c48_split highDraws highDraws_valid 3 5 (by norm_num) (by norm_num)
    c e hc he 0 30 (by norm_num)
  have ha0 : a = 0 := ha.1.resolve_right fun h => lt_asymm hch (ha.2.1 h)
  have hb0 := hbe b hb
  rcases h with ⟨g, _, _, _, hk⟩ | ⟨g0, g1, _, _, _, h1, _⟩
  · exact absurd (by norm_num) (hk 7 (by rw [hb0, ha0]; simp))
  · refine ⟨highDraws, c, e, g0, g1, highDraws_valid, hc, he, h1, hch, ?_⟩
    obtain ⟨b', a', lo, hi, hb', ha', hcnt, _, hl, hdis⟩ := stretch_ends highDraws highDraws_valid 3 5
      (by norm_num) (by norm_num) c e hc he 0 30 (by norm_num) g0 g1 h1
    have ha0 : a' = 0 := ha'.1.resolve_right fun h => lt_asymm hch (ha'.2.1 h)
    have hb0 := hbe b' hb'
    subst ha0 hb0
    have hcnt' : fingerCount 3 5 (30 - 0) (decide ((0 : ℕ) ≠ 0)) = .ok (some (7, 9)) := by
      unfold fingerCount
      rw [if_neg (by norm_num)]
      norm_num
    rw [hcnt'] at hcnt
    simp only [Except.ok.injEq, Option.some.injEq, Prod.mk.injEq] at hcnt
    obtain ⟨rfl, rfl⟩ := hcnt
    rw [show highDraws.pick 7 9 = 8 from rfl, if_pos (by norm_num)] at hl
    have hl' : {x : ℝ | 30 - 3 ≤ x ∧ x < 30} ⊆ pointsOf g0.intervals := by
      intro x hx
      apply hl
      simpa using hx
    exact ⟨hl', hdis.mono_left hl'⟩


end Ply
