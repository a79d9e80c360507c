import Verif.Proofs.ArrCells

/-!
# The half-edges around a vertex are a single cycle
-/

namespace Ply.Arr

/-- The entry of the fan with the index taken modulo its length. -/
def Nth (fan : Fan) (i : ℕ) (x : ℚ × Seg) : Prop := fan[i % fan.length]? = some x

theorem Nth.mem {fan : Fan} {i : ℕ} {x : ℚ × Seg} (h : Nth fan i x) : x ∈ fan := List.mem_of_getElem? h

theorem nth_exists {fan : Fan} (hne : fan ≠ []) (i : ℕ) : ∃ x, Nth fan i x := by
  have h0 : 0 < fan.length := List.length_pos_iff.2 hne
  exact ⟨fan[i % fan.length]'(Nat.mod_lt _ h0), List.getElem?_eq_getElem _⟩

theorem nth_of_mem {fan : Fan} {x : ℚ × Seg} (h : x ∈ fan) : ∃ i < fan.length, Nth fan i x := by
  obtain ⟨i, hi, rfl⟩ := List.mem_iff_getElem.1 h
  refine ⟨i, hi, ?_⟩
  unfold Nth
  rw [Nat.mod_eq_of_lt hi]
  exact List.getElem?_eq_getElem _

theorem nth_lt {H : List Seg} {c : Pt} {fan : Fan} (hf : FanOK H c fan) {i j : ℕ} {x y : ℚ × Seg} (hx : Nth fan i x)
    (hy : Nth fan j y) (hij : i % fan.length < j % fan.length) : x.1 < y.1 := by
  unfold Nth at hx hy
  obtain ⟨h1, rfl⟩ := List.getElem?_eq_some_iff.1 hx
  obtain ⟨h2, rfl⟩ := List.getElem?_eq_some_iff.1 hy
  exact List.pairwise_iff_getElem.1 hf.sorted _ _ h1 h2 hij

theorem nth_inj {H : List Seg} {c : Pt} {fan : Fan} (hf : FanOK H c fan) {i j : ℕ} {x y : ℚ × Seg} (hx : Nth fan i x)
    (hy : Nth fan j y) (h : x.2 = y.2) : i % fan.length = j % fan.length := by
  have hk : x.1 = y.1 := by
    have a := (hf.sound x hx.mem).2.2
    have b := (hf.sound y hy.mem).2.2
    rw [h, b] at a
    exact (Except.ok.inj a).symm
  rcases lt_trichotomy (i % fan.length) (j % fan.length) with h | h | h
  · exact absurd (nth_lt hf hx hy h) (by rw [hk]; exact lt_irrefl _)
  · exact h
  · exact absurd (nth_lt hf hy hx h) (by rw [hk]; exact lt_irrefl _)

/-- Next clockwise is the next in the list. -/
theorem cw_nth {H : List Seg} {c : Pt} {fan : Fan} (hf : FanOK H c fan) {i : ℕ} {x y : ℚ × Seg} (hx : Nth fan i x)
    (hy : Nth fan (i + 1) y) : getNextCw c fan x.2 = .ok y.2 := by
  obtain ⟨s1, s2, s3⟩ := hf.sound x hx.mem
  obtain ⟨θ, z, hθ, hz, hok, hor⟩ := cw_spec hf s1 s2
  have hθx : θ = x.1 := by
    have := (hf.sound _ hθ).2.2
    rw [s3] at this
    exact (Except.ok.inj this).symm
  subst hθx
  obtain ⟨j, hj, hzj⟩ := nth_of_mem hz
  have hn : 0 < fan.length := Nat.lt_of_le_of_lt (Nat.zero_le _) hj
  have hjj : j % fan.length = j := Nat.mod_eq_of_lt hj
  rw [hok]
  have key : z = y := by
    apply fan_unique hf hz hy.mem
    have hm : (i + 1) % fan.length = (i % fan.length + 1) % fan.length := by rw [Nat.mod_add_mod]
    have hi := Nat.mod_lt i hn
    rcases Nat.lt_or_ge (i % fan.length + 1) fan.length with hlt | hge
    · have hm' : (i + 1) % fan.length = i % fan.length + 1 := by rw [hm, Nat.mod_eq_of_lt hlt]
      have hxy : x.1 < y.1 := nth_lt hf hx hy (by omega)
      rcases hor with ⟨h1, h2⟩ | h
      · apply le_antisymm (h2 y hy.mem hxy)
        by_contra hc
        have hc := not_le.1 hc
        have a : i % fan.length < j := by
          by_contra hcc
          rcases Nat.lt_or_ge j (i % fan.length) with h | h
          · exact absurd (nth_lt hf hzj hx (by omega)) (not_lt.2 h1.le)
          · have : j = i % fan.length := by omega
            have e : z = x := by
              unfold Nth at hzj hx
              rw [hjj, this, hx] at hzj
              exact (Option.some.inj hzj).symm
            rw [e] at h1; exact lt_irrefl _ h1
        rcases Nat.lt_or_ge (i % fan.length + 1) j with h | h
        · exact absurd (nth_lt hf hy hzj (by omega)) (not_lt.2 hc.le)
        · have : j = i % fan.length + 1 := by omega
          have e : z = y := by
            unfold Nth at hzj hy
            rw [hjj, this, ← hm', hy] at hzj
            exact (Option.some.inj hzj).symm
          rw [e] at hc; exact lt_irrefl _ hc
      · exact absurd (h y hy.mem).2 (not_le.2 hxy)
    · have hm' : (i + 1) % fan.length = 0 := by
        rw [hm]
        have : i % fan.length + 1 = fan.length := by omega
        rw [this, Nat.mod_self]
      rcases hor with ⟨h1, h2⟩ | h
      · rcases Nat.lt_or_ge j (i % fan.length) with h | h
        · exact absurd (nth_lt hf hzj hx (by omega)) (not_lt.2 h1.le)
        · have : j = i % fan.length := by omega
          have e : z = x := by
            unfold Nth at hzj hx
            rw [hjj, this, hx] at hzj
            exact (Option.some.inj hzj).symm
          rw [e] at h1; exact absurd h1 (lt_irrefl _)
      · apply le_antisymm (h y hy.mem).1
        rcases Nat.eq_zero_or_pos j with h0 | h0
        · have e : z = y := by
            unfold Nth at hzj hy
            rw [hjj, h0, ← hm', hy] at hzj
            exact (Option.some.inj hzj).symm
          rw [e]
        · exact (nth_lt hf hy hzj (by omega)).le
  rw [key]

/-- Next counter-clockwise is the previous in the list. -/
theorem ccw_nth {H : List Seg} {c : Pt} {fan : Fan} (hf : FanOK H c fan) {i : ℕ} {x y : ℚ × Seg} (hx : Nth fan i x)
    (hy : Nth fan (i + 1) y) : getNextCcw c fan y.2 = .ok x.2 := by
  obtain ⟨s1, s2, s3⟩ := hf.sound y hy.mem
  obtain ⟨θ, z, hθ, hz, hok, hor⟩ := ccw_spec hf s1 s2
  have hcw : getNextCw c fan z.2 = .ok y.2 := by
    unfold getNextCcw at hok
    obtain ⟨k, hk, hok⟩ := (bind_ok _ _ _).1 hok
    obtain ⟨nxt, hn, hok⟩ := (bind_ok _ _ _).1 hok
    obtain ⟨prev, hp, hok⟩ := (bind_ok _ _ _).1 hok
    split_ifs at hok with he
    cases hok
    rw [hp, he]
  obtain ⟨j, hj, hzj⟩ := nth_of_mem hz
  have hn : 0 < fan.length := Nat.lt_of_le_of_lt (Nat.zero_le _) hj
  obtain ⟨w, hw⟩ := nth_exists (fan := fan) (by rintro rfl; simp at hn) (j + 1)
  rw [cw_nth hf hzj hw] at hcw
  have h1 := nth_inj hf hw hy (Except.ok.inj hcw)
  have h2 : j ≡ i [MOD fan.length] := Nat.ModEq.add_right_cancel' 1 h1
  have e : z = x := by
    unfold Nth at hzj hx
    rw [show j % fan.length = i % fan.length from h2, hx] at hzj
    exact (Option.some.inj hzj).symm
  rw [hok, e]

theorem ensure_pos {c : Prop} [Decidable c] (h : c) : ensure c = .ok () := if_pos h

theorem checkFan_ok {H : List Seg} {c : Pt} {fan : Fan} (hf : FanOK H c fan) {x0 : ℚ × Seg} (h0 : Nth fan 0 x0) (m : ℕ)
    (hm : m ≤ fan.length) {x y : ℚ × Seg} (hx : Nth fan (fan.length - m) x) (hy : Nth fan m y) :
    checkFan c fan x0.2 m x.2 y.2 = .ok () := by
  have hn : fan ≠ [] := List.ne_nil_of_mem h0.mem
  have hn0 : 0 < fan.length := List.length_pos_iff.2 hn
  have hinj : ∀ {i : ℕ} {z : ℚ × Seg}, Nth fan i z → 0 < i → i < fan.length → z.2 ≠ x0.2 := by
    intro i z hz i0 i1 he
    have := nth_inj hf hz h0 he
    rw [Nat.mod_eq_of_lt i1, Nat.mod_eq_of_lt hn0] at this
    omega
  induction m generalizing x y with
  | zero =>
    rw [checkFan]
    have e1 : x = x0 := by
      unfold Nth at hx h0
      rw [Nat.sub_zero, Nat.mod_self] at hx
      rw [Nat.mod_eq_of_lt hn0, hx] at h0
      exact Option.some.inj h0
    have e2 : y = x0 := by
      unfold Nth at hy h0
      rw [hy] at h0
      exact Option.some.inj h0
    rw [e1, e2, ensure_pos rfl]
    rfl
  | succ m ih =>
    rw [checkFan]
    obtain ⟨x', hx'⟩ := nth_exists hn (fan.length - m)
    obtain ⟨y', hy'⟩ := nth_exists hn m
    rw [cw_nth hf hx (y := x') (by rw [show fan.length - (m + 1) + 1 = fan.length - m by omega]; exact hx')]
    show (getNextCcw c fan y.2 >>= _) = _
    rw [ccw_nth hf hy' hy]
    show (if _ then _ else _) = _
    split_ifs with h1
    · rw [ensure_pos (hinj hx' (by omega) (by omega))]
      show (ensure _ >>= _) = _
      rw [ensure_pos (hinj hy' (by omega) (by omega))]
      exact ih (by omega) hx' hy'
    · exact ih (by omega) hx' hy'

theorem checkFans_ok {H : List Seg} (l : List (Pt × Fan)) (hl : ∀ x ∈ l, FanOK H x.1 x.2 ∧ x.2 ≠ []) :
    checkFans l = .ok () := by
  induction l with
  | nil => rfl
  | cons a l ih =>
    obtain ⟨c, fan⟩ := a
    obtain ⟨h1, h2⟩ := hl _ List.mem_cons_self
    dsimp only at h1 h2
    cases fan with
    | nil => exact absurd rfl h2
    | cons x rest =>
      rw [checkFans]
      have h0 : Nth (x :: rest) 0 x := by unfold Nth; simp
      have hn : Nth (x :: rest) (x :: rest).length x := by unfold Nth; rw [Nat.mod_self]; rfl
      rw [checkFan_ok h1 h0 _ le_rfl (by rw [Nat.sub_self]; exact h0) hn]
      exact ih fun y hy => hl y (List.mem_cons_of_mem _ hy)

end Ply.Arr
