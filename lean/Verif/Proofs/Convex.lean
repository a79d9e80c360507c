import Verif.Spec.Minkowski
import Verif.Proofs.Simplify
import Verif.Proofs.Angle
import Verif.Proofs.MinMax
import Mathlib.Tactic.Abel

/-! # Convex polygons around the origin, and where they touch a loop -/

namespace Ply

theorem cycGet_emod (l : List Pt) (k : ℤ) : cycGet l (k % (l.length : ℤ)) = cycGet l k := by
  unfold cycGet; rw [Int.emod_emod]

theorem cycGet_nat (l : List Pt) (k : ℕ) (hk : k < l.length) : cycGet l k = l[k] := by
  unfold cycGet
  have : ((k : ℤ) % (l.length : ℤ)).toNat = k := by
    rw [Int.emod_eq_of_lt (by omega) (by omega)]; simp
  rw [this, List.getD_eq_getElem _ _ hk]

theorem cycGet_mod (l : List Pt) (k : ℕ) (hl : l ≠ []) :
    cycGet l k = l[k % l.length]'(Nat.mod_lt _ (List.length_pos_iff.2 hl)) := by
  rw [← cycGet_nat l (k % l.length) (Nat.mod_lt _ (List.length_pos_iff.2 hl)), ← cycGet_emod]
  norm_cast

theorem polyEdges_get (l : List Pt) (k : ℕ) (hk : k < l.length) :
    (polyEdges l)[k]? = some (cycGet l k, cycGet l (k + 1)) := by
  have hne : l ≠ [] := by rintro rfl; simp at hk
  cases l with
  | nil => simp at hk
  | cons a rest =>
    simp only [List.length_cons] at hk
    have h2 : cycGet (a :: rest) ((k : ℤ) + 1) = (rest ++ [a])[k]'(by simp; omega) := by
      have := cycGet_mod (a :: rest) (k + 1) hne
      push_cast at this
      rw [this]
      by_cases hk' : k < rest.length
      · have e : (k + 1) % (a :: rest).length = k + 1 := Nat.mod_eq_of_lt (by simp; omega)
        rw [List.getElem_append_left hk']
        simp only [e, List.getElem_cons_succ]
      · have e0 : k = rest.length := by omega
        subst e0
        have e : (rest.length + 1) % (a :: rest).length = 0 := by simp
        simp only [e, List.getElem_cons_zero]
        rw [List.getElem_append_right (le_refl _)]
        simp
    rw [h2, cycGet_nat _ _ (by simpa using hk)]
    unfold polyEdges
    rw [List.getElem?_eq_getElem (by simp; omega), List.getElem_zip]

theorem mem_polyEdges {l : List Pt} {e : Seg} :
    e ∈ polyEdges l ↔ ∃ k : ℕ, k < l.length ∧ e = (cycGet l k, cycGet l (k + 1)) := by
  constructor
  · intro h
    obtain ⟨k, hk, he⟩ := List.getElem_of_mem h
    have hlen : (polyEdges l).length = l.length := by cases l <;> simp [polyEdges]
    have hk' : k < l.length := hlen ▸ hk
    refine ⟨k, hk', ?_⟩
    have := polyEdges_get l k hk'
    rw [List.getElem?_eq_getElem hk, he] at this
    exact Option.some.inj this
  · rintro ⟨k, hk, rfl⟩
    exact List.mem_of_getElem? (polyEdges_get l k hk)

theorem cyc_mem {l : List Pt} (hl : l ≠ []) (k : ℤ) : (cycGet l k, cycGet l (k + 1)) ∈ polyEdges l := by
  have hn : (0 : ℤ) < l.length := by have := List.length_pos_iff.2 hl; omega
  have h1 := Int.emod_nonneg k hn.ne'
  have h2 := Int.emod_lt_of_pos k hn
  refine mem_polyEdges.2 ⟨(k % l.length).toNat, by omega, ?_⟩
  rw [Int.toNat_of_nonneg h1, cycGet_emod, ← cycGet_emod l (k % l.length + 1), Int.emod_add_emod, cycGet_emod]

/-- Vertices and edges of a polygon, at cyclic positions. -/
abbrev cv (C : List Pt) (k : ℤ) : Pt := cycGet C k
def ce (C : List Pt) (k : ℤ) : Pt := cv C (k + 1) - cv C k

/-- A strictly convex polygon around the origin, in clockwise order. -/
structure Conv (C : List Pt) : Prop where
  three : 2 < C.length
  org : ∀ k : ℤ, cross (cv C k) (cv C (k + 1)) < 0
  cvx : ∀ (k : ℤ) (j : ℕ), 2 ≤ j → j < C.length → cross (ce C k) (cv C (k + j) - cv C k) < 0
  order : ∀ (k : ℤ) (i j : ℕ), i < j → j < C.length →
    cw (ang (ce C k)) (ang (ce C (k + i))) < cw (ang (ce C k)) (ang (ce C (k + j)))

/-- Twice the area of the triangle of an edge and the origin. -/
def hh (C : List Pt) (k : ℤ) : ℚ := cross (cv C (k + 1)) (cv C k)

theorem cross_swap (u v : Pt) : cross u v = -cross v u := by unfold cross; ring
theorem cross_add_right (u v w : Pt) : cross u (v + w) = cross u v + cross u w := by
  unfold cross; simp only [Prod.fst_add, Prod.snd_add]; ring
theorem cross_sub_right (u v w : Pt) : cross u (v - w) = cross u v - cross u w := by
  unfold cross; simp only [Prod.fst_sub, Prod.snd_sub]; ring
theorem cross_sub_left (u v w : Pt) : cross (u - v) w = cross u w - cross v w := by
  unfold cross; simp only [Prod.fst_sub, Prod.snd_sub]; ring
theorem cross_add_left (u v w : Pt) : cross (u + v) w = cross u w + cross v w := by
  unfold cross; simp only [Prod.fst_add, Prod.snd_add]; ring
theorem cross_smul_right (k : ℚ) (u v : Pt) : cross u (k • v) = k * cross u v := by
  unfold cross; simp only [Prod.smul_fst, Prod.smul_snd, smul_eq_mul]; ring
theorem cross_smul_left (k : ℚ) (u v : Pt) : cross (k • u) v = k * cross u v := by
  unfold cross; simp only [Prod.smul_fst, Prod.smul_snd, smul_eq_mul]; ring
theorem cross_neg_right (u v : Pt) : cross u (-v) = -cross u v := by
  unfold cross; simp only [Prod.fst_neg, Prod.snd_neg]; ring
theorem cross_neg_left (u v : Pt) : cross (-u) v = -cross u v := by
  unfold cross; simp only [Prod.fst_neg, Prod.snd_neg]; ring
theorem cross_self (u : Pt) : cross u u = 0 := by unfold cross; ring
theorem cross_zero_right (u : Pt) : cross u 0 = 0 := by unfold cross; simp

/-- A vector with vanishing cross product is a multiple. -/
theorem par_of_cross {u w : Pt} (hu : u ≠ 0) (h : cross u w = 0) : ∃ μ : ℚ, w = μ • u := by
  unfold cross at h
  rcases (ne_zero_iff u).1 hu with h1 | h1
  · refine ⟨w.1 / u.1, ?_⟩
    ext
    · simp only [Prod.smul_fst, smul_eq_mul]; field_simp
    · simp only [Prod.smul_snd, smul_eq_mul]; field_simp; linarith
  · refine ⟨w.2 / u.2, ?_⟩
    ext
    · simp only [Prod.smul_fst, smul_eq_mul]; field_simp; linarith
    · simp only [Prod.smul_snd, smul_eq_mul]; field_simp

theorem cv_per (C : List Pt) (k : ℤ) : cv C (k + C.length) = cv C k := cycGet_add_length C k
theorem ce_per (C : List Pt) (k : ℤ) : ce C (k + C.length) = ce C k := by
  unfold ce
  rw [cv_per, show k + (C.length : ℤ) + 1 = k + 1 + C.length by ring, cv_per]
theorem hh_per (C : List Pt) (k : ℤ) : hh C (k + C.length) = hh C k := by
  unfold hh
  rw [cv_per, show k + (C.length : ℤ) + 1 = k + 1 + C.length by ring, cv_per]

/-- A function of the position that repeats with the length of the list. -/
theorem per_nat {C : List Pt} (hC : 0 < C.length) {P : ℤ → Prop} (hP : ∀ k, P (k + C.length) ↔ P k)
    (b : ℤ) (h : ∀ j : ℕ, j < C.length → P (b + j)) (k : ℤ) : P k := by
  have hn : (0 : ℤ) < C.length := by omega
  have h1 := Int.emod_nonneg (k - b) hn.ne'
  have h2 := Int.emod_lt_of_pos (k - b) hn
  have hmul : ∀ m : ℕ, ∀ k, P (k + m * C.length) ↔ P k := by
    intro m
    induction m with
    | zero => intro k; simp
    | succ m ih => intro k; rw [← ih k, ← hP (k + m * C.length)]; push_cast; ring_nf
  have h3 := h ((k - b) % C.length).toNat (by omega)
  rw [Int.toNat_of_nonneg h1] at h3
  have h4 := Int.mul_ediv_add_emod (k - b) C.length
  set d := (k - b) / (C.length : ℤ)
  set r := (k - b) % (C.length : ℤ)
  rcases le_total 0 d with hd | hd
  · have := (hmul d.toNat (b + r)).2 h3
    rw [Int.toNat_of_nonneg hd] at this
    convert this using 1
    linarith
  · have := hmul (-d).toNat k
    rw [Int.toNat_of_nonneg (by omega)] at this
    rw [← this]
    convert h3 using 1
    linarith

namespace Conv

variable {C : List Pt} (hC : Conv C)
include hC

theorem pos : 0 < C.length := by have := hC.three; omega
theorem ne : C ≠ [] := List.length_pos_iff.1 hC.pos

theorem hh_pos (k : ℤ) : 0 < hh C k := by
  unfold hh; rw [cross_swap]; have := hC.org k; linarith

theorem strict (k : ℤ) : cross (ce C k) (ce C (k + 1)) < 0 := by
  have h := hC.cvx k 2 le_rfl hC.three
  have : cross (ce C k) (ce C (k + 1)) = cross (ce C k) (cv C (k + (2 : ℕ)) - cv C k) := by
    have e : cv C (k + (2 : ℕ)) - cv C k = ce C (k + 1) + ce C k := by
      unfold ce
      rw [show k + 1 + 1 = k + ((2 : ℕ) : ℤ) by push_cast; ring]
      abel
    rw [e, cross_add_right, cross_self, add_zero]
  rw [this]; exact h

theorem ce_ne (k : ℤ) : ce C k ≠ 0 := by
  intro h
  have := hC.strict k
  rw [h] at this
  unfold cross at this
  simp at this

omit hC in
theorem ce_cv (k : ℤ) : cross (ce C k) (cv C k) = hh C k := by
  unfold ce hh; rw [cross_sub_left, cross_self, sub_zero]

omit hC in
theorem ce_cv' (k : ℤ) : cross (ce C k) (cv C (k + 1)) = hh C k := by
  unfold ce hh; rw [cross_sub_left, cross_self, zero_sub, cross_swap, neg_neg]

theorem in_iff (w : Pt) : InConvex C w ↔ ∀ k : ℤ, cross (ce C k) w ≤ hh C k := by
  have key : ∀ k : ℤ, orient (cv C k) (cv C (k + 1)) w = cross (ce C k) w - hh C k := by
    intro k
    rw [← Conv.ce_cv, ← cross_sub_right]
    unfold orient cross ce
    simp only [Prod.fst_sub, Prod.snd_sub]
  constructor
  · intro h k
    have := h _ (cyc_mem hC.ne k)
    have e := key k
    dsimp only at this
    linarith
  · intro h e he
    obtain ⟨k, _, rfl⟩ := mem_polyEdges.1 he
    have e := key k
    have := h k
    dsimp only
    linarith

theorem zero_of (w : Pt) (h : ∀ k : ℤ, cross (ce C k) w ≤ 0) : w = 0 := by
  have hsum : ((polyEdges C).map fun e => cross (e.2 - e.1) w).sum = 0 := by
    have := polyEdges_telescope (fun v : Pt => cross v w) C
    simp only [cross_sub_left]
    exact this
  have hle : ∀ x ∈ (polyEdges C).map fun e => cross (e.2 - e.1) w, x ≤ 0 := by
    intro x hx
    obtain ⟨e, he, rfl⟩ := List.mem_map.1 hx
    obtain ⟨k, _, rfl⟩ := mem_polyEdges.1 he
    exact h k
  have hz : ∀ x ∈ (polyEdges C).map fun e => cross (e.2 - e.1) w, x = 0 := by
    revert hsum hle
    generalize ((polyEdges C).map fun e => cross (e.2 - e.1) w) = L
    intro hsum hle
    have hs : ∀ L : List ℚ, (∀ x ∈ L, x ≤ 0) → L.sum ≤ 0 := by
      intro L
      induction L with
      | nil => simp
      | cons a L ih => intro h; rw [List.sum_cons]; have := h a (by simp); have := ih fun x hx => h x (by simp [hx]); linarith
    induction L with
    | nil => simp
    | cons a L ih =>
      rw [List.sum_cons] at hsum
      have h1 := hle a (by simp)
      have h2 := hs L fun x hx => hle x (by simp [hx])
      intro x hx
      rcases List.mem_cons.1 hx with rfl | hx
      · linarith
      · exact ih (by linarith) (fun x hx => hle x (by simp [hx])) x hx
  have h0 : ∀ k : ℤ, cross (ce C k) w = 0 := fun k => hz _ (List.mem_map.2 ⟨_, cyc_mem hC.ne k, rfl⟩)
  obtain ⟨μ, rfl⟩ := par_of_cross (hC.ce_ne (0 + 1)) (h0 (0 + 1))
  have := h0 0
  rw [cross_smul_right] at this
  have hs := hC.strict 0
  rcases mul_eq_zero.1 this with h | h
  · rw [h, zero_smul]
  · linarith

/-- The points of a multiple of the polygon on the line of an edge are on the edge. -/
theorem on_edge {w : Pt} {t : ℚ} (ht : 0 < t) (h : ∀ k : ℤ, cross (ce C k) w ≤ t * hh C k) {i : ℤ}
    (hi : cross (ce C i) w = t * hh C i) : ∃ μ : ℚ, 0 ≤ μ ∧ μ ≤ 1 ∧ w = t • (cv C i + μ • ce C i) := by
  obtain ⟨ν, hν⟩ := par_of_cross (hC.ce_ne i) (w := w - t • cv C i) (by
    rw [cross_sub_right, hi, cross_smul_right, Conv.ce_cv, sub_self])
  have hw : w = t • cv C i + ν • ce C i := by rw [← hν]; abel
  refine ⟨ν / t, ?_, ?_, ?_⟩
  · have h1 := h (i - 1)
    have h2 := hC.strict (i - 1)
    have h3 := Conv.ce_cv' (C := C) (i - 1)
    rw [sub_add_cancel] at h2 h3
    rw [hw, cross_add_right, cross_smul_right, cross_smul_right, h3] at h1
    have : ν * cross (ce C (i - 1)) (ce C i) ≤ 0 := by linarith
    exact div_nonneg (by nlinarith) ht.le
  · have h1 := h (i + 1)
    have h2 := hC.strict i
    have h3 := Conv.ce_cv (C := C) (i + 1)
    have e : w = t • cv C (i + 1) + (ν - t) • ce C i := by
      rw [hw, sub_smul]
      unfold ce
      rw [smul_sub t]
      abel
    rw [e, cross_add_right, cross_smul_right, cross_smul_right, h3, cross_swap] at h1
    have : (ν - t) * cross (ce C i) (ce C (i + 1)) ≥ 0 := by linarith
    rw [div_le_one ht]
    nlinarith
  · rw [hw, smul_add, smul_smul, mul_div_cancel₀ _ ht.ne']

/-- Vertices satisfy all inequalities, strictly but for the adjacent edges. -/
theorem vertex_lt (k : ℤ) (j : ℕ) (h2 : 2 ≤ j) (hj : j < C.length) : cross (ce C k) (cv C (k + j)) < hh C k := by
  have := hC.cvx k j h2 hj
  rw [cross_sub_right, Conv.ce_cv] at this
  linarith

theorem vertex_le (k i : ℤ) : cross (ce C k) (cv C i) ≤ hh C k := by
  refine per_nat hC.pos (P := fun i => cross (ce C k) (cv C i) ≤ hh C k) (fun i => by rw [cv_per]) k ?_ i
  intro j hj
  rcases Nat.lt_or_ge j 2 with h | h
  · interval_cases j
    · simp [Conv.ce_cv]
    · have := Conv.ce_cv' (C := C) k
      push_cast
      exact this.le
  · exact (hC.vertex_lt k j h hj).le

theorem vertex_in (i : ℤ) : InConvex C (cv C i) := (hC.in_iff _).2 fun k => hC.vertex_le k i

end Conv

/-- The smallest multiple of the polygon that, placed at a point of the loop, reaches `p`. -/
structure Contact (C L : List Pt) (p z : Pt) (t : ℚ) : Prop where
  on : OnBoundary L z
  le : ∀ k : ℤ, cross (ce C k) (p - z) ≤ t * hh C k
  eq : ∃ i : ℤ, cross (ce C i) (p - z) = t * hh C i
  min : ∀ z', OnBoundary L z' → ∃ k : ℤ, t * hh C k ≤ cross (ce C k) (p - z')

theorem edge_touch {C : List Pt} (hC : Conv C) (e : Seg) (p : Pt) :
    ∃ (s t : ℚ), 0 ≤ s ∧ s ≤ 1 ∧ (∀ k : ℤ, cross (ce C k) (p - along e s) ≤ t * hh C k) ∧
      (∃ i : ℤ, cross (ce C i) (p - along e s) = t * hh C i) ∧
      ∀ s', 0 ≤ s' → s' ≤ 1 → ∃ k : ℤ, t * hh C k ≤ cross (ce C k) (p - along e s') := by
  obtain ⟨s, m, s0, s1, h1, ⟨k0, hk0, h2⟩, h3⟩ := exists_min_max C.length hC.pos
    (fun k => cross (ce C k) (p - e.1) / hh C k) (fun k => -cross (ce C k) (dir e) / hh C k)
  have key : ∀ (k : ℤ) s, cross (ce C k) (p - along e s) =
      (cross (ce C k) (p - e.1) / hh C k + s * (-cross (ce C k) (dir e) / hh C k)) * hh C k := by
    intro k s
    have hp := (hC.hh_pos k).ne'
    have : cross (ce C k) (p - along e s) = cross (ce C k) (p - e.1) - s * cross (ce C k) (dir e) := by
      unfold cross along dir; simp only [Prod.fst_sub, Prod.snd_sub]; ring
    rw [this]
    field_simp
    ring
  refine ⟨s, m, s0, s1, ?_, ⟨k0, ?_⟩, ?_⟩
  · refine per_nat hC.pos (P := fun k => cross (ce C k) (p - along e s) ≤ m * hh C k)
      (fun k => by rw [ce_per, hh_per]) 0 ?_
    intro j hj
    have := h1 j hj
    rw [zero_add, key]
    exact mul_le_mul_of_nonneg_right this (hC.hh_pos _).le
  · rw [key, h2]
  · intro s' a b
    obtain ⟨k, _, h⟩ := h3 s' a b
    exact ⟨k, by rw [key]; exact mul_le_mul_of_nonneg_right h (hC.hh_pos _).le⟩

theorem exists_touch {C : List Pt} (hC : Conv C) (L : List Pt) (hL : L ≠ []) (p : Pt) : ∃ z t, Contact C L p z t := by
  have key : ∀ E : List Seg, E ≠ [] → ∃ e ∈ E, ∃ (s t : ℚ), 0 ≤ s ∧ s ≤ 1 ∧
      (∀ k : ℤ, cross (ce C k) (p - along e s) ≤ t * hh C k) ∧
      (∃ i : ℤ, cross (ce C i) (p - along e s) = t * hh C i) ∧
      ∀ e' ∈ E, ∀ s', 0 ≤ s' → s' ≤ 1 → ∃ k : ℤ, t * hh C k ≤ cross (ce C k) (p - along e' s') := by
    intro E
    induction E with
    | nil => intro h; exact absurd rfl h
    | cons e E ih =>
      intro _
      obtain ⟨s, t, s0, s1, h1, h2, h3⟩ := edge_touch hC e p
      by_cases hE : E = []
      · subst hE
        exact ⟨e, by simp, s, t, s0, s1, h1, h2, fun e' he' => by rw [List.mem_singleton.1 he']; exact h3⟩
      · obtain ⟨e', he', s', t', s0', s1', h1', h2', h3'⟩ := ih hE
        rcases le_total t t' with h | h
        · refine ⟨e, by simp, s, t, s0, s1, h1, h2, fun f hf => ?_⟩
          rcases List.mem_cons.1 hf with rfl | hf
          · exact h3
          · intro x x0 x1
            obtain ⟨k, hk⟩ := h3' f hf x x0 x1
            exact ⟨k, by nlinarith [hC.hh_pos k]⟩
        · refine ⟨e', by simp [he'], s', t', s0', s1', h1', h2', fun f hf => ?_⟩
          rcases List.mem_cons.1 hf with rfl | hf
          · intro x x0 x1
            obtain ⟨k, hk⟩ := h3 x x0 x1
            exact ⟨k, by nlinarith [hC.hh_pos k]⟩
          · exact h3' f hf
  have hE : polyEdges L ≠ [] := by
    cases L with
    | nil => exact absurd rfl hL
    | cons a l => unfold polyEdges; cases l <;> simp
  obtain ⟨e, he, s, t, s0, s1, h1, h2, h3⟩ := key _ hE
  exact ⟨along e s, t, ⟨e, he, s, s0, s1, rfl⟩, h1, h2, fun z' ⟨e', he', s', a, b, hz⟩ => by
    rw [hz]; exact h3 e' he' s' a b⟩

namespace Contact

variable {C L : List Pt} (hC : Conv C) {p z : Pt} {t : ℚ} (hT : Contact C L p z t)
include hC hT

theorem pos (hp : ¬ OnBoundary L p) : 0 < t := by
  by_contra hc
  push Not at hc
  have : p - z = 0 := hC.zero_of _ fun k => (hT.le k).trans (by nlinarith [hC.hh_pos k])
  rw [sub_eq_zero] at this
  exact hp (this ▸ hT.on)

theorem le_one {z' : Pt} (hz : OnBoundary L z') (hin : InConvex C (p - z')) : t ≤ 1 := by
  obtain ⟨k, hk⟩ := hT.min z' hz
  have h := (hC.in_iff _).1 hin k
  have := hC.hh_pos k
  by_contra hc
  push Not at hc
  nlinarith

/-- The touching point of the polygon, with the smaller of the two edges at a vertex. -/
theorem normal (hp : ¬ OnBoundary L p) : ∃ (i : ℤ) (μ : ℚ), 0 ≤ μ ∧ μ < 1 ∧ p - z = t • (cv C i + μ • ce C i) := by
  have ht := hT.pos hC hp
  obtain ⟨i, hi⟩ := hT.eq
  obtain ⟨μ, h0, h1, hw⟩ := hC.on_edge ht hT.le hi
  rcases h1.lt_or_eq with h | h
  · exact ⟨i, μ, h0, h, hw⟩
  · refine ⟨i + 1, 0, le_rfl, one_pos, ?_⟩
    rw [hw, h, one_smul, zero_smul, add_zero]
    unfold ce
    congr 1
    abel

end Contact

end Ply
