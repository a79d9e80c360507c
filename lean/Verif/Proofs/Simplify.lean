import Verif.Proofs.Geom2D
import Mathlib.Tactic.Linarith
import Mathlib.Data.List.GetD

/-! Helper lemmas for `simplify_degeneracies`. -/

namespace Ply

/-- The triangle at the cyclic position `k`. -/
def triAt (l : List Pt) (k : Int) : ℚ := area3 (cycGet l (k - 1)) (cycGet l k) (cycGet l (k + 1))

theorem cycGet_add_length (l : List Pt) (k : Int) : cycGet l (k + l.length) = cycGet l k := by
  unfold cycGet
  rw [Int.add_emod_right]

theorem triAt_add_length (l : List Pt) (k : Int) : triAt l (k + l.length) = triAt l k := by
  unfold triAt
  rw [show k + (l.length : Int) - 1 = (k - 1) + l.length by ring, cycGet_add_length,
    cycGet_add_length, show k + (l.length : Int) + 1 = (k + 1) + l.length by ring, cycGet_add_length]

theorem triAt_emod (l : List Pt) (k : Int) : triAt l (k % (l.length : Int)) = triAt l k := by
  unfold triAt cycGet
  rw [Int.emod_emod, Int.emod_sub_emod, Int.emod_add_emod]

theorem cycGet_rotate (l : List Pt) (hl : l ≠ []) (i : ℕ) (k : Int) :
    cycGet (l.rotate i) k = cycGet l (k + i) := by
  have hn : (0 : Int) < l.length := by
    have := List.length_pos_iff.2 hl; omega
  have h1 := Int.emod_nonneg k hn.ne'
  have h2 := Int.emod_lt_of_pos k hn
  have h3 := Int.emod_nonneg (k + i) hn.ne'
  have h4 := Int.emod_lt_of_pos (k + i) hn
  unfold cycGet
  rw [List.length_rotate]
  rw [List.getD_eq_getElem _ _ (by rw [List.length_rotate]; omega), List.getD_eq_getElem _ _ (by omega),
    List.getElem_rotate]
  congr 1
  zify
  rw [Int.toNat_of_nonneg h1, Int.toNat_of_nonneg h3, Int.emod_add_emod]

theorem shoelace_rotate (l : List Pt) (n : ℕ) : shoelace (l.rotate n) = shoelace l := by
  unfold shoelace
  rw [((polyEdges_rotate l n).map _).sum_eq]

theorem shoelace_cons (v h : Pt) (t : List Pt) :
    shoelace (v :: h :: t) = shoelace (h :: t) + orient ((h :: t).getLast (by simp)) v h / 2 := by
  unfold shoelace
  rw [polyEdges_cons, polyEdges_cons, List.cons_append, chain_cons, chain_append_singleton,
    chain_append_singleton]
  simp only [List.map_cons, List.map_append, List.map_nil, List.sum_cons, List.sum_append, List.sum_nil]
  unfold cross orient
  ring

/-- Same signed area, and same winding number around every point off the boundary of the second
loop (which includes the boundary of the first). -/
def Same (r l : List Pt) : Prop :=
  shoelace r = shoelace l ∧
    ∀ p, ¬ OnBoundary l p → ¬ OnBoundary r p ∧ windingNumber r p = windingNumber l p

theorem Same.refl (l : List Pt) : Same l l := ⟨rfl, fun _ h => ⟨h, rfl⟩⟩

theorem Same.trans {a b c : List Pt} (h : Same a b) (k : Same b c) : Same a c :=
  ⟨h.1.trans k.1, fun p hp => ⟨(h.2 p (k.2 p hp).1).1, (h.2 p (k.2 p hp).1).2.trans (k.2 p hp).2⟩⟩

theorem onBoundary_rotate (l : List Pt) (n : ℕ) (p : Pt) :
    OnBoundary (l.rotate n) p ↔ OnBoundary l p := by
  unfold OnBoundary; simp only [(polyEdges_rotate l n).mem_iff]

theorem same_rotate (l : List Pt) (n : ℕ) : Same (l.rotate n) l :=
  ⟨shoelace_rotate l n, fun p h => ⟨by rwa [onBoundary_rotate],
    windingNumber_perm (polyEdges_rotate l n) p⟩⟩

theorem same_rotate' (l : List Pt) (n : ℕ) : Same l (l.rotate n) :=
  ⟨(shoelace_rotate l n).symm, fun p h => ⟨by rwa [onBoundary_rotate] at h,
    (windingNumber_perm (polyEdges_rotate l n) p).symm⟩⟩

theorem same_nil (v : Pt) : Same [] [v] := by
  refine ⟨by simp [shoelace, polyEdges, cross, mul_comm], fun p _ => ⟨?_, ?_⟩⟩
  · rintro ⟨e, he, _⟩; simp [polyEdges] at he
  · simp only [windingNumber, polyEdges, List.map_nil, List.sum_nil, List.nil_append,
      List.zip_cons_cons, List.zip_nil_left, List.map_cons, List.sum_cons]
    have := crossing_swap p v v
    omega

/-- A segment between two points is covered by the two segments via any point on the same line. -/
theorem onSeg_detour {a v c p : Pt} (h : orient a v c = 0) (hp : OnSeg (a, c) p) :
    OnSeg (a, v) p ∨ OnSeg (v, c) p := by
  by_cases hac : a = c
  · subst hac
    obtain ⟨t, _, _, rfl⟩ := hp
    left
    have : along (a, a) t = a := by unfold along; simp
    rw [this]
    exact onSeg_start _
  · obtain ⟨s, hs⟩ : ∃ s, v = along (a, c) s := by
      unfold orient at h
      by_cases hx : a.1 = c.1
      · have hy : c.2 - a.2 ≠ 0 := fun hc => hac (Prod.ext hx (by linarith))
        refine ⟨(v.2 - a.2) / (c.2 - a.2), ?_⟩
        unfold along
        ext
        · simp only
          rw [hx] at h ⊢
          have : (v.1 - c.1) * (c.2 - a.2) = 0 := by linarith
          rcases mul_eq_zero.1 this with k | k
          · linarith
          · exact absurd k hy
        · simp only; field_simp; ring
      · have hx' : c.1 - a.1 ≠ 0 := fun hc => hx (by linarith)
        refine ⟨(v.1 - a.1) / (c.1 - a.1), ?_⟩
        unfold along
        ext
        · simp only; field_simp; ring
        · simp only; field_simp; linarith
    obtain ⟨t, t0, t1, rfl⟩ := hp
    subst hs
    rcases le_total t s with hts | hts
    · left
      by_cases hs0 : s = 0
      · refine ⟨0, le_rfl, zero_le_one, ?_⟩
        have : t = 0 := by linarith
        subst this
        unfold along; simp
      · have hsp : 0 < s := lt_of_le_of_ne (t0.trans hts) (Ne.symm hs0)
        refine ⟨t / s, by positivity, (div_le_one hsp).2 hts, ?_⟩
        unfold along
        ext <;> simp only <;> field_simp <;> ring
    · right
      by_cases hs1 : s = 1
      · refine ⟨0, le_rfl, zero_le_one, ?_⟩
        have : t = 1 := by linarith
        subst this hs1
        unfold along; simp
      · have hsp : 0 < 1 - s := by
          rcases lt_or_ge s 1 with k | k
          · linarith
          · exact absurd (le_antisymm (by linarith) k) hs1
        refine ⟨(t - s) / (1 - s), div_nonneg (by linarith) hsp.le, (div_le_one hsp).2 (by linarith), ?_⟩
        unfold along
        have := hsp.ne'
        ext <;> simp only <;> field_simp <;> ring

/-- Dropping a vertex on the line through its neighbours. -/
theorem same_cons (v h : Pt) (t : List Pt) (ho : orient ((h :: t).getLast (by simp)) v h = 0) :
    Same (h :: t) (v :: h :: t) := by
  have e1 : polyEdges (v :: h :: t) =
      (v, h) :: (chain h t ++ [((h :: t).getLast (by simp), v)]) := by
    rw [polyEdges_cons, List.cons_append, chain_cons, chain_append_singleton]
  have e2 : polyEdges (h :: t) = chain h t ++ [((h :: t).getLast (by simp), h)] := by
    rw [polyEdges_cons, chain_append_singleton]
  refine ⟨by rw [shoelace_cons, ho]; ring, fun p hp => ?_⟩
  have hv : ¬ OnSeg (v, h) p := fun hc => hp ⟨(v, h), by rw [e1]; simp, hc⟩
  have hl : ¬ OnSeg ((h :: t).getLast (by simp), v) p := fun hc => hp ⟨_, by rw [e1]; simp, hc⟩
  have hlh : ¬ OnSeg ((h :: t).getLast (by simp), h) p := fun hc => by
    rcases onSeg_detour ho hc with k | k
    · exact hl k
    · exact hv k
  constructor
  · rintro ⟨e, he, hs⟩
    rw [e2] at he
    rcases List.mem_append.1 he with k | k
    · exact hp ⟨e, by rw [e1]; simp [k], hs⟩
    · rw [List.mem_singleton] at k
      subst k
      exact hlh hs
  · unfold windingNumber
    rw [e1, e2]
    simp only [List.map_cons, List.map_append, List.map_nil, List.sum_cons, List.sum_append,
      List.sum_nil]
    have htri := tri_crossing hl hv (fun hc => hlh (onSeg_swap hc))
    rw [crossing_swap p _ h] at htri
    have hz : sgn3 (orient ((h :: t).getLast (by simp)) v p) (orient v h p)
        (orient h ((h :: t).getLast (by simp)) p) = 0 := by
      have hsum : orient ((h :: t).getLast (by simp)) v p + orient v h p +
          orient h ((h :: t).getLast (by simp)) p = 0 := by
        rw [← ho]; unfold orient; ring
      unfold sgn3
      rw [if_neg (by rintro ⟨a, b, c⟩; linarith), if_neg (by rintro ⟨a, b, c⟩; linarith)]
    rw [hz] at htri
    omega

theorem same_erase (l : List Pt) (i : ℕ) (hi : i < l.length) (h : triAt l i = 0) :
    Same (l.eraseIdx i) l := by
  have hne : l ≠ [] := by rintro rfl; simp at hi
  obtain ⟨A, B, v, hl, hA⟩ : ∃ A B v, l = A ++ v :: B ∧ A.length = i :=
    ⟨l.take i, l.drop (i + 1), l[i], by simp, by simp; omega⟩
  have he : l.eraseIdx i = A ++ B := by
    rw [hl, ← hA, List.eraseIdx_append_of_length_le (by simp)]; simp
  have hr : l.rotate i = v :: (B ++ A) := by rw [hl, ← hA, List.rotate_append_length_eq]; rfl
  have hr2 : (A ++ B).rotate A.length = B ++ A := List.rotate_append_length_eq A B
  rw [he]
  refine (same_rotate' (A ++ B) A.length).trans (Same.trans ?_ (same_rotate l i))
  rw [hr2, hr]
  unfold triAt at h
  have e0 : cycGet l i = cycGet (l.rotate i) 0 := by rw [cycGet_rotate l hne]; simp
  have e1 : cycGet l (i + 1) = cycGet (l.rotate i) 1 := by rw [cycGet_rotate l hne]; congr 1; ring
  have e2 : cycGet l (i - 1) = cycGet (l.rotate i) (-1) := by rw [cycGet_rotate l hne]; ring_nf
  rw [e0, e1, e2, hr] at h
  generalize B ++ A = R at h
  cases R with
  | nil => exact same_nil v
  | cons x t =>
    have g0 : cycGet (v :: x :: t) 0 = v := by unfold cycGet; simp
    have g1 : cycGet (v :: x :: t) 1 = x := by
      unfold cycGet
      rw [Int.emod_eq_of_lt (by omega) (by simp; try omega)]; simp
    have g2 : cycGet (v :: x :: t) (-1) = (x :: t).getLast (by simp) := by
      unfold cycGet
      have : (-1 : Int) % ((v :: x :: t).length : Int) = ((x :: t).length : Int) := by
        rw [← Int.add_emod_right, Int.emod_eq_of_lt] <;> simp; omega
      rw [this, Int.toNat_natCast, List.getD_eq_getElem _ _ (by simp), List.getLast_eq_getElem]
      simp
    rw [g0, g1, g2] at h
    unfold area3 at h
    rw [triArea_eq] at h
    exact same_cons v x t (by linarith)

/-- What one pass of the inner loop achieves. -/
theorem simplifyPass_spec (fuel : ℕ) (l : List Pt) (i : ℕ) (nz changed : Bool)
    (hf : l.length < fuel + i) (hi : i ≤ l.length) :
    ∃ l' nz' ch, simplifyPass fuel l i nz changed = .ok (l', nz', ch) ∧
      l'.Sublist l ∧ Same l' l ∧
      ((ch = changed ∧ l' = l ∧
          (∀ j : ℕ, i ≤ j → j < l.length → ¬ (triAt l ((j : Int) - 1) ≠ 0 ∧ triAt l j = 0)) ∧
          (nz' = true → nz = true ∨ ∃ j : ℕ, j < l.length ∧ triAt l j ≠ 0)) ∨
        (ch = true ∧ l'.length < l.length)) ∧
      (nz' = false → nz = false ∧
        ((∀ j : ℕ, j < i → triAt l j = 0) → ∀ j : ℕ, j < l'.length → triAt l' j = 0)) := by
  induction fuel generalizing l i nz changed with
  | zero => omega
  | succ fuel ih =>
    rw [simplifyPass]
    by_cases h : i < l.length
    · rw [if_pos h]
      have t1 : area3 (cycGet l ((i : Int) - 2)) (cycGet l ((i : Int) - 1)) (cycGet l i) =
          triAt l ((i : Int) - 1) := by
        unfold triAt
        rw [show (i : Int) - 1 - 1 = (i : Int) - 2 by ring, show (i : Int) - 1 + 1 = (i : Int) by ring]
      have t2 : area3 (cycGet l ((i : Int) - 1)) (cycGet l i) (cycGet l ((i : Int) + 1)) = triAt l i := rfl
      simp only [t1, t2]
      by_cases hd : triAt l ((i : Int) - 1) ≠ 0 ∧ triAt l i = 0
      · rw [if_pos hd, if_neg (by simpa using hd.2)]
        have hlen : (l.eraseIdx i).length = l.length - 1 := List.length_eraseIdx_of_lt h
        obtain ⟨l', nz', ch, e, s1, s2, s3, s4⟩ := ih (l.eraseIdx i) i nz true (by omega) (by omega)
        refine ⟨l', nz', ch, e, s1.trans (List.eraseIdx_sublist _ _),
          s2.trans (same_erase l i h hd.2), Or.inr ?_, fun hz => ⟨(s4 hz).1, fun hp => ?_⟩⟩
        · rcases s3 with ⟨a, b, _⟩ | ⟨a, b⟩
          · exact ⟨a, by rw [b]; omega⟩
          · exact ⟨a, by omega⟩
        · have hi0 : i = 0 := by
            by_contra hne
            apply hd.1
            have := hp (i - 1) (by omega)
            rwa [Nat.cast_sub (by omega), Nat.cast_one] at this
          subst hi0
          exact (s4 hz).2 (fun j hj => absurd hj (Nat.not_lt_zero _))
      · rw [if_neg hd]
        obtain ⟨l', nz', ch, e, s1, s2, s3, s4⟩ :=
          ih l (i + 1) (if triAt l i ≠ 0 then true else nz) changed (by omega) (by omega)
        refine ⟨l', nz', ch, e, s1, s2, ?_, fun hz => ?_⟩
        · rcases s3 with ⟨a, b, c, d⟩ | hh
          · refine Or.inl ⟨a, b, fun j hij hj => ?_, fun hz => ?_⟩
            · rcases Nat.eq_or_lt_of_le hij with rfl | hlt
              · exact hd
              · exact c j hlt hj
            · rcases d hz with d | d
              · by_cases ht : triAt l i ≠ 0
                · exact Or.inr ⟨i, h, ht⟩
                · rw [if_neg ht] at d; exact Or.inl d
              · exact Or.inr d
          · exact Or.inr hh
        · obtain ⟨z1, z2⟩ := s4 hz
          by_cases ht : triAt l i ≠ 0
          · rw [if_pos ht] at z1; exact absurd z1 (by simp)
          · rw [if_neg ht] at z1
            refine ⟨z1, fun hp => z2 fun j hj => ?_⟩
            rcases Nat.lt_succ_iff_lt_or_eq.1 hj with hj | rfl
            · exact hp j hj
            · exact not_not.1 ht
    · rw [if_neg h]
      have : i = l.length := by omega
      subst this
      exact ⟨l, nz, changed, rfl, List.Sublist.refl _, Same.refl _,
        Or.inl ⟨rfl, rfl, fun j h1 h2 => by omega, fun hz => Or.inl hz⟩, fun hz => ⟨hz, fun hp => hp⟩⟩

/-- If no position follows a proper corner with a degenerate one and some corner is proper, all
are. -/
theorem all_proper (l : List Pt)
    (h : ∀ j : ℕ, j < l.length → ¬ (triAt l ((j : Int) - 1) ≠ 0 ∧ triAt l j = 0))
    (j0 : ℕ) (hj0 : j0 < l.length) (h0 : triAt l j0 ≠ 0) (j : ℕ) : triAt l j ≠ 0 := by
  have hn : (0 : Int) < l.length := by omega
  have step : ∀ k : Int, triAt l (k - 1) ≠ 0 → triAt l k ≠ 0 := by
    intro k hk hc
    have a := Int.emod_nonneg k hn.ne'
    have b := Int.emod_lt_of_pos k hn
    have e : ((k % (l.length : Int)).toNat : Int) = k % l.length := Int.toNat_of_nonneg a
    refine h (k % (l.length : Int)).toNat (by omega) ⟨?_, ?_⟩
    · rw [e, ← triAt_emod, Int.emod_sub_emod, triAt_emod]; exact hk
    · rw [e, triAt_emod]; exact hc
  have up : ∀ m : ℕ, triAt l ((j0 : Int) + m) ≠ 0 := by
    intro m
    induction m with
    | zero => simpa using h0
    | succ m ih =>
      apply step
      rw [show (j0 : Int) + ((m + 1 : ℕ) : Int) - 1 = (j0 : Int) + m by push_cast; ring]
      exact ih
  have := up (l.length - j0 + j)
  rw [show (j0 : Int) + ((l.length - j0 + j : ℕ) : Int) = (j : Int) + l.length by
    push_cast [Nat.cast_sub hj0.le]; ring, triAt_add_length] at this
  exact this

theorem simplifyLoop_spec (fuel : ℕ) (l : List Pt) (hf : l.length < fuel) :
    ∃ r, simplifyLoop fuel l = .ok r ∧ r.Sublist l ∧ Same r l ∧
      ∀ j : ℕ, j < r.length → triAt r j ≠ 0 := by
  induction fuel generalizing l with
  | zero => omega
  | succ fuel ih =>
    rw [simplifyLoop]
    obtain ⟨l', nz', ch, e, s1, s2, s3, s4⟩ :=
      simplifyPass_spec (l.length + 1) l 0 false false (by omega) (by omega)
    rw [e]
    have hlen := s1.length_le
    show ∃ r, (if nz' = false ∧ l'.length > 0 then simplifyLoop fuel l'.tail
      else if ch = true then simplifyLoop fuel l' else .ok l') = .ok r ∧ _
    by_cases hz : nz' = false ∧ l'.length > 0
    · rw [if_pos hz]
      obtain ⟨r, h1, h2, h3, h4⟩ := ih l'.tail (by rw [List.length_tail]; omega)
      refine ⟨r, h1, h2.trans ((List.tail_sublist _).trans s1), ?_, h4⟩
      have := same_erase l' 0 hz.2 ((s4 hz.1).2 (by simp) 0 hz.2)
      rw [List.eraseIdx_zero] at this
      exact h3.trans (this.trans s2)
    · rw [if_neg hz]
      rcases s3 with ⟨a, b, c, d⟩ | ⟨a, b⟩
      · subst a b
        rw [if_neg (by simp)]
        refine ⟨l', rfl, s1, Same.refl _, fun j hj => ?_⟩
        have hn : nz' = true := by
          by_contra hc
          exact hz ⟨by simpa using hc, by omega⟩
        rcases d hn with d | ⟨j0, k1, k2⟩
        · exact absurd d (by simp)
        · exact all_proper l' (fun j hj => c j (Nat.zero_le _) hj) j0 k1 k2 j
      · subst a
        rw [if_pos rfl]
        obtain ⟨r, h1, h2, h3, h4⟩ := ih l' (by omega)
        exact ⟨r, h1, h2.trans s1, h3.trans s2, h4⟩

end Ply
