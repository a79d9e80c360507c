import Verif.Model.RaySlow
import Verif.Proofs.TotalBuild
import Verif.Props.Arrangement2D
import Mathlib.Data.Prod.Lex

/-!
# The ray queries of an arrangement

What the description of the query promises (arrangement2d.py:664-678), for the query with the search tree and for the
plain one.
-/

namespace Ply.Arr

/-- What a query from `p` in the direction `d` reports: half-edges with the place on the ray's line where they are met;
unless all are wanted, a start counts if the half-edge is clockwise from the direction, and an end if it is not. -/
def Reported (H : List Seg) (p d : Pt) (keepAll : Bool) (x : ℚ × Seg) : Prop :=
  x.2 ∈ H ∧ OnSeg x.2 (p.1 + x.1 * d.1, p.2 + x.1 * d.2) ∧
    (keepAll = false →
      ((p.1 + x.1 * d.1, p.2 + x.1 * d.2) = x.2.1 → cross d (dir x.2) < 0) ∧
      ((p.1 + x.1 * d.1, p.2 + x.1 * d.2) = x.2.2 → 0 < cross d (dir x.2)))

/-! ### The order -/

/-- The tuple as it is compared. -/
def interKey (a : ℚ × Seg) : ℚ ×ₗ (ℚ ×ₗ ℚ) ×ₗ (ℚ ×ₗ ℚ) :=
  toLex (a.1, toLex (toLex (a.2.1.1, a.2.1.2), toLex (a.2.2.1, a.2.2.2)))

theorem interKey_inj {a b : ℚ × Seg} (h : interKey a = interKey b) : a = b := by
  unfold interKey at h
  simp only [EmbeddingLike.apply_eq_iff_eq, Prod.mk.injEq] at h
  obtain ⟨h1, ⟨h2, h3⟩, h4, h5⟩ := h
  exact Prod.ext h1 (Prod.ext (Prod.ext h2 h3) (Prod.ext h4 h5))

theorem ptLt_lex (a b : Pt) : ptLt a b ↔ (toLex (a.1, a.2) : ℚ ×ₗ ℚ) < toLex (b.1, b.2) := by
  rw [Prod.Lex.toLex_lt_toLex]
  rfl

theorem interLe_lex (a b : ℚ × Seg) : interLe a b ↔ interKey a ≤ interKey b := by
  unfold interLe interKey
  rw [Prod.Lex.toLex_le_toLex, Prod.Lex.toLex_le_toLex, ptLt_lex, ptLt_lex]
  dsimp only
  rw [le_iff_lt_or_eq (a := (toLex (a.2.2.1, a.2.2.2) : ℚ ×ₗ ℚ))]
  simp only [EmbeddingLike.apply_eq_iff_eq, Prod.ext_iff]

theorem sort_eq {l m : List (ℚ × Seg)} (h : l.Perm m) : l.insertionSort interLe = m.insertionSort interLe := by
  have tot : Std.Total interLe := ⟨fun a b => by rw [interLe_lex, interLe_lex]; exact le_total _ _⟩
  have tr : IsTrans (ℚ × Seg) interLe := ⟨fun a b c => by rw [interLe_lex, interLe_lex, interLe_lex]; exact le_trans⟩
  have anti : Std.Antisymm interLe :=
    ⟨fun a b => by rw [interLe_lex, interLe_lex]; exact fun x y => interKey_inj (le_antisymm x y)⟩
  exact List.Perm.eq_of_pairwise' (r := interLe) (List.pairwise_insertionSort _ _) (List.pairwise_insertionSort _ _)
    (((List.perm_insertionSort _ _).trans h).trans (List.perm_insertionSort _ _).symm)

/-! ### One half-edge -/

/-- The line of the ray meets the half-edge. -/
def hitAll (pt d : Pt) (h : Seg) : Prop :=
  cross h.1 d ≤ cross pt d ∧ cross pt d ≤ cross h.2 d ∨ cross h.2 d ≤ cross pt d ∧ cross pt d ≤ cross h.1 d

instance (pt d : Pt) (h : Seg) : Decidable (hitAll pt d h) := by unfold hitAll; infer_instance

/-- The half-edge counts. -/
def counts (pt d : Pt) (keepAll : Bool) (h : Seg) : Prop := if keepAll then hitAll pt d h else hitK pt d h

instance (pt d : Pt) (k : Bool) (h : Seg) : Decidable (counts pt d k h) := by unfold counts; infer_instance

theorem on_ray {p d : Pt} {h : Seg} (hpar : cross (dir h) d ≠ 0) (t : ℚ) :
    OnSeg h (p.1 + t * d.1, p.2 + t * d.2) ↔ hitAll p d h ∧ t = hitT p d h := by
  have hY : cross (dir h) d = cross h.2 d - cross h.1 d := by unfold cross dir; dsimp only; ring
  have hcd : cross d (dir h) = -cross (dir h) d := by unfold cross; ring
  have hpar' : cross d (dir h) ≠ 0 := by rw [hcd]; exact neg_ne_zero.2 hpar
  constructor
  · rintro ⟨s, h0, h1, e⟩
    have e1 := congrArg Prod.fst e
    have e2 := congrArg Prod.snd e
    unfold along at e1 e2
    dsimp only at e1 e2
    have hc : cross p d = cross h.1 d + s * (cross h.2 d - cross h.1 d) := by
      unfold cross
      linear_combination d.2 * e1 - d.1 * e2
    constructor
    · unfold hitAll
      rw [hY] at hpar
      rcases lt_or_gt_of_ne hpar with hs | hs
      · right; constructor <;> nlinarith
      · left; constructor <;> nlinarith
    · unfold hitT
      rw [eq_div_iff hpar']
      unfold cross dir
      simp only [Prod.fst_sub, Prod.snd_sub]
      linear_combination (h.2.2 - h.1.2) * e1 - (h.2.1 - h.1.1) * e2
  · rintro ⟨hk, rfl⟩
    refine ⟨(cross p d - cross h.1 d) / (cross h.2 d - cross h.1 d), ?_, ?_, ?_⟩
    · unfold hitAll at hk
      rw [hY] at hpar
      rcases lt_or_gt_of_ne hpar with hs | hs
      · exact div_nonneg_of_nonpos (by rcases hk with ⟨i, j⟩ | ⟨i, j⟩ <;> linarith) hs.le
      · exact div_nonneg (by rcases hk with ⟨i, j⟩ | ⟨i, j⟩ <;> linarith) hs.le
    · unfold hitAll at hk
      rw [hY] at hpar
      rcases lt_or_gt_of_ne hpar with hs | hs
      · rw [div_le_one_of_neg hs]
        rcases hk with ⟨i, j⟩ | ⟨i, j⟩ <;> linarith
      · rw [div_le_one hs]
        rcases hk with ⟨i, j⟩ | ⟨i, j⟩ <;> linarith
    · rw [← hY]
      unfold along hitT
      rw [hcd]
      obtain ⟨D, hD⟩ : ∃ D, D = cross (dir h) d := ⟨_, rfl⟩
      rw [← hD] at hpar ⊢
      unfold cross dir at hD ⊢
      simp only [Prod.fst_sub, Prod.snd_sub]
      ext
      · dsimp only
        field_simp
        rw [hD]
        ring
      · dsimp only
        field_simp
        rw [hD]
        ring

theorem reported_iff {H : List Seg} {p d : Pt} (hpar : ∀ h ∈ H, cross (dir h) d ≠ 0) (k : Bool) (x : ℚ × Seg) :
    Reported H p d k x ↔ x.2 ∈ H ∧ counts p d k x.2 ∧ x.1 = hitT p d x.2 := by
  unfold Reported
  by_cases hx : x.2 ∈ H
  swap
  · simp [hx]
  have hp := hpar _ hx
  rw [on_ray hp]
  unfold counts
  have hY : cross (dir x.2) d = cross x.2.2 d - cross x.2.1 d := by unfold cross dir; dsimp only; ring
  have hcd : cross d (dir x.2) = -cross (dir x.2) d := by unfold cross; ring
  cases k with
  | true => simp
  | false =>
    simp only [hx, true_and, forall_const, Bool.false_eq_true, if_false]
    have hsame : ∀ v : Pt, OnSeg x.2 v → cross v d = cross x.2.1 d → v = x.2.1 := by
      rintro v ⟨s, _, _, rfl⟩ hc
      have : s * cross (dir x.2) d = 0 := by
        unfold cross along at hc
        unfold cross dir
        dsimp only at hc ⊢
        linarith
      have := (mul_eq_zero.1 this).resolve_right hp
      unfold along
      rw [this]
      ext <;> simp
    have hsame' : ∀ v : Pt, OnSeg x.2 v → cross v d = cross x.2.2 d → v = x.2.2 := by
      rintro v ⟨s, _, _, rfl⟩ hc
      have : (s - 1) * cross (dir x.2) d = 0 := by
        unfold cross along at hc
        unfold cross dir
        dsimp only at hc ⊢
        linarith
      have := (mul_eq_zero.1 this).resolve_right hp
      have hs : s = 1 := by linarith
      unfold along
      rw [hs]
      ext <;> simp
    have hc : cross ((p.1 + x.1 * d.1, p.2 + x.1 * d.2) : Pt) d = cross p d := by unfold cross; dsimp only; ring
    constructor
    · rintro ⟨⟨h1, h2⟩, h3, h4⟩
      refine ⟨?_, h2⟩
      have hon := (on_ray hp x.1).2 ⟨h1, h2⟩
      have i3 : cross p d = cross x.2.1 d → cross d (dir x.2) < 0 := fun e => h3 (hsame _ hon (hc.trans e))
      have i4 : cross p d = cross x.2.2 d → 0 < cross d (dir x.2) := fun e => h4 (hsame' _ hon (hc.trans e))
      rw [hcd, hY] at i3 i4
      unfold hitAll at h1
      unfold hitK
      rcases h1 with ⟨a, b⟩ | ⟨a, b⟩
      · rcases lt_or_eq_of_le b with b | b
        · exact Or.inl ⟨a, b⟩
        · have := i4 b
          linarith
      · rcases lt_or_eq_of_le b with b | b
        · exact Or.inr ⟨a, b⟩
        · have := i3 b
          linarith
    · rintro ⟨h1, h2⟩
      have ha : hitAll p d x.2 := by
        unfold hitK at h1
        unfold hitAll
        exact h1.imp (fun h => ⟨h.1, h.2.le⟩) (fun h => ⟨h.1, h.2.le⟩)
      refine ⟨⟨ha, h2⟩, fun e => ?_, fun e => ?_⟩
      · have e' : cross p d = cross x.2.1 d := by rw [← hc, e]
        rw [hcd, hY]
        unfold hitK at h1
        rcases h1 with ⟨a, b⟩ | ⟨a, b⟩ <;> linarith
      · have e' : cross p d = cross x.2.2 d := by rw [← hc, e]
        rw [hcd, hY]
        unfold hitK at h1
        rcases h1 with ⟨a, b⟩ | ⟨a, b⟩ <;> linarith

/-- What one half-edge adds. -/
def found1 (pt d : Pt) (k : Bool) (h : Seg) : List (ℚ × Seg) := if counts pt d k h then [(hitT pt d h, h)] else []

theorem mem_found1 {p d : Pt} {k : Bool} {h : Seg} {x : ℚ × Seg} :
    x ∈ found1 p d k h ↔ counts p d k h ∧ x = (hitT p d h, h) := by
  unfold found1
  split_ifs with hk
  · simp [hk]
  · simp [hk]

theorem rayTest_eq (h : Seg) (pt d : Pt) (f c : ℚ) (k : Bool) (hc : 0 < c) (hpar : cross (dir h) d ≠ 0) (hd : d ≠ 0)
    (hf : vectorFrangle d = .ok f) :
    rayTest h (pt, (pt.1 + c * d.1, pt.2 + c * d.2)) f k c = .ok (found1 pt d k h) := by
  cases k with
  | false => exact rayTest_false h pt d f c hc hpar hd hf
  | true =>
    obtain ⟨p, hp⟩ := ray_inter h pt d c hc hpar
    unfold rayTest
    rw [hp]
    show Except.ok (if decide (0 ≤ _ ∧ _ ≤ (1 : ℚ)) = true then [(hitT pt d h / c * c, h)] else []) = _
    rw [div_mul_cancel₀ _ hc.ne']
    unfold found1 counts
    have hY : cross (dir h) d = cross h.2 d - cross h.1 d := by unfold cross dir; dsimp only; ring
    have hT : cross (pt - h.1) d = cross pt d - cross h.1 d := by
      unfold cross; simp only [Prod.fst_sub, Prod.snd_sub]; ring
    have : (0 ≤ cross (pt - h.1) d / cross (dir h) d ∧ cross (pt - h.1) d / cross (dir h) d ≤ 1) ↔ hitAll pt d h := by
      rw [hY] at hpar
      rw [hY, hT]
      unfold hitAll
      rcases lt_or_gt_of_ne hpar with hs | hs
      · rw [div_le_one_of_neg hs, div_nonneg_iff]
        constructor
        · rintro ⟨h1 | h1, h2⟩
          · linarith [h1.2]
          · right; constructor <;> linarith [h1.1]
        · rintro (⟨a, b⟩ | ⟨a, b⟩)
          · linarith
          · exact ⟨Or.inr ⟨by linarith, hs.le⟩, by linarith⟩
      · rw [div_le_one hs, div_nonneg_iff]
        constructor
        · rintro ⟨h1 | h1, h2⟩
          · left; constructor <;> linarith [h1.1]
          · linarith [h1.2]
        · rintro (⟨a, b⟩ | ⟨a, b⟩)
          · exact ⟨Or.inl ⟨by linarith, hs.le⟩, by linarith⟩
          · linarith
    simp only [this, decide_eq_true_iff, if_true]

/-! ### The plain query -/

theorem raySlowLoop_eq (H : List Seg) (pt d : Pt) (f : ℚ) (k : Bool) (hpar : ∀ h ∈ H, cross (dir h) d ≠ 0) (hd : d ≠ 0)
    (hf : vectorFrangle d = .ok f) :
    raySlowLoop (pt, (pt.1 + d.1, pt.2 + d.2)) f k H = .ok (H.flatMap (found1 pt d k)) := by
  induction H with
  | nil => rfl
  | cons h H ih =>
    have ht := rayTest_eq h pt d f 1 k one_pos (hpar h List.mem_cons_self) hd hf
    rw [one_mul, one_mul] at ht
    rw [raySlowLoop, ht]
    show (raySlowLoop _ _ _ _ >>= _) = _
    rw [ih fun x hx => hpar x (List.mem_cons_of_mem _ hx)]
    rfl

theorem raySlow_eq (H : List Seg) (pt d : Pt) (k : Bool) (hpar : ∀ h ∈ H, cross (dir h) d ≠ 0) (hd : d ≠ 0) :
    raySlow H pt d k = .ok ((H.flatMap (found1 pt d k)).insertionSort interLe) := by
  obtain ⟨f, hf⟩ := frangle_some hd
  unfold raySlow
  rw [hf]
  show (raySlowLoop _ _ _ _ >>= _) = _
  rw [raySlowLoop_eq H pt d f k hpar hd hf]
  rfl

theorem slow_nodup {H : List Seg} (hnd : H.Nodup) (pt d : Pt) (k : Bool) :
    ((H.flatMap (found1 pt d k)).map Prod.snd).Nodup := by
  have : (H.flatMap (found1 pt d k)).map Prod.snd = H.filter fun h => decide (counts pt d k h) := by
    induction H with
    | nil => rfl
    | cons h H ih =>
      rw [List.flatMap_cons, List.map_append, ih (List.nodup_cons.1 hnd).2, List.filter_cons]
      unfold found1
      by_cases hk : counts pt d k h <;> simp [hk]
  rw [this]
  exact hnd.filter _

/-- The plain query, for any direction that is not parallel to a half-edge: it never fails, reports exactly what its
description says, every half-edge at most once, in order along the ray. -/
theorem c93_slow (H : List Seg) (hnd : H.Nodup) (p d : Pt) (hd : d ≠ 0) (hpar : ∀ h ∈ H, cross (dir h) d ≠ 0) (k : Bool) :
    ∃ l, raySlow H p d k = .ok l ∧ (∀ x, x ∈ l ↔ Reported H p d k x) ∧ (l.map Prod.snd).Nodup ∧
      l.Pairwise fun a b => a.1 ≤ b.1 := by
  refine ⟨_, raySlow_eq H p d k hpar hd, ?_, ?_, ?_⟩
  · intro x
    rw [(List.perm_insertionSort _ _).mem_iff, List.mem_flatMap, reported_iff hpar]
    constructor
    · rintro ⟨h, hh, hx⟩
      obtain ⟨hc, rfl⟩ := mem_found1.1 hx
      exact ⟨hh, hc, rfl⟩
    · rintro ⟨h1, h2, h3⟩
      exact ⟨x.2, h1, mem_found1.2 ⟨h2, Prod.ext h3 rfl⟩⟩
  · rw [((List.perm_insertionSort _ _).map _).nodup_iff]
    exact slow_nodup hnd p d k
  · have tot : Std.Total interLe := ⟨fun a b => by rw [interLe_lex, interLe_lex]; exact le_total _ _⟩
    have tr : IsTrans (ℚ × Seg) interLe := ⟨fun a b c => by rw [interLe_lex, interLe_lex, interLe_lex]; exact le_trans⟩
    refine List.Pairwise.imp ?_ (List.pairwise_insertionSort interLe _)
    rintro a b (h | h)
    · exact h.le
    · exact h.1.le

/-! ### The query with the tree -/

theorem rayLoop_eq (H : List Seg) (pt d : Pt) (f c : ℚ) (k : Bool) (hc : 0 < c) (hpar : ∀ h ∈ H, cross (dir h) d ≠ 0)
    (hd : d ≠ 0) (hf : vectorFrangle d = .ok f) (hrev : ∀ h ∈ H, (h.2, h.1) ∈ H) (found : List (STSeg Seg))
    (hfo : ∀ s ∈ found, s.2.2 ∈ H) :
    rayLoop H (pt, (pt.1 + c * d.1, pt.2 + c * d.2)) f k c found =
      .ok (found.flatMap fun s => found1 pt d k s.2.2 ++ found1 pt d k (s.2.2.2, s.2.2.1)) := by
  induction found with
  | nil => rfl
  | cons s rest ih =>
    have hl := ih fun x hx => hfo x (List.mem_cons_of_mem _ hx)
    have hs := hfo s List.mem_cons_self
    rw [rayLoop, if_pos hs, rayTest_eq _ _ _ _ _ _ hc (hpar _ hs) hd hf]
    show (if (s.2.2.2, s.2.2.1) ∈ H then _ else _) = _
    rw [if_pos (hrev _ hs), rayTest_eq _ _ _ _ _ _ hc (hpar _ (hrev _ hs)) hd hf]
    show (rayLoop _ _ _ _ _ _ >>= _) = _
    rw [hl]
    rfl

/-- With one half-edge of every pair met by the line, the two loops find the same. -/
theorem found_perm {H : List Seg} (hP : Planar H) (hnd : H.Nodup) (pt d : Pt) (k : Bool) (found : List Seg)
    (h1 : ∀ h ∈ found, h ∈ H ∧ ptLt h.1 h.2) (h2 : found.Nodup)
    (h3 : ∀ h ∈ H, ptLt h.1 h.2 → hitAll pt d h → h ∈ found) :
    (found.flatMap fun h => found1 pt d k h ++ found1 pt d k (h.2, h.1)).Perm (H.flatMap (found1 pt d k)) := by
  have asym : ∀ {p q : Pt}, ptLt p q → ¬ ptLt q p := by
    intro p q a b
    unfold ptLt at a b
    rcases a with a | ⟨a, a'⟩ <;> rcases b with b | ⟨b, b'⟩ <;> linarith
  have hall : ∀ h, counts pt d k h → hitAll pt d h := by
    intro h hh
    unfold counts at hh
    cases k with
    | true => simpa using hh
    | false =>
      have hh : hitK pt d h := by simpa using hh
      unfold hitK at hh
      unfold hitAll
      exact hh.imp (fun h => ⟨h.1, h.2.le⟩) (fun h => ⟨h.1, h.2.le⟩)
  refine (List.perm_ext_iff_of_nodup ?_ (List.Nodup.of_map _ (slow_nodup hnd pt d k))).2 ?_
  · rw [List.nodup_flatMap]
    constructor
    · intro h hh
      have hne := hP.ne _ (h1 h hh).1
      unfold found1
      split_ifs <;> simp
      intro _ hx
      exact absurd (congrArg Prod.fst hx) hne
    · refine List.Pairwise.imp_of_mem ?_ h2
      intro a b ha hb hab x hx hy
      have l1 := (h1 a ha).2
      have l2 := (h1 b hb).2
      have key : ∀ c, x ∈ found1 pt d k c ++ found1 pt d k (c.2, c.1) → x.2 = c ∨ x.2 = (c.2, c.1) := by
        intro c hc
        rcases List.mem_append.1 hc with hc | hc
        · exact Or.inl (congrArg Prod.snd (mem_found1.1 hc).2)
        · exact Or.inr (congrArg Prod.snd (mem_found1.1 hc).2)
      rcases key a hx with hx | hx <;> rcases key b hy with hy | hy
      · exact hab (hx.symm.trans hy)
      · rw [hx] at hy
        rw [hy] at l1
        exact asym l1 l2
      · rw [hx] at hy
        rw [← hy] at l2
        exact asym l1 l2
      · rw [hx] at hy
        exact hab (Prod.ext (congrArg Prod.snd hy) (congrArg Prod.fst hy))
  · intro x
    simp only [List.mem_flatMap, List.mem_append]
    constructor
    · rintro ⟨h, hh, hx | hx⟩
      · exact ⟨h, (h1 h hh).1, hx⟩
      · exact ⟨_, hP.rev _ (h1 h hh).1, hx⟩
    · rintro ⟨h, hh, hx⟩
      have hk := hall h (mem_found1.1 hx).1
      rcases ptLt_total (hP.ne _ hh) with hlt | hlt
      · exact ⟨h, h3 h hh hlt hk, Or.inl hx⟩
      · exact ⟨(h.2, h.1), h3 _ (hP.rev _ hh) hlt (by unfold hitAll at hk ⊢; exact hk.symm), Or.inr hx⟩

/-- The query with the tree gives what the plain one gives, along the general direction and against it. -/
theorem query_eq {R : Rays} (hR : RaysFine R) (hP : Planar R.halfEdges) (hnd : R.halfEdges.Nodup) {pts : List Pt} {a b : Pt}
    (ha : a ∈ pts) (hb : b ∈ pts) (hab : a ≠ b) {p : Pt} (hp : (boxOf pts).contains p = true) {d : Pt}
    (hd : d = R.gv ∨ (-d.1, -d.2) = R.gv) (k : Bool) :
    rayQueryGeneral R (boxOf pts) p d k = raySlow R.halfEdges p d k := by
  have hd0 : d ≠ 0 := by
    rintro rfl
    apply hR.gv
    rcases hd with h | h
    · exact h.symm
    · rw [← h]; ext <;> simp
  have hpar : ∀ h ∈ R.halfEdges, cross (dir h) d ≠ 0 := by
    intro h hh hc
    apply hR.general h hh
    rcases hd with e | e
    · rw [← e]; exact hc
    · rw [← e]
      unfold cross at hc ⊢
      dsimp only
      linarith
  obtain ⟨f, hf⟩ := frangle_some hd0
  obtain ⟨e, h1, h2, h3, h4⟩ := box_ok ha hb hab hp hd0
  obtain ⟨found, h5, h6, h7, h8⟩ := stab_ok hR (dotP (normalOf R.gv) p)
  rw [raySlow_eq _ _ _ _ hpar hd0]
  unfold rayQueryGeneral rayQuery
  rw [if_pos hd, hf]
  show (extent _ >>= _) = _
  rw [h1]
  show (ensure ((boxOf pts).contains (p.1 + 10 * (e / max |d.1| |d.2|) * d.1, p.2 + 10 * (e / max |d.1| |d.2|) * d.2) = false) >>= _) = _
  rw [ensure_pos h4]
  show (segmentTreeStab _ _ >>= _) = _
  rw [h5]
  show (rayLoop _ _ _ _ _ _ >>= _) = _
  rw [rayLoop_eq R.halfEdges p d f _ k h3 hpar hd0 hf hP.rev found fun s hs => (h6 s hs).1]
  show Except.ok _ = _
  congr 1
  apply sort_eq
  have := found_perm hP hnd p d k (found.map fun s => s.2.2) (by
    intro h hh
    obtain ⟨s, hs, rfl⟩ := List.mem_map.1 hh
    exact h6 s hs) (h7 hnd) (by
    intro h hh hlt hk
    have hpr : ∀ v : Pt, dotP (normalOf d) v = - cross v d := by
      intro v; unfold dotP normalOf cross; dsimp only; ring
    have hg : (∀ v, dotP (normalOf R.gv) v = - cross v d) ∨ ∀ v, dotP (normalOf R.gv) v = cross v d := by
      rcases hd with e | e
      · left; rw [← e]; exact hpr
      · right
        intro v
        rw [← e]
        unfold dotP normalOf cross; dsimp only; ring
    obtain ⟨s, hs, e⟩ := h8 h hh hlt (by
      unfold gseg
      unfold hitAll at hk
      rcases hg with hg | hg <;> simp only [hg] <;>
      split_ifs with hs <;> rcases hk with ⟨i, j⟩ | ⟨i, j⟩ <;> dsimp only <;> linarith) (by
      unfold gseg
      unfold hitAll at hk
      rcases hg with hg | hg <;> simp only [hg] <;>
      split_ifs with hs <;> rcases hk with ⟨i, j⟩ | ⟨i, j⟩ <;> dsimp only <;> linarith)
    exact List.mem_map.2 ⟨s, hs, e⟩)
  rwa [List.flatMap_map] at this

/-- For the net of any segments: the general direction is parallel to none of its half-edges, and from every point of the
box, also when it is made larger to hold further points as the code does with the points of cells, along this direction or against it, the query with the tree works, reports exactly what its description says, every
half-edge at most once and in order, and gives the very list that the plain query gives. -/
theorem c93_query {ch : Choices} (hch : ch.Valid) {segments : List Seg} (hne : segments ≠ [])
    (hd : ∀ s ∈ segments, s.1 ≠ s.2) :
    ∃ net aabb R, buildNet ch segments = .ok (net, aabb) ∧ buildRays net = .ok R ∧ R.gv ≠ 0 ∧
      (∀ h ∈ net.halfEdges, cross (dir h) R.gv ≠ 0) ∧
      ∀ more : List Pt, ∀ p, (more.foldl AABB.includePoint aabb).contains p = true →
        ∀ d, d = R.gv ∨ d = (-R.gv.1, -R.gv.2) → ∀ k,
        ∃ l, rayQueryGeneral R (more.foldl AABB.includePoint aabb) p d k = .ok l ∧ raySlow net.halfEdges p d k = .ok l ∧
          (∀ x, x ∈ l ↔ Reported net.halfEdges p d k x) ∧ (l.map Prod.snd).Nodup ∧ l.Pairwise fun a b => a.1 ≤ b.1 := by
  obtain ⟨net, aabb, verts, hb, hvn, hv, hn, hon, hbox⟩ := buildNet_spec ch hch segments hd
  obtain ⟨R, hRb, hR, hRe⟩ := buildRays_ok net hn.planar.ne
  refine ⟨net, aabb, R, hb, hRb, hR.gv, by rw [← hRe]; exact hR.general, ?_⟩
  intro more p hp d hdd k
  have haabb : more.foldl AABB.includePoint aabb = boxOf (verts ++ more) := by
    unfold boxOf
    rw [hbox, List.foldl_append]
  obtain ⟨s, hs⟩ := List.exists_mem_of_ne_nil _ hne
  have hdd' : d = R.gv ∨ (-d.1, -d.2) = R.gv := by
    rcases hdd with e | e
    · exact Or.inl e
    · right; rw [e]; ext <;> simp
  have hd0 : d ≠ 0 := by
    rintro rfl
    apply hR.gv
    rcases hdd' with h | h
    · exact h.symm
    · rw [← h]; ext <;> simp
  have hpar : ∀ h ∈ net.halfEdges, cross (dir h) d ≠ 0 := by
    intro h hh hc
    apply hR.general h (by rw [hRe]; exact hh)
    rcases hdd' with e | e
    · rw [← e]; exact hc
    · rw [← e]
      unfold cross at hc ⊢
      dsimp only
      linarith
  rw [haabb] at hp ⊢
  have heq := query_eq hR (by rw [hRe]; exact hn.planar) (by rw [hRe]; exact hn.nodup)
    (List.mem_append_left _ ((hv s.1).2 (Or.inl ⟨s, hs, Or.inl rfl⟩)))
    (List.mem_append_left _ ((hv s.2).2 (Or.inl ⟨s, hs, Or.inr rfl⟩))) (hd s hs) hp hdd' k
  obtain ⟨l, h1, h2, h3, h4⟩ := c93_slow net.halfEdges hn.nodup p d hd0 hpar k
  exact ⟨l, by rw [heq, hRe, h1], h1, h2, h3, h4⟩

/-! ### A cross: the ray goes through the middle, where eight half-edges end -/

/-- Two segments that cross. -/
def crossed : List Seg := [((0, 0), (2, 2)), ((0, 2), (2, 0))]

example : ∃ net aabb R, buildNet chDemo crossed = .ok (net, aabb) ∧ buildRays net = .ok R ∧ R.gv ≠ 0 ∧
    (∀ h ∈ net.halfEdges, cross (dir h) R.gv ≠ 0) ∧
    ∀ more : List Pt, ∀ p, (more.foldl AABB.includePoint aabb).contains p = true →
      ∀ d, d = R.gv ∨ d = (-R.gv.1, -R.gv.2) → ∀ k,
      ∃ l, rayQueryGeneral R (more.foldl AABB.includePoint aabb) p d k = .ok l ∧ raySlow net.halfEdges p d k = .ok l ∧
        (∀ x, x ∈ l ↔ Reported net.halfEdges p d k x) ∧ (l.map Prod.snd).Nodup ∧ l.Pairwise fun a b => a.1 ≤ b.1 :=
  c93_query chDemo_valid (by decide) (by decide)

/-- Its half-edges. -/
def crossed4 : List Seg :=
  [((0, 0), (1, 1)), ((1, 1), (0, 0)), ((1, 1), (2, 2)), ((2, 2), (1, 1)),
   ((0, 2), (1, 1)), ((1, 1), (0, 2)), ((1, 1), (2, 0)), ((2, 0), (1, 1))]

/-- Through the middle half of the half-edges count, those on one side of the line. -/
example : raySlow crossed4 (0, 1) (1, 0) false =
    .ok [(1, ((0, 0), (1, 1))), (1, ((1, 1), (0, 0))), (1, ((1, 1), (2, 0))), (1, ((2, 0), (1, 1)))] := by decide +kernel

example : (raySlow crossed4 (0, 1) (1, 0) true).map List.length = .ok 8 := by decide +kernel

end Ply.Arr
