import Verif.Model.Arrangement2D
import Verif.Proofs.Faces
import Verif.Props.Primitive2D
import Verif.Props.Scan2D
import Verif.Proofs.SheetBuild

/-!
# The points on each segment of an arrangement, and the pieces between them
-/

namespace Ply.Arr

/-! ### Dictionaries and sets -/

theorem mem_sadd {α : Type} [DecidableEq α] (x y : α) (l : List α) : y ∈ sadd x l ↔ y ∈ l ∨ y = x := by
  unfold sadd
  split_ifs with h
  · constructor
    · exact Or.inl
    · rintro (h' | rfl)
      · exact h'
      · exact h
  · simp

theorem nodup_sadd {α : Type} [DecidableEq α] (x : α) (l : List α) (h : l.Nodup) : (sadd x l).Nodup := by
  unfold sadd
  split_ifs with hx
  · exact h
  · rw [List.nodup_append]
    refine ⟨h, by simp, ?_⟩
    intro a ha b hb
    simp only [List.mem_singleton] at hb
    rintro rfl
    exact hx (hb ▸ ha)

theorem dgetSet_dadd {κ α : Type} [DecidableEq κ] [DecidableEq α] (k k' : κ) (x : α) (d : List (κ × List α)) :
    dgetSet k' (daddSet k x d) = if k' = k then sadd x (dgetSet k d) else dgetSet k' d := by
  induction d with
  | nil =>
    unfold daddSet
    by_cases h : k' = k
    · subst h; simp [dgetSet, sadd]
    · simp [dgetSet, h, Ne.symm h]
  | cons a d ih =>
    obtain ⟨k0, l⟩ := a
    unfold daddSet
    by_cases h0 : k0 = k
    · subst h0
      rw [if_pos rfl]
      by_cases h : k' = k0
      · subst h; simp [dgetSet]
      · simp [dgetSet, h, Ne.symm h]
    · rw [if_neg h0]
      rw [dgetSet, ih]
      by_cases h : k0 = k'
      · subst h
        simp [dgetSet, h0]
      · rw [if_neg h]
        by_cases h' : k' = k
        · subst h'; rw [if_pos rfl, if_pos rfl, dgetSet, if_neg h0]
        · rw [if_neg h', if_neg h', dgetSet, if_neg h]

theorem dget_mem {κ α : Type} [DecidableEq κ] {k : κ} {d : List (κ × α)} {v : α} (h : dget k d = .ok v) :
    (k, v) ∈ d := by
  induction d with
  | nil => cases h
  | cons a d ih =>
    obtain ⟨k', v'⟩ := a
    unfold dget at h
    split_ifs at h with hk
    · cases h; subst hk; exact List.mem_cons_self
    · exact List.mem_cons_of_mem _ (ih h)

theorem dget_of_mem {κ α : Type} [DecidableEq κ] {k : κ} {d : List (κ × α)} {v : α}
    (hn : (d.map Prod.fst).Nodup) (h : (k, v) ∈ d) : dget k d = .ok v := by
  induction d with
  | nil => cases h
  | cons a d ih =>
    obtain ⟨k', v'⟩ := a
    rw [List.map_cons, List.nodup_cons] at hn
    unfold dget
    rcases List.mem_cons.1 h with e | h
    · cases e; rw [if_pos rfl]
    · rw [if_neg, ih hn.2 h]
      rintro rfl
      exact hn.1 (List.mem_map.2 ⟨_, h, rfl⟩)

theorem dget_ok {κ α : Type} [DecidableEq κ] {k : κ} {d : List (κ × α)} (h : k ∈ d.map Prod.fst) :
    ∃ v, dget k d = .ok v := by
  induction d with
  | nil => cases h
  | cons a d ih =>
    obtain ⟨k', v'⟩ := a
    unfold dget
    by_cases hk : k' = k
    · exact ⟨v', if_pos hk⟩
    · rw [if_neg hk]
      rw [List.map_cons] at h
      rcases List.mem_cons.1 h with e | h
      · exact absurd e.symm hk
      · exact ih h

theorem dget_dset {κ α : Type} [DecidableEq κ] (k k' : κ) (v : α) (d : List (κ × α)) :
    dget k' (dset k v d) = if k' = k then .ok v else dget k' d := by
  induction d with
  | nil =>
    unfold dset
    by_cases h : k' = k
    · subst h; simp [dget]
    · simp [dget, h, Ne.symm h]
  | cons a d ih =>
    obtain ⟨k0, l⟩ := a
    unfold dset
    by_cases h0 : k0 = k
    · subst h0
      rw [if_pos rfl]
      by_cases h : k' = k0
      · subst h; simp [dget]
      · simp [dget, h, Ne.symm h]
    · rw [if_neg h0, dget, ih]
      by_cases h : k0 = k'
      · subst h; simp [dget, h0]
      · rw [if_neg h]
        by_cases h' : k' = k
        · rw [if_pos h', if_pos h']
        · rw [if_neg h', if_neg h', dget, if_neg h]

theorem keys_dset {κ α : Type} [DecidableEq κ] (k : κ) (v : α) (d : List (κ × α)) (h : k ∈ d.map Prod.fst) :
    (dset k v d).map Prod.fst = d.map Prod.fst := by
  induction d with
  | nil => cases h
  | cons a d ih =>
    obtain ⟨k0, l⟩ := a
    unfold dset
    by_cases h0 : k0 = k
    · rw [if_pos h0]; rfl
    · rw [if_neg h0, List.map_cons, List.map_cons, ih]
      rw [List.map_cons] at h
      rcases List.mem_cons.1 h with e | h
      · exact absurd e.symm h0
      · exact h

/-! ### The points of each segment -/

/-- The loop of `add_vertex` succeeds on segments that contain the point. -/
theorem addVertexSegs_spec (v : Pt) (segs : List Seg) (h : ∀ s ∈ segs, s.1 ≠ s.2 ∧ OnSeg s v)
    (sv : List (Seg × List Pt)) :
    ∃ sv', addVertexSegs v segs sv = .ok sv' ∧
      (∀ s p, p ∈ dgetSet s sv' ↔ p ∈ dgetSet s sv ∨ (s ∈ segs ∧ p = v)) ∧
      ((∀ s, (dgetSet s sv).Nodup) → ∀ s, (dgetSet s sv').Nodup) := by
  induction segs generalizing sv with
  | nil => exact ⟨sv, rfl, by simp, fun h => h⟩
  | cons s rest ih =>
    obtain ⟨hne, t, t0, t1, ht⟩ := h s List.mem_cons_self
    obtain ⟨r, hr, hr', _⟩ := c16_fraction s v hne 2 le_rfl
    have : r = some t := (hr' t).2 ht
    subst this
    obtain ⟨sv', h1, h2, h3⟩ := ih (fun s hs => h s (List.mem_cons_of_mem _ hs)) (daddSet s v sv)
    refine ⟨sv', ?_, ?_, ?_⟩
    · rw [addVertexSegs, hr]
      dsimp only
      rw [if_pos ⟨t0, t1⟩, h1]
    · intro s' p
      rw [h2, dgetSet_dadd]
      by_cases hs : s' = s
      · subst hs
        rw [if_pos rfl, mem_sadd]
        constructor
        · rintro ((a | a) | a)
          · exact Or.inl a
          · exact Or.inr ⟨List.mem_cons_self, a⟩
          · exact Or.inr ⟨List.mem_cons_of_mem _ a.1, a.2⟩
        · rintro (a | a)
          · exact Or.inl (Or.inl a)
          · exact Or.inl (Or.inr a.2)
      · rw [if_neg hs]
        simp [hs]
    · intro hn
      refine h3 fun s' => ?_
      rw [dgetSet_dadd]
      split_ifs
      · exact nodup_sadd _ _ (hn _)
      · exact hn _

/-- What is kept while vertices are added. -/
def Points.Nodup (st : Points) : Prop := st.vertices.Nodup ∧ ∀ s, (dgetSet s st.segVerts).Nodup

theorem addVertex_spec (st : Points) (v : Pt) (segs : List Seg) (h : ∀ s ∈ segs, s.1 ≠ s.2 ∧ OnSeg s v) :
    ∃ st', addVertex st v segs = .ok st' ∧ (∀ p, p ∈ st'.vertices ↔ p ∈ st.vertices ∨ p = v) ∧
      (∀ s p, p ∈ dgetSet s st'.segVerts ↔ p ∈ dgetSet s st.segVerts ∨ (s ∈ segs ∧ p = v)) ∧
      (st.Nodup → st'.Nodup) := by
  obtain ⟨sv', h1, h2, h3⟩ := addVertexSegs_spec v segs h st.segVerts
  refine ⟨⟨sadd v st.vertices, sv'⟩, ?_, fun p => mem_sadd _ _ _, h2, fun hn => ⟨nodup_sadd _ _ hn.1, h3 hn.2⟩⟩
  unfold addVertex
  rw [h1]
  rfl

theorem addEnds_spec (segs : List Seg) (h : ∀ s ∈ segs, s.1 ≠ s.2) (st : Points) :
    ∃ st', addEnds segs st = .ok st' ∧
      (∀ p, p ∈ st'.vertices ↔ p ∈ st.vertices ∨ ∃ s ∈ segs, p = s.1 ∨ p = s.2) ∧
      (∀ s p, p ∈ dgetSet s st'.segVerts ↔ p ∈ dgetSet s st.segVerts ∨ (s ∈ segs ∧ (p = s.1 ∨ p = s.2))) ∧
      (st.Nodup → st'.Nodup) := by
  induction segs generalizing st with
  | nil => exact ⟨st, rfl, by simp, by simp, fun h => h⟩
  | cons s rest ih =>
    have hs := h s List.mem_cons_self
    obtain ⟨st1, a1, a2, a3, a4⟩ := addVertex_spec st s.1 [s] (by simp [hs, onSeg_left])
    obtain ⟨st2, b1, b2, b3, b4⟩ := addVertex_spec st1 s.2 [s] (by simp [hs, onSeg_right])
    obtain ⟨st3, c1, c2, c3, c4⟩ := ih (fun s hs => h s (List.mem_cons_of_mem _ hs)) st2
    refine ⟨st3, ?_, ?_, ?_, fun hn => c4 (b4 (a4 hn))⟩
    · rw [addEnds, ensure, if_pos hs]
      show (addVertex st s.1 [s] >>= _) = _
      rw [a1]
      show (addVertex st1 s.2 [s] >>= _) = _
      rw [b1]
      exact c1
    · intro p
      rw [c2, b2, a2]
      simp only [List.exists_mem_cons_iff, or_assoc]
    · intro s' p
      rw [c3, b3, a3]
      simp only [List.mem_cons, List.not_mem_nil, or_false]
      constructor
      · rintro (((a | ⟨rfl, a⟩) | ⟨rfl, a⟩) | ⟨a, b⟩)
        · exact Or.inl a
        · exact Or.inr ⟨Or.inl rfl, Or.inl a⟩
        · exact Or.inr ⟨Or.inl rfl, Or.inr a⟩
        · exact Or.inr ⟨Or.inr a, b⟩
      · rintro (a | ⟨rfl | a, b⟩)
        · exact Or.inl (Or.inl (Or.inl a))
        · rcases b with b | b
          · exact Or.inl (Or.inl (Or.inr ⟨rfl, b⟩))
          · exact Or.inl (Or.inr ⟨rfl, b⟩)
        · exact Or.inr ⟨a, b⟩

theorem addInters_spec (out : List (Pt × List Seg)) (h : ∀ r ∈ out, ∀ s ∈ r.2, s.1 ≠ s.2 ∧ OnSeg s r.1)
    (st : Points) :
    ∃ st', addInters out st = .ok st' ∧
      (∀ p, p ∈ st'.vertices ↔ p ∈ st.vertices ∨ ∃ r ∈ out, p = r.1) ∧
      (∀ s p, p ∈ dgetSet s st'.segVerts ↔ p ∈ dgetSet s st.segVerts ∨ ∃ r ∈ out, s ∈ r.2 ∧ p = r.1) ∧
      (st.Nodup → st'.Nodup) := by
  induction out generalizing st with
  | nil => exact ⟨st, rfl, by simp, by simp, fun h => h⟩
  | cons r rest ih =>
    obtain ⟨st1, a1, a2, a3, a4⟩ := addVertex_spec st r.1 r.2 (h r List.mem_cons_self)
    obtain ⟨st3, c1, c2, c3, c4⟩ := ih (fun s hs => h s (List.mem_cons_of_mem _ hs)) st1
    refine ⟨st3, ?_, ?_, ?_, fun hn => c4 (a4 hn)⟩
    · rw [addInters, a1]
      exact c1
    · intro p
      rw [c2, a2]
      simp only [List.exists_mem_cons_iff, or_assoc]
    · intro s p
      rw [c3, a3]
      simp only [List.exists_mem_cons_iff, or_assoc]

/-- After both loops every segment has exactly the event points on it. -/
theorem points_spec (segs : List Seg) (hd : ∀ s ∈ segs, s.1 ≠ s.2) (hn : segs.Nodup) :
    ∃ st out st', addEnds segs ⟨[], []⟩ = .ok st ∧
      allSegmentIntersections (2 * segs.length + segs.length * segs.length) segs = .ok out ∧
      addInters out st = .ok st' ∧ st'.Nodup ∧ (∀ p, p ∈ st'.vertices ↔ EventPoint segs p) ∧
      ∀ s ∈ segs, ∀ p, p ∈ dgetSet s st'.segVerts ↔ EventPoint segs p ∧ OnSeg s p := by
  obtain ⟨out, ho, hs1, hs2, hs3⟩ := c27_correct segs hd hn
  obtain ⟨st, a1, a2, a3, a4⟩ := addEnds_spec segs hd ⟨[], []⟩
  obtain ⟨st', b1, b2, b3, b4⟩ := addInters_spec out (fun r hr s hs => by
    have := ((hs2 r hr).2 s).1 hs
    exact ⟨hd s this.1, this.2⟩) st
  refine ⟨st, out, st', a1, ho _ le_rfl, b1, b4 (a4 ⟨List.nodup_nil, fun s => List.nodup_nil⟩), ?_, ?_⟩
  · intro p
    rw [b2, a2]
    constructor
    · rintro ((h | h) | ⟨r, hr, rfl⟩)
      · cases h
      · exact Or.inl h
      · exact ((hs3 r.1).1 ⟨r, hr, rfl⟩).1
    · rintro (h | ⟨s, hs, t, ht, hp, h1, h2⟩)
      · exact Or.inl (Or.inr h)
      · right
        obtain ⟨r, hr, e⟩ := (hs3 p).2 ⟨Or.inr ⟨s, hs, t, ht, hp, h1, h2⟩, s, hs, t, ht, by
          rintro rfl; exact hp (by unfold Parallel cross; ring), h1, h2⟩
        exact ⟨r, hr, e.symm⟩
  · intro s hs p
    rw [b3, a3]
    constructor
    · rintro ((h | ⟨_, h⟩) | ⟨r, hr, h1, rfl⟩)
      · cases h
      · refine ⟨Or.inl ⟨s, hs, h⟩, ?_⟩
        rcases h with rfl | rfl
        · exact onSeg_left s
        · exact onSeg_right s
      · exact ⟨((hs3 r.1).1 ⟨r, hr, rfl⟩).1, (((hs2 r hr).2 s).1 h1).2⟩
    · rintro ⟨h, hon⟩
      by_cases hend : p = s.1 ∨ p = s.2
      · exact Or.inl (Or.inr ⟨hs, hend⟩)
      · have : ∃ t ∈ segs, s ≠ t ∧ OnSeg t p := by
          rcases h with ⟨t, ht, e⟩ | ⟨u, hu, t, ht, hp, h1, h2⟩
          · refine ⟨t, ht, ?_, ?_⟩
            · rintro rfl; exact hend e
            · rcases e with rfl | rfl
              · exact onSeg_left t
              · exact onSeg_right t
          · by_cases hsu : s = u
            · subst hsu
              exact ⟨t, ht, by rintro rfl; exact hp (by unfold Parallel cross; ring), h2⟩
            · exact ⟨u, hu, hsu, h1⟩
        obtain ⟨t, ht, hne, hont⟩ := this
        obtain ⟨r, hr, e⟩ := (hs3 p).2 ⟨h, s, hs, t, ht, hne, hon, hont⟩
        exact Or.inr ⟨r, hr, ((hs2 r hr).2 s).2 ⟨hs, by rw [e]; exact hon⟩, e.symm⟩

/-! ### Elementary pieces -/

theorem Elem.rev {S : List Seg} {h : Seg} (he : Elem S h) : Elem S (h.2, h.1) :=
  ⟨he.ne.symm, he.on.imp fun _ a => ⟨a.1, a.2.2, a.2.1⟩, he.ev2, he.ev1, fun x hx ho =>
    (he.gap x hx ((onSeg_rev h x).1 ho)).symm⟩

theorem along_along (s : Seg) (t0 t1 r : ℚ) :
    along (along s t0, along s t1) r = along s (t0 + r * (t1 - t0)) := by
  unfold along; ext <;> dsimp only <;> ring

theorem onSeg_sub {s : Seg} {a b x : Pt} (ha : OnSeg s a) (hb : OnSeg s b) (hx : OnSeg (a, b) x) : OnSeg s x := by
  obtain ⟨t0, a0, a1, rfl⟩ := ha
  obtain ⟨t1, b0, b1, rfl⟩ := hb
  obtain ⟨r, r0, r1, rfl⟩ := hx
  rw [along_along]
  refine ⟨_, ?_, ?_, rfl⟩
  · nlinarith [mul_nonneg r0 b0, mul_nonneg (sub_nonneg.2 r1) a0]
  · nlinarith [mul_nonneg r0 (sub_nonneg.2 b1), mul_nonneg (sub_nonneg.2 r1) (sub_nonneg.2 a1)]

/-- A point on both pieces that lie on one line, inside neither: then one end is inside the other or
they are the same. -/
theorem collinear_pieces {h k : Seg} (hh : h.1 ≠ h.2) (hp : Parallel h k) {x : Pt}
    (hx : OnSeg h x) (kx : OnSeg k x) (hx1 : x ≠ h.1) (hx2 : x ≠ h.2)
    (g1 : OnSeg h k.1 → k.1 = h.1 ∨ k.1 = h.2) (g2 : OnSeg h k.2 → k.2 = h.1 ∨ k.2 = h.2)
    (f1 : OnSeg k h.1 → h.1 = k.1 ∨ h.1 = k.2) (f2 : OnSeg k h.2 → h.2 = k.1 ∨ h.2 = k.2) :
    k = h ∨ k = (h.2, h.1) := by
  obtain ⟨r, r0, r1, rfl⟩ := hx
  have r0' : 0 < r := lt_of_le_of_ne r0 (by rintro rfl; exact hx1 (along_zero h))
  have r1' : r < 1 := lt_of_le_of_ne r1 (by rintro rfl; exact hx2 (along_one h))
  -- every point on the line of `k` is on the line of `h`
  have hline : ∀ y : Pt, cross (dir h) (y - h.1) = 0 → ∃ t, y = along h t := by
    intro y hy
    unfold cross dir at hy
    simp only [Prod.fst_sub, Prod.snd_sub] at hy
    by_cases hd : h.2.1 - h.1.1 = 0
    · have hd2 : h.2.2 - h.1.2 ≠ 0 := fun hc => hh (Prod.ext (by linarith) (by linarith))
      refine ⟨(y.2 - h.1.2) / (h.2.2 - h.1.2), ?_⟩
      rw [hd, zero_mul, zero_sub, neg_eq_zero] at hy
      have := (mul_eq_zero.1 hy).resolve_left hd2
      unfold along
      ext
      · dsimp only; rw [hd]; linarith
      · dsimp only; rw [div_mul_cancel₀ _ hd2]; ring
    · refine ⟨(y.1 - h.1.1) / (h.2.1 - h.1.1), ?_⟩
      unfold along
      ext
      · dsimp only; rw [div_mul_cancel₀ _ hd]; ring
      · dsimp only
        field_simp
        linarith
  obtain ⟨u, u0, u1, hu⟩ := kx
  have kl : ∀ t, cross (dir h) (along k t - h.1) = 0 := by
    intro t
    have e1 := congrArg Prod.fst hu
    have e2 := congrArg Prod.snd hu
    unfold along at e1 e2
    dsimp only at e1 e2
    unfold Parallel cross dir at hp
    unfold cross dir along
    simp only [Prod.fst_sub, Prod.snd_sub] at hp ⊢
    linear_combination (h.2.2 - h.1.2) * e1 - (h.2.1 - h.1.1) * e2 + (t - u) * hp
  obtain ⟨α, hα⟩ := hline k.1 (by have := kl 0; rwa [along_zero] at this)
  obtain ⟨β, hβ⟩ := hline k.2 (by have := kl 1; rwa [along_one] at this)
  have hk : ∀ t, along k t = along h (α + t * (β - α)) := by
    intro t
    rw [← along_along, ← hα, ← hβ]
  rw [hk u] at hu
  have hr : r = α + u * (β - α) := along_inj hh hu
  have inj0 : ∀ {t}, along h t = h.1 → t = 0 := fun e => along_inj hh (by rw [e, along_zero])
  have inj1 : ∀ {t}, along h t = h.2 → t = 1 := fun e => along_inj hh (by rw [e, along_one])
  have ga : 0 ≤ α → α ≤ 1 → α = 0 ∨ α = 1 := fun h0 h1 =>
    (g1 ⟨α, h0, h1, hα⟩).imp (fun e => inj0 (hα ▸ e)) (fun e => inj1 (hα ▸ e))
  have gb : 0 ≤ β → β ≤ 1 → β = 0 ∨ β = 1 := fun h0 h1 =>
    (g2 ⟨β, h0, h1, hβ⟩).imp (fun e => inj0 (hβ ▸ e)) (fun e => inj1 (hβ ▸ e))
  have onk : ∀ y, α ≤ y ∧ y ≤ β ∨ β ≤ y ∧ y ≤ α → α ≠ β → OnSeg k (along h y) := by
    intro y hy hne
    refine ⟨(y - α) / (β - α), ?_, ?_, ?_⟩
    · rcases hy with ⟨a, b⟩ | ⟨a, b⟩
      · exact div_nonneg (by linarith) (by linarith)
      · rw [← neg_div_neg_eq]; exact div_nonneg (by linarith) (by linarith)
    · rcases hy with ⟨a, b⟩ | ⟨a, b⟩
      · have : 0 < β - α := sub_pos.2 (lt_of_le_of_ne (a.trans b) hne)
        rw [div_le_one this]; linarith
      · have : 0 < α - β := sub_pos.2 (lt_of_le_of_ne (a.trans b) hne.symm)
        rw [← neg_div_neg_eq, neg_sub, neg_sub, div_le_one this]; linarith
    · rw [hk, div_mul_cancel₀ _ (sub_ne_zero.2 hne.symm)]
      congr 1; ring
  have kinj : ∀ {y}, along h y = k.1 → y = α := fun e => along_inj hh (by rw [e, hα])
  have kinj2 : ∀ {y}, along h y = k.2 → y = β := fun e => along_inj hh (by rw [e, hβ])
  have fa : (α ≤ 0 ∧ 0 ≤ β ∨ β ≤ 0 ∧ 0 ≤ α) → α ≠ β → 0 = α ∨ 0 = β := fun h0 hne =>
    (f1 (by rw [← along_zero h]; exact onk 0 h0 hne)).imp (fun e => kinj (by rw [along_zero, e]))
      (fun e => kinj2 (by rw [along_zero, e]))
  have fb : (α ≤ 1 ∧ 1 ≤ β ∨ β ≤ 1 ∧ 1 ≤ α) → α ≠ β → 1 = α ∨ 1 = β := fun h0 hne =>
    (f2 (by rw [← along_one h]; exact onk 1 h0 hne)).imp (fun e => kinj (by rw [along_one, e]))
      (fun e => kinj2 (by rw [along_one, e]))
  have fin : (α = 0 ∧ β = 1) ∨ (α = 1 ∧ β = 0) → k = h ∨ k = (h.2, h.1) := by
    rintro (⟨rfl, rfl⟩ | ⟨rfl, rfl⟩)
    · left; rw [along_zero] at hα; rw [along_one] at hβ; exact Prod.ext hα hβ
    · right; rw [along_one] at hα; rw [along_zero] at hβ; exact Prod.ext hα hβ
  rcases lt_trichotomy α β with hlt | heq | hgt
  · have a1 : α ≤ r := by rw [hr]; nlinarith
    have b1 : r ≤ β := by rw [hr]; nlinarith
    apply fin
    left
    constructor
    · rcases lt_trichotomy α 0 with h0 | h0 | h0
      · rcases fa (Or.inl ⟨h0.le, by linarith⟩) hlt.ne with e | e <;> linarith
      · exact h0
      · rcases ga h0.le (by linarith) with e | e <;> linarith
    · rcases lt_trichotomy β 1 with h0 | h0 | h0
      · rcases gb (by linarith) h0.le with e | e <;> linarith
      · exact h0
      · rcases fb (Or.inl ⟨by linarith, h0.le⟩) hlt.ne with e | e <;> linarith
  · have : r = α := by rw [hr, ← heq]; ring
    rcases ga (by linarith) (by linarith) with e | e <;> linarith
  · have a1 : β ≤ r := by rw [hr]; nlinarith
    have b1 : r ≤ α := by rw [hr]; nlinarith
    apply fin
    right
    constructor
    · rcases lt_trichotomy α 1 with h0 | h0 | h0
      · rcases ga (by linarith) h0.le with e | e <;> linarith
      · exact h0
      · rcases fb (Or.inr ⟨by linarith, h0.le⟩) hgt.ne' with e | e <;> linarith
    · rcases lt_trichotomy β 0 with h0 | h0 | h0
      · rcases fa (Or.inr ⟨h0.le, by linarith⟩) hgt.ne' with e | e <;> linarith
      · exact h0
      · rcases gb h0.le (by linarith) with e | e <;> linarith

theorem dir_piece {s h : Seg} (h1 : OnSeg s h.1) (h2 : OnSeg s h.2) (hne : h.1 ≠ h.2) :
    ∃ r : ℚ, r ≠ 0 ∧ dir h = r • dir s := by
  obtain ⟨a, _, _, ha⟩ := h1
  obtain ⟨b, _, _, hb⟩ := h2
  refine ⟨b - a, ?_, ?_⟩
  · intro hc
    have : a = b := by linarith
    exact hne (by rw [ha, hb, this])
  · unfold dir
    rw [ha, hb]
    unfold along
    ext <;> simp only [Prod.smul_fst, Prod.smul_snd, smul_eq_mul] <;> ring

theorem elem_meet {S : List Seg} {h k : Seg} (hh : Elem S h) (hk : Elem S k) {x : Pt} (hx : OnSeg h x)
    (kx : OnSeg k x) : (k = h ∨ k = (h.2, h.1)) ∨ ((x = h.1 ∨ x = h.2) ∧ (x = k.1 ∨ x = k.2)) := by
  by_cases hev : EventPoint S x
  · exact Or.inr ⟨hh.gap x hev hx, hk.gap x hev kx⟩
  · left
    obtain ⟨s, hs, s1, s2⟩ := hh.on
    obtain ⟨t, ht, t1, t2⟩ := hk.on
    obtain ⟨r, r0, hr⟩ := dir_piece s1 s2 hh.ne
    obtain ⟨r', r0', hr'⟩ := dir_piece t1 t2 hk.ne
    have hst : Parallel s t := by
      by_contra hc
      exact hev (Or.inr ⟨s, hs, t, ht, hc, onSeg_sub s1 s2 hx, onSeg_sub t1 t2 kx⟩)
    have hpar : Parallel h k := by
      unfold Parallel at hst ⊢
      rw [hr, hr']
      unfold cross at hst ⊢
      simp only [Prod.smul_fst, Prod.smul_snd, smul_eq_mul]
      linear_combination r * r' * hst
    refine collinear_pieces hh.ne hpar hx kx ?_ ?_ (hh.gap _ hk.ev1) (hh.gap _ hk.ev2) (hk.gap _ hh.ev1)
      (hk.gap _ hh.ev2)
    · rintro rfl; exact hev hh.ev1
    · rintro rfl; exact hev hh.ev2

theorem elem_planar {S H : List Seg} (hr : ∀ h ∈ H, (h.2, h.1) ∈ H) (he : ∀ h ∈ H, Elem S h) : Planar H :=
  ⟨hr, fun h hh => (he h hh).ne, fun h hh k hk _ hx kx => elem_meet (he h hh) (he k hk) hx kx⟩

/-- Two pieces from one point in the same direction are the same. -/
theorem elem_same_dir {S : List Seg} {h k : Seg} (hh : Elem S h) (hk : Elem S k) (h1 : h.1 = k.1) {d : Pt}
    {r r' : ℚ} (r0 : 0 < r) (r0' : 0 < r') (e : dir h = r • d) (e' : dir k = r' • d) : h = k := by
  have key : ∀ {h k : Seg}, Elem S h → Elem S k → h.1 = k.1 → ∀ {r r' : ℚ}, 0 < r → r ≤ r' → dir h = r • d →
      dir k = r' • d → h = k := by
    intro h k hh hk h1 r r' r0 hle e e'
    have r0' := lt_of_lt_of_le r0 hle
    have : OnSeg k h.2 := by
      refine ⟨r / r', div_nonneg r0.le r0'.le, (div_le_one r0').2 hle, ?_⟩
      have a1 := congrArg Prod.fst e
      have a2 := congrArg Prod.snd e
      have b1 := congrArg Prod.fst e'
      have b2 := congrArg Prod.snd e'
      unfold dir at a1 a2 b1 b2
      simp only [Prod.smul_fst, Prod.smul_snd, smul_eq_mul] at a1 a2 b1 b2
      unfold along
      rw [b1, b2, ← h1]
      ext
      · dsimp only; field_simp; linarith
      · dsimp only; field_simp; linarith
    rcases hk.gap _ hh.ev2 this with e3 | e3
    · exact absurd (h1.trans e3.symm) hh.ne
    · exact Prod.ext h1 e3
  rcases le_total r r' with hle | hle
  · exact key hh hk h1 r0 hle e e'
  · exact (key hk hh h1.symm r0' hle e' e).symm

/-! ### Sorted points along a segment -/

/-- Consecutive pairs. -/
def consec : List Pt → List Seg
  | a :: b :: rest => (a, b) :: consec (b :: rest)
  | _ => []

theorem consec_spec (f : Pt → ℚ) (vs : List Pt) (h : vs.Pairwise fun a b => f a < f b) :
    ∀ e ∈ consec vs, e.1 ∈ vs ∧ e.2 ∈ vs ∧ f e.1 < f e.2 ∧ ∀ x ∈ vs, f x ≤ f e.1 ∨ f e.2 ≤ f x := by
  induction vs with
  | nil => intro e he; cases he
  | cons a vs ih =>
    cases vs with
    | nil => intro e he; cases he
    | cons b rest =>
      intro e he
      rw [List.pairwise_cons] at h
      have hb := List.pairwise_cons.1 h.2
      rw [consec] at he
      rcases List.mem_cons.1 he with rfl | he
      · refine ⟨List.mem_cons_self, by simp, h.1 b List.mem_cons_self, ?_⟩
        intro x hx
        rcases List.mem_cons.1 hx with rfl | hx
        · exact Or.inl le_rfl
        · rcases List.mem_cons.1 hx with rfl | hx
          · exact Or.inr le_rfl
          · exact Or.inr (hb.1 x hx).le
      · obtain ⟨a1, a2, a3, a4⟩ := ih h.2 e he
        refine ⟨List.mem_cons_of_mem _ a1, List.mem_cons_of_mem _ a2, a3, ?_⟩
        intro x hx
        rcases List.mem_cons.1 hx with rfl | hx
        · exact Or.inl (h.1 _ a1).le
        · exact a4 x hx

theorem consec_cover (f : Pt → ℚ) (a : Pt) (vs : List Pt) (q : ℚ) (z : Pt)
    (hz : z ∈ vs) (h0 : f a ≤ q) (h1 : q ≤ f z) : ∃ e ∈ consec (a :: vs), f e.1 ≤ q ∧ q ≤ f e.2 := by
  induction vs generalizing a with
  | nil => cases hz
  | cons b rest ih =>
    by_cases hb : q ≤ f b
    · exact ⟨(a, b), by simp [consec], h0, hb⟩
    · rcases List.mem_cons.1 hz with rfl | hz
      · exact absurd h1 hb
      · obtain ⟨e, he, h⟩ := ih b hz (not_le.1 hb).le
        exact ⟨e, by rw [consec]; exact List.mem_cons_of_mem _ he, h⟩

/-- The points of a segment sorted by distance from its start cut it into pieces. -/
theorem sorted_pieces (s : Seg) (hs : s.1 ≠ s.2) (V : List Pt) (hn : V.Nodup) (hon : ∀ p ∈ V, OnSeg s p)
    (h1 : s.1 ∈ V) (h2 : s.2 ∈ V) :
    2 ≤ (sortFrom s.1 V).length ∧
    (∀ e ∈ consec (sortFrom s.1 V), e.1 ∈ V ∧ e.2 ∈ V ∧ e.1 ≠ e.2 ∧
      ∀ x ∈ V, OnSeg e x → x = e.1 ∨ x = e.2) ∧
    ∀ x, OnSeg s x → ∃ e ∈ consec (sortFrom s.1 V), OnSeg e x := by
  set N : ℚ := dotp (dir s) (dir s) with hN
  have hNpos : 0 < N := by
    rw [hN]; unfold dotp dir
    have : s.2.1 - s.1.1 ≠ 0 ∨ s.2.2 - s.1.2 ≠ 0 := by
      by_contra hc
      push Not at hc
      exact hs (Prod.ext (by linarith [hc.1]) (by linarith [hc.2]))
    rcases this with h | h
    · have := mul_self_pos.2 h; nlinarith [mul_self_nonneg (s.2.2 - s.1.2)]
    · have := mul_self_pos.2 h; nlinarith [mul_self_nonneg (s.2.1 - s.1.1)]
  set f : Pt → ℚ := fun p => dotp (p - s.1) (dir s) / N with hf
  have hfa : ∀ t, f (along s t) = t := by
    intro t
    rw [hf]
    dsimp only
    rw [div_eq_iff hNpos.ne', hN]
    unfold dotp dir along
    simp only [Prod.fst_sub, Prod.snd_sub]
    ring
  have hda : ∀ t, dist2 s.1 (along s t) = t ^ 2 * N := by
    intro t
    rw [hN]
    unfold dist2 dotp dir along
    dsimp only
    ring
  have hback : ∀ p, OnSeg s p → 0 ≤ f p ∧ f p ≤ 1 ∧ p = along s (f p) := by
    rintro p ⟨t, t0, t1, rfl⟩
    rw [hfa]; exact ⟨t0, t1, rfl⟩
  have hperm : (sortFrom s.1 V).Perm V := List.perm_insertionSort _ _
  have hmem : ∀ p, p ∈ sortFrom s.1 V ↔ p ∈ V := fun p => hperm.mem_iff
  have hsorted : (sortFrom s.1 V).Pairwise fun a b => dist2 s.1 a ≤ dist2 s.1 b := by
    have : Std.Total (fun a b : Pt => dist2 s.1 a ≤ dist2 s.1 b) := ⟨fun a b => le_total _ _⟩
    have : IsTrans Pt (fun a b : Pt => dist2 s.1 a ≤ dist2 s.1 b) := ⟨fun a b c => le_trans⟩
    exact List.pairwise_insertionSort _ _
  have hlt : (sortFrom s.1 V).Pairwise fun a b => f a < f b := by
    have hne : (sortFrom s.1 V).Pairwise (· ≠ ·) := hperm.nodup_iff.2 hn
    refine (hsorted.and hne).imp_of_mem ?_
    rintro a b ha hb ⟨hle, hab⟩
    obtain ⟨t, t0, t1, rfl⟩ := hon a ((hmem a).1 ha)
    obtain ⟨u, u0, u1, rfl⟩ := hon b ((hmem b).1 hb)
    rw [hda, hda] at hle
    rw [hfa, hfa]
    have : t ^ 2 ≤ u ^ 2 := le_of_mul_le_mul_right hle hNpos
    have : t ≤ u := by
      by_contra hc
      push Not at hc
      nlinarith
    exact lt_of_le_of_ne this fun hc => hab (by rw [hc])
  have f0 : f s.1 = 0 := by have := hfa 0; rwa [along_zero] at this
  have f1 : f s.2 = 1 := by have := hfa 1; rwa [along_one] at this
  obtain ⟨a, rest, hvs⟩ : ∃ a rest, sortFrom s.1 V = a :: rest := by
    cases hv : sortFrom s.1 V with
    | nil => have := (hmem s.1).2 h1; rw [hv] at this; cases this
    | cons a rest => exact ⟨a, rest, rfl⟩
  have ha : f a = 0 := by
    have haV : a ∈ V := (hmem a).1 (by rw [hvs]; exact List.mem_cons_self)
    have h0 := (hback a (hon a haV)).1
    have := (hmem s.1).2 h1
    rw [hvs] at this
    rcases List.mem_cons.1 this with e | e
    · rw [← e, f0]
    · rw [hvs] at hlt
      have := (List.pairwise_cons.1 hlt).1 _ e
      linarith
  have hz : s.2 ∈ rest := by
    have := (hmem s.2).2 h2
    rw [hvs] at this
    rcases List.mem_cons.1 this with e | e
    · rw [← e] at ha; linarith
    · exact e
  refine ⟨?_, ?_, ?_⟩
  · rw [hvs]
    have := List.length_pos_of_mem hz
    simp only [List.length_cons]
    omega
  · intro e he
    obtain ⟨c1, c2, c3, c4⟩ := consec_spec f _ hlt e he
    refine ⟨(hmem _).1 c1, (hmem _).1 c2, ?_, ?_⟩
    · intro hc; rw [hc] at c3; exact lt_irrefl _ c3
    · intro x hx hxe
      obtain ⟨d1, d2, d3⟩ := hback _ (hon _ ((hmem _).1 c1))
      obtain ⟨g1, g2, g3⟩ := hback _ (hon _ ((hmem _).1 c2))
      obtain ⟨r, r0, r1, hr⟩ := hxe
      have hxe : x = along s (f e.1 + r * (f e.2 - f e.1)) := by
        rw [hr, ← along_along, ← d3, ← g3]
      have hfx : f x = f e.1 + r * (f e.2 - f e.1) := by rw [hxe, hfa]
      obtain ⟨k1, k2, k3⟩ := hback x (hon x hx)
      rcases c4 x ((hmem x).2 hx) with h | h
      · left
        have : f x = f e.1 := by nlinarith [mul_nonneg r0 (sub_pos.2 c3).le]
        rw [k3, this, ← d3]
      · right
        have : f x = f e.2 := by nlinarith [mul_nonneg (sub_nonneg.2 r1) (sub_pos.2 c3).le]
        rw [k3, this, ← g3]
  · intro x hx
    obtain ⟨k1, k2, k3⟩ := hback x hx
    obtain ⟨e, he, l1, l2⟩ := consec_cover f a rest (f x) s.2 hz (by rw [ha]; exact k1) (by rw [f1]; exact k2)
    rw [← hvs] at he
    obtain ⟨c1, c2, c3, _⟩ := consec_spec f _ hlt e he
    refine ⟨e, he, (f x - f e.1) / (f e.2 - f e.1), ?_, ?_, ?_⟩
    · exact div_nonneg (by linarith) (by linarith)
    · rw [div_le_one (by linarith)]; linarith
    · obtain ⟨_, _, d3⟩ := hback _ (hon _ ((hmem _).1 c1))
      obtain ⟨_, _, g3⟩ := hback _ (hon _ ((hmem _).1 c2))
      have : along e ((f x - f e.1) / (f e.2 - f e.1)) =
          along (along s (f e.1), along s (f e.2)) ((f x - f e.1) / (f e.2 - f e.1)) := by rw [← d3, ← g3]
      rw [this, along_along, div_mul_cancel₀ _ (by linarith)]
      rw [k3, hfa]
      congr 1; ring

end Ply.Arr
