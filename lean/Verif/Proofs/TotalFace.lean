import Verif.Proofs.TotalBuild
import Verif.Proofs.ArrProper

/-!
# Faces and the cells around them
-/

namespace Ply.Nest

open Finset Classical

variable {C : Type*} {S : Finset C} {w : C → C → ℤ} {conn : C → C → Prop} {pos : C → Prop}

/-- Of two cells that wind around a third one, one winds around the other. -/
theorem Nested.comparable (N : Nested S w conn pos) {a b c : C} (ha : a ∈ S) (hb : b ∈ S) (hc : c ∈ S) (hab : a ≠ b)
    (h1 : w a c ≠ 0) (h2 : w b c ≠ 0) : w a b ≠ 0 ∨ w b a ≠ 0 := by
  obtain ⟨x, hx, y, hy, hxy, ⟨f1, f1'⟩, f2⟩ := N.escape a ha b hb c hc (fun x y => x ≠ 0 ∧ y ≠ 0) ⟨h1, h2⟩ (by simp)
  by_cases ca : conn a x
  · have ca' := N.symm a ha x hx ca
    by_cases cb : conn b x
    · by_cases e1 : a = x
      · right; rw [e1]; exact f1'
      by_cases e2 : b = x
      · left; rw [e2]; exact f1
      exfalso
      have ea := N.same a ha x hx ca e1
      have eb := N.same b hb x hx cb e2
      have na : ¬ pos a := by
        intro hp
        rw [N.own a ha, if_pos hp] at ea
        exact f1 (by rw [ea]; norm_num)
      have nb : ¬ pos b := by
        intro hp
        rw [N.own b hb, if_pos hp] at eb
        exact f1' (by rw [eb]; norm_num)
      obtain ⟨n, hn, n1, n2, n3⟩ := N.negative hx
      exact hab ((n3 a ha ca' na).trans (n3 b hb (N.symm b hb x hx cb) nb).symm)
    · right
      rw [← N.other b hb x hx a ha cb ca']
      exact f1'
  · by_cases cb : conn b x
    · left
      rw [← N.other a ha x hx b hb ca (N.symm b hb x hx cb)]
      exact f1
    · exfalso
      apply f2
      rw [← N.other a ha x hx y hy ca hxy, ← N.other b hb x hx y hy cb hxy]
      exact ⟨f1, f1'⟩

/-- Winding around is transitive. -/
theorem Nested.around_trans (N : Nested S w conn pos) {a b c : C} (ha : a ∈ S) (hb : b ∈ S) (hc : c ∈ S) (hab : a ≠ b)
    (h1 : w a b ≠ 0) (h2 : w b c ≠ 0) : w a c ≠ 0 := by
  intro h0
  obtain ⟨x, hx, y, hy, hxy, ⟨f1, f1'⟩, f2⟩ := N.escape b hb a ha c hc (fun x y => x ≠ 0 ∧ y = 0) ⟨h2, h0⟩ (by simp)
  by_cases cb : conn b x
  · have cb' := N.symm b hb x hx cb
    by_cases ca : conn a x
    · by_cases e : b = x
      · exact h1 (by rw [e]; exact f1')
      have hcab := N.trans a ha x hx b hb ca cb'
      have e1 := N.same a ha b hb hcab hab
      have e2 := N.same b hb x hx cb e
      have na : ¬ pos a := by
        intro hp
        rw [N.own a ha, if_pos hp] at e1
        exact h1 (by rw [e1]; norm_num)
      have nb : ¬ pos b := by
        intro hp
        rw [N.own b hb, if_pos hp] at e2
        exact f1 (by rw [e2]; norm_num)
      obtain ⟨n, hn, n1, n2, n3⟩ := N.negative ha
      exact hab ((n3 a ha (N.refl a ha) na).trans (n3 b hb hcab nb).symm)
    · exact h1 ((N.other a ha x hx b hb ca cb').symm.trans f1')
  · by_cases ca : conn a x
    · have := N.other b hb x hx a ha cb (N.symm a ha x hx ca)
      rw [this] at f1
      have d1 := N.degree_lt hb ha (Ne.symm hab) f1
      have d2 := N.degree_lt ha hb hab h1
      omega
    · apply f2
      rw [← N.other b hb x hx y hy cb hxy, ← N.other a ha x hx y hy ca hxy]
      exact ⟨f1, f1'⟩

/-- The one with the degree just below is around by all the others. -/
theorem Nested.innermost (N : Nested S w conn pos) {a c d : C} (ha : a ∈ S) (hd : d ∈ S) (hc : c ∈ S) (hac : a ≠ c)
    (had : a ≠ d) (h1 : w a c ≠ 0) (h2 : w d c ≠ 0) (hdeg : degree S w pos d + 1 = degree S w pos c) : w a d ≠ 0 := by
  rcases N.comparable ha hd hc had h1 h2 with h | h
  · exact h
  · have d1 := N.degree_lt hd ha (Ne.symm had) h
    have d2 := N.degree_lt ha hc hac h1
    omega

/-- The one with the degree just below a positive one is the negative one of its part. -/
theorem Nested.container_pos (N : Nested S w conn pos) {c d n : C} (hd : d ∈ S) (hc : c ∈ S) (hn : n ∈ S) (hp : pos c)
    (hnp : ¬ pos n) (hcn : conn c n) (hw : w d c ≠ 0) (hdeg : degree S w pos d + 1 = degree S w pos c) :
    d = n := by
  by_contra hne
  have hnc : n ≠ c := fun h => hnp (h ▸ hp)
  have h1 : w n c ≠ 0 := by
    rw [N.same n hn c hc (N.symm c hc n hn hcn) hnc, N.own n hn, if_neg hnp]; norm_num
  have h2 := N.innermost hn hd hc hnc (Ne.symm hne) h1 hw hdeg
  have d1 := N.degree_lt hn hd (Ne.symm hne) h2
  have : degree S w pos n + 1 = degree S w pos c := by
    unfold degree
    rw [N.card_above hn, N.card_above hc, if_neg hnp, if_pos hp, N.enc_conn hc hn hcn]
  omega

end Ply.Nest

namespace Ply.Arr

open CellMerger Nest

open Classical in
/-- The cells of some bounded faces, together, wind around the points of these faces only. -/
theorem faces_once {A : Arrangement} (hB : BuildOK A) (S : Pt → Prop)
    (hface : ∀ p q, ¬ OnAny A.net.halfEdges p → ¬ OnAny A.net.halfEdges q → SameFace A.net.halfEdges p q → (S p ↔ S q))
    (M0 : ℚ) (hfar : ∀ q : Pt, M0 < q.1 → ¬ S q) {p : Pt} (hp : ¬ OnAny A.net.halfEdges p) :
    -((A.cells.filter fun c => decide (S c.point)).map fun c => windingNumber c.vertices p).sum = if S p then 1 else 0 := by
  set H := A.net.halfEdges with hH
  set cells := (A.cells.filter fun c => decide (S c.point)).map Cell1.vertices with hsel
  have hmap : ((A.cells.filter fun c => decide (S c.point)).map fun c => windingNumber c.vertices p) =
      cells.map fun c => windingNumber c p := by
    rw [hsel, List.map_map]; rfl
  rw [hmap]
  have hsub : cells.Sublist (A.cells.map Cell1.vertices) := List.filter_sublist.map _
  have hnd : (allEdges cells).Nodup := (allEdges_sublist hsub).nodup hB.nodup
  have hedge : ∀ c ∈ cells, ∀ e ∈ polyEdges c, e ∈ H := fun c hc e he =>
    hB.sub e (List.mem_flatMap.2 ⟨c, hsub.subset hc, he⟩)
  have hwithin : ∀ c ∈ cells, Within H c := fun c hc e he x hx => ⟨e, hedge c hc e he, hx⟩
  have hmem : ∀ h ∈ H, ∀ r, Sees H h r → (h ∈ allEdges cells ↔ S r) := by
    intro h hh r hr
    constructor
    · intro hm
      obtain ⟨v, hv, he⟩ := List.mem_flatMap.1 hm
      rw [hsel] at hv
      obtain ⟨c, hc, rfl⟩ := List.mem_map.1 hv
      obtain ⟨hc1, hc2⟩ := List.mem_filter.1 hc
      obtain ⟨y, hy, hyc⟩ := hB.sees c hc1 h he
      rw [hface r c.point hr.off (hB.off c hc1) ((sees_same hB.planar hh hr hy).trans hyc)]
      simpa using hc2
    · intro hs
      obtain ⟨c, hc, he⟩ := hB.every h hh
      obtain ⟨y, hy, hyc⟩ := hB.sees c hc h he
      rw [hface r c.point hr.off (hB.off c hc) ((sees_same hB.planar hh hr hy).trans hyc)] at hs
      refine List.mem_flatMap.2 ⟨c.vertices, ?_, he⟩
      rw [hsel]
      exact List.mem_map_of_mem (List.mem_filter.2 ⟨hc, by simpa using hs⟩)
  obtain ⟨M, -, hM2⟩ := far_bound [] cells
  have key := far_const hB.planar
    (fun p => -(cells.map fun c => windingNumber c p).sum - if S p then (1 : ℤ) else 0) ?_ ?_ (b := 0) (max M M0) ?_ hp
  · rw [sub_eq_zero] at key
    exact key
  · intro p q h
    have hsf := same_of_segment h
    have e1 : (cells.map fun c => windingNumber c p) = cells.map fun c => windingNumber c q :=
      List.map_congr_left fun c hc => hsf c (hwithin c hc)
    have e2 := hface p q (h p (onSeg_left (p, q))) (h q (onSeg_right (p, q))) hsf
    rw [e1]
    simp only [e2]
  · intro h hh l r hlr
    have hr := hmem h hh r hlr.sees
    have hl := hmem (h.2, h.1) (hB.planar.rev h hh) l hlr.rev.sees
    have hsum : (cells.map fun c => windingNumber c l).sum - (cells.map fun c => windingNumber c r).sum =
        ((allEdges cells).count h : ℤ) - (allEdges cells).count (h.2, h.1) := by
      rw [allEdges_count, allEdges_count]
      obtain ⟨⟨t, s, t0, t1, s0, s1, e⟩, a, b, o⟩ := hlr
      have : ∀ c ∈ cells, windingNumber c l - windingNumber c r =
          ((polyEdges c).count h : ℤ) - (polyEdges c).count (h.2, h.1) := by
        intro c hc
        exact winding_jump c l r h t0 t1 e a b fun k hk => o k (hedge c hc k hk)
      clear_value cells
      clear hsel hsub hnd hedge hwithin hmem hr hl hM2 hmap
      induction cells with
      | nil => simp
      | cons c cells ih =>
        have i1 := ih fun c hc => this c (List.mem_cons_of_mem _ hc)
        have i2 := this c List.mem_cons_self
        simp only [List.map_cons, List.sum_cons]
        linarith
    have c1 : ((allEdges cells).count h : ℤ) = if S r then 1 else 0 := by
      rw [hnd.count]
      simp only [hr]
      split_ifs <;> rfl
    have c2 : ((allEdges cells).count (h.2, h.1) : ℤ) = if S l then 1 else 0 := by
      rw [hnd.count]
      simp only [hl]
      split_ifs <;> rfl
    rw [c1, c2] at hsum
    linarith
  · intro q hq
    have e1 : (cells.map fun c => windingNumber c q).sum = 0 := by
      rw [List.map_congr_left fun c hc => winding_far c q fun v hv => (hM2 c hc v hv).trans ((le_max_left _ _).trans_lt hq)]
      simp
    have e2 := hfar q ((le_max_right _ _).trans_lt hq)
    rw [e1, if_neg e2]
    simp

/-! ### Cells by their points -/

theorem dget_pair {κ α : Type} [DecidableEq κ] {k : κ} {d : List (κ × α)} {v : α} (h : dget k d = .ok v) : (k, v) ∈ d := by
  induction d with
  | nil => cases h
  | cons a d ih =>
    obtain ⟨k', v'⟩ := a
    rw [dget] at h
    split_ifs at h with hk
    · cases h; rw [hk]; exact List.mem_cons_self
    · exact List.mem_cons_of_mem _ (ih h)

section

variable {A : Arrangement} (hF : Full A)

include hF

theorem cell_ok {c : Cell1} (hc : c ∈ A.cells) : CellOK A.net c.vertices := hF.tiling.ok _ (List.mem_map_of_mem hc)

theorem cellW_pt {a c : Cell1} (ha : a ∈ A.cells) (hc : c ∈ A.cells) :
    cellW A.net a.vertices c.vertices = windingNumber a.vertices c.point := by
  obtain ⟨e, he, hs⟩ := hF.sees c hc
  exact cellW_point hF.wheel (cell_ok hF ha) (cell_ok hF hc) he hs

theorem cell_eq {a c : Cell1} (ha : a ∈ A.cells) (hc : c ∈ A.cells) (h : a.vertices = c.vertices) : a = c :=
  List.inj_on_of_nodup_map hF.nodup ha hc h

variable (hB : BuildOK A)

include hB

/-- A bounded face has a positive cell. -/
theorem bounded_pos {c : Cell1} (hc : c ∈ A.cells) (M : ℚ) (hM : ∀ q : Pt, M < q.1 → ¬ SameFace A.net.halfEdges c.point q) :
    ∃ d ∈ A.cells, SameFace A.net.halfEdges c.point d.point ∧ windingNumber d.vertices c.point ≠ 0 ∧ cellPos d.vertices := by
  classical
  have h := faces_once hB (SameFace A.net.halfEdges c.point) (fun p q _ _ h => ⟨fun h1 => h1.trans h, fun h1 => h1.trans h.symm⟩)
    M hM (hB.off c hc)
  rw [if_pos (show SameFace A.net.halfEdges c.point c.point from fun _ _ => rfl)] at h
  by_contra hcon
  push Not at hcon
  have : ∀ x ∈ (A.cells.filter fun d => decide (SameFace A.net.halfEdges c.point d.point)).map
      fun d => windingNumber d.vertices c.point, x = 0 := by
    intro x hx
    obtain ⟨d, hd, rfl⟩ := List.mem_map.1 hx
    obtain ⟨d1, d2⟩ := List.mem_filter.1 hd
    by_contra hne
    have hp := hcon d d1 (by simpa using d2) hne
    have hN := nested hF.wheel hF.tiling
    have hm := List.mem_toFinset.2 (List.mem_map_of_mem (f := Cell1.vertices) d1)
    have e := hN.own d.vertices hm
    rw [if_neg hp, cellW_pt hF d1 d1] at e
    have hs : SameFace A.net.halfEdges c.point d.point := by simpa using d2
    rw [hs.winding (cell_ok hF d1).sub] at hne
    exact hne e
  rw [List.sum_eq_zero this] at h
  omega

omit hB in
theorem container_ok {c : Cell1} (hc : c ∈ A.cells) :
    ∃ o, dget c.vertices A.containers = .ok o ∧ ContOK A.net (A.cells.map Cell1.vertices) (c.vertices, o) := by
  obtain ⟨o, ho⟩ := dget_ok (k := c.vertices) (d := A.containers) (by rw [hF.keys]; exact List.mem_map_of_mem hc)
  exact ⟨o, ho, hF.conts _ (dget_pair ho)⟩

/-- The container of a negative cell has the same face. -/
theorem container_neg {c d : Cell1} (hc : c ∈ A.cells) (hn : ¬ cellPos c.vertices) (hd : d ∈ A.cells)
    (ho : dget c.vertices A.containers = .ok (some d.vertices)) :
    SameFace A.net.halfEdges c.point d.point ∧ cellPos d.vertices := by
  have hN := nested hF.wheel hF.tiling
  obtain ⟨_, hne, hw, hdeg, hsg⟩ := (hF.conts _ (dget_pair ho)).2 _ rfl
  dsimp only at hne hw hdeg hsg
  have hpd := hsg.2 hn
  have hcm := List.mem_toFinset.2 (List.mem_map_of_mem (f := Cell1.vertices) hc)
  have hdm := List.mem_toFinset.2 (List.mem_map_of_mem (f := Cell1.vertices) hd)
  refine ⟨?_, hpd⟩
  obtain ⟨M, -, hM⟩ := far_bound [] [d.vertices]
  obtain ⟨b, hb, b1, b2, b3⟩ := bounded_pos hF hB hc M (by
    intro q hq hs
    rw [cellW_pt hF hd hc, hs.winding (cell_ok hF hd).sub] at hw
    exact hw (winding_far _ _ fun v hv => (hM _ (by simp) v hv).trans hq))
  have hbm := List.mem_toFinset.2 (List.mem_map_of_mem (f := Cell1.vertices) hb)
  have hbc : b.vertices ≠ c.vertices := fun h => hn (h ▸ b3)
  by_cases hbd : b.vertices = d.vertices
  · rw [cell_eq hF hb hd hbd] at b1
    exact b1
  · exfalso
    rw [← cellW_pt hF hb hc] at b2
    have h1 := hN.innermost hbm hdm hcm hbc hbd b2 hw hdeg
    have h2 : cellW A.net d.vertices b.vertices ≠ 0 := by
      rw [cellW_pt hF hd hb, ← b1.winding (cell_ok hF hd).sub, ← cellW_pt hF hd hc]
      exact hw
    have d1 := hN.degree_lt hbm hdm hbd h1
    have d2 := hN.degree_lt hdm hbm (Ne.symm hbd) h2
    omega

/-- The face of a cell without a container is not bounded, and the cell is negative. -/
theorem container_none {c : Cell1} (hc : c ∈ A.cells) (ho : dget c.vertices A.containers = .ok none) :
    ¬ cellPos c.vertices ∧ ∀ M : ℚ, ∃ q : Pt, M < q.1 ∧ SameFace A.net.halfEdges c.point q := by
  have hN := nested hF.wheel hF.tiling
  have h := (hF.conts _ (dget_pair ho)).1 rfl
  dsimp only at h
  have hcm := List.mem_toFinset.2 (List.mem_map_of_mem (f := Cell1.vertices) hc)
  have hn : ¬ cellPos c.vertices := by
    intro hp
    obtain ⟨n, hn, n1, n2, _⟩ := hN.negative hcm
    have hne : n ≠ c.vertices := fun h => n2 (h ▸ hp)
    have := h n (List.mem_toFinset.1 hn) hne
    rw [hN.same n hn _ hcm (hN.symm _ hcm n hn n1) hne, hN.own n hn, if_neg n2] at this
    norm_num at this
  refine ⟨hn, fun M => ?_⟩
  by_contra hcon
  push Not at hcon
  obtain ⟨d, hd, d1, d2, d3⟩ := bounded_pos hF hB hc M hcon
  apply d2
  rw [← cellW_pt hF hd hc]
  exact h _ (List.mem_map_of_mem hd) fun h => hn (h ▸ d3)

end

end Ply.Arr
