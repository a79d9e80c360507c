import Verif.Model.Main
import Verif.Props.BufferDist
import Verif.Props.Collision
import Verif.Props.Facets

/-! # C100: from the facets to the drawing -/

namespace Ply

open Spec MeasureTheory Set Geom1D Arr

theorem sheetName_long (i : ℕ) (c : Char) : sheetName i ≠ [c] := by
  unfold sheetName
  intro h
  have h0 : natText i = [] := (List.cons.inj h).2
  have : (natText i).length = 0 := by rw [h0]; rfl
  unfold natText at this
  have h1 := Nat.length_toDigits_pos (b := 10) (n := i)
  omega

theorem createLoop_names (o : SheetOracle) (order todo : List ℕ) (idx : ℕ) (groups : List Group)
    (h : createLoop o order todo idx = .ok groups) : ∀ g ∈ groups, ∀ id, g.id = some id → ∃ i, id = sheetName i := by
  induction order generalizing todo idx groups with
  | nil =>
    simp only [createLoop, Except.ok.injEq] at h
    subst h
    simp
  | cons facet rest ih =>
    rw [createLoop] at h
    split_ifs at h with hf
    · obtain ⟨t, -, h⟩ := (bind_ok _ _ _).1 h
      obtain ⟨u, -, h⟩ := (bind_ok _ _ _).1 h
      obtain ⟨⟨c, t'⟩, -, h⟩ := (bind_ok _ _ _).1 h
      dsimp only at h
      split_ifs at h with hop
      · obtain ⟨gs, h1, h⟩ := (bind_ok _ _ _).1 h
        cases h
        intro g hg id hid
        rcases List.mem_cons.1 hg with rfl | hg
        · cases hid
        · exact ih _ _ _ h1 g hg id hid
      · obtain ⟨v, -, h⟩ := (bind_ok _ _ _).1 h
        obtain ⟨gs, h1, h⟩ := (bind_ok _ _ _).1 h
        cases h
        intro g hg id hid
        rcases List.mem_cons.1 hg with rfl | hg
        · cases hid; exact ⟨idx, rfl⟩
        · exact ih _ _ _ h1 g hg id hid
    · exact ih _ _ _ h

/-- C100: `--only_sheets` is not usable.  Its text is taken as a set of characters, and no sheet has a name of one character. -/
theorem c100_only (o : SheetOracle) (order : List ℕ) (n : ℕ) (text : List Char) (perm : List Sheet → List Sheet)
    (hperm : ∀ l, (perm l).Perm l) (geo : Sheet → Sheet → Option JointNums) (p : Canned.Params Geom2D)
    (buffer : Geom2D → ℚ → Except PyErr Geom2D) (dil : ℚ) :
    ∃ e, mainFrom o order n (some text) perm geo p buffer dil = .error e := by
  unfold mainFrom
  cases h : createSheets o order n ((some text).map onlySet) with
  | error e => exact ⟨e, rfl⟩
  | ok sheets =>
    have : sheets = [] := by
      unfold createSheets at h
      cases hg : createLoop o order (List.range n) 0 with
      | error e => rw [hg] at h; cases h
      | ok groups =>
        rw [hg] at h
        rw [← Except.ok.inj h, List.filterMap_eq_nil_iff]
        intro g hgm
        cases hid : g.id with
        | none => rfl
        | some id =>
          obtain ⟨i, rfl⟩ := createLoop_names o _ _ _ _ hg g hgm id hid
          show (if sheetName i ∈ onlySet text then _ else none) = none
          rw [if_neg]
          intro hc
          obtain ⟨c, -, hc⟩ := List.mem_map.1 hc
          exact sheetName_long i c hc.symm
    subst this
    refine ⟨.exception, ?_⟩
    have hp : perm [] = [] := (hperm []).eq_nil
    show commandLine p (createSheetplex geo (perm [])) buffer dil = _
    rw [hp]
    rfl

/-- C100: when `main` draws something, then the mesh has sheets, and for every two sheets that cross: each stretch of their joint
that was still open before the fingers were made is chosen on one of the sides, and the solids cut from them share next to no
volume, in all of the joint for what is not a finger of another joint, and where the joint is decided for everything.  The
drawing has the outlines of the cuts, grown so that all points within the kerf are kept. -/
theorem c100_main {ch : Choices} {sq : ℚ → ℚ} (hch : ch.Valid) (hsq : RootLike sq) (hone : sq 1 = 1)
    {A : Type} [LinearOrder A] (area : ℕ → A) (o : SheetOracle) (henum : ∀ l, (o.enum l).Perm l) (n : ℕ) (order : List ℕ)
    (horder : order.Perm (List.range n)) (hsort : order.Pairwise fun a b => area b ≤ area a)
    (only : Option (List Char)) (perm : List Sheet → List Sheet) (hperm : ∀ l, (perm l).Perm l)
    (geo : Sheet → Sheet → Option JointNums) (plates : Name → Plate) (found : List (Name × Collected))
    (hfound : createSheets o order n none = .ok found) (hsound : ∀ s ∈ found, (plates s.1).Sound)
    (hgeo : GeoExact geo plates (perm (found.map fun s => ⟨s.1⟩)))
    (p : Canned.Params Geom2D) (ho : p.o = codeOps ch sq) (hp : p.Valid) (hgm : ValidGeoms Geom2D.Fine p.geoms)
    (hrad : 1 ≤ p.supportRadius) (hn : ∀ k, (p.geoms k).face0.NoIslands ∧ (p.geoms k).face1.NoIslands) (dil : ℚ) (hd : 0 < dil)
    (out : List Writer.Polyline)
    (h : mainFrom o order n only perm geo p (Geom2D.bufferBy (arrangementOp ch) sq) dil = .ok out) :
    only = none ∧ found ≠ [] ∧ ∃ r d,
      Canned.run p (createSheetplex geo (perm (found.map fun s => ⟨s.1⟩))) none none = .ok r ∧ r.ok = true ∧
      Writer.writeDxf d = .ok out ∧ r.sheetCuts.map Prod.fst = d.map Prod.fst ∧
      (∀ k c e, r.sheetCuts.get? k = some c → PMap.get? d k = some e → c.Fine ∧ e.Fine ∧
        (c.NoIslands → ∀ x y, c.Has y → dist2 x y * (1 + (sq 2 - 1) ^ 2) ≤ dil ^ 2 → e.Has x) ∧
        ∀ x, e.Has x → ∃ y, c.Has y ∧ dist2 x y ≤ dil ^ 2 * max 1 (2 / sq 2 ^ 2)) ∧
      ∀ s t, Joint (createSheetplex geo (perm (found.map fun s => ⟨s.1⟩))) s t →
        (∃ sb1, r.history[11]? = some sb1 ∧
          pts sb1.interOk s.id ⊆ pts r.sheetbuild.interChosen s.id ∪ pts r.sheetbuild.interChosen t.id) ∧
        (∃ v : V3, inner v v = 1 ∧ inner (plates s.sheet).plane v = 0 ∧ inner (plates t.sheet).plane v = 0 ∧
          volume ((plates s.sheet).solid (dens Geom2D.region r.sheetCuts s.sheet \ otherFingers r.sheetbuild s) ∩
            (plates t.sheet).solid (dens Geom2D.region r.sheetCuts t.sheet \ otherFingers r.sheetbuild t) ∩
            {x | inner v x ∈ Ico (-1000) 1000}) ≤
          ENNReal.ofReal (tol7 * (s.wide * t.wide) / Real.sqrt (1 - inner (plates s.sheet).plane (plates t.sheet).plane ^ 2))) ∧
        ∃ v : V3, inner v v = 1 ∧ inner (plates s.sheet).plane v = 0 ∧ inner (plates t.sheet).plane v = 0 ∧
          volume ((plates s.sheet).solid (dens Geom2D.region r.sheetCuts s.sheet) ∩
            (plates t.sheet).solid (dens Geom2D.region r.sheetCuts t.sheet) ∩
            {x | inner v x ∈ pts r.sheetbuild.interChosen s.id ∪ pts r.sheetbuild.interChosen t.id}) ≤
          ENNReal.ofReal ((tol3 * (t.wide + s.wide) + 2 * tol7 * (s.wide * t.wide)) /
            Real.sqrt (1 - inner (plates s.sheet).plane (plates t.sheet).plane ^ 2)) := by
  cases only with
  | some text =>
    obtain ⟨e, he⟩ := c100_only o order n text perm hperm geo p (Geom2D.bufferBy (arrangementOp ch) sq) dil
    rw [he] at h; cases h
  | none =>
    refine ⟨rfl, ?_⟩
    unfold mainFrom at h
    obtain ⟨sheets, h1, h⟩ := (bind_ok _ _ _).1 h
    cases hfound.symm.trans h1
    obtain ⟨-, -, s3, -⟩ := c42_sheets area o henum n order horder hsort none found hfound
    set sl := perm (found.map fun s => (⟨s.1⟩ : Sheet)) with hsl
    have hids : (sl.map Sheet.id).Nodup := by
      have : (sl.map Sheet.id).Perm (found.map Prod.fst) := by
        refine ((hperm _).map _).trans ?_
        rw [List.map_map]
        exact List.Perm.refl _
      exact this.nodup_iff.2 s3
    obtain ⟨hsp, hsh, hpl⟩ := create_placed hids hgeo (fun x hx => by
      obtain ⟨y, hy, rfl⟩ := List.mem_map.1 ((hperm _).mem_iff.1 hx)
      exact hsound y hy)
    obtain ⟨m1, r, d, m2, m3, m4, m5⟩ := (Canned.c53_main p _ _ dil out).1 h
    obtain ⟨c1, c2, c3, sb0, sb1, c4, c5, c6, c7⟩ := Canned.c66_run p hp _ hsp none r m2 m3
    obtain ⟨sb0', q1, q2, q3, q4, q5, q6⟩ := run_cuts hch hsq p ho hp hgm _ hsp hsh (hpl.proper hsp hsh) none r m2 m3
    have keys : ∀ (l m : List (Name × Geom2D)),
        List.Forall₂ (fun (c e : Name × Geom2D) => e.1 = c.1 ∧ Geom2D.bufferBy (arrangementOp ch) sq c.2 dil = .ok e.2) l m →
        l.map Prod.fst = m.map Prod.fst ∧ ∀ k c e, PMap.get? l k = some c → PMap.get? m k = some e →
          Geom2D.bufferBy (arrangementOp ch) sq c dil = .ok e := by
      intro l m hlm
      induction hlm with
      | nil => exact ⟨rfl, fun k c e hc => by cases hc⟩
      | @cons a b l m hab hlm ih =>
        refine ⟨by rw [List.map_cons, List.map_cons, ih.1, hab.1], fun k c e hc he => ?_⟩
        obtain ⟨a1, a2⟩ := a
        obtain ⟨b1, b2⟩ := b
        dsimp only at hab
        obtain ⟨rfl, hab⟩ := hab
        unfold PMap.get? at hc he
        split_ifs at hc he
        · cases hc; cases he; exact hab
        · exact ih.2 k c e hc he
    obtain ⟨k1, k2⟩ := keys _ _ m4
    refine ⟨?_, r, d, m2, m3, m5, k1, fun k c e hc he => ?_, fun s t hj => ?_⟩
    · rintro rfl
      apply m1
      rw [(create_paired geo sl hids).1]
      have : sl = [] := (hperm []).eq_nil
      rw [this]; rfl
    · have hb := k2 k c e hc he
      have hf : c.Fine := q6.good.validC k c (by rw [← q4]; exact hc)
      exact ⟨hf, buffer_fine' ch hch hsq hf hb, fun hni x y hy hdist => c71_near ch hch hsq hf hb hone hd hni hy hdist,
        fun x hx => c71_far ch hch hsq hf hb hone hd hx⟩
    · exact ⟨⟨sb1, c5, (c7 s t hj).2.2.2.2.2⟩,
        c90_run hch hsq p ho hp hgm _ hsp hsh plates hpl none r m2 m3 hrad (fun e _ => hn e.2.id) s t hj,
        c90_decided hch hsq p ho hp hgm _ hsp hsh plates hpl none r m2 m3 s t hj⟩

end Ply
