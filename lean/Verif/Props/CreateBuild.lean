import Verif.Props.SheetBuildAccept

/-! # C46: fresh sheet builds -/

namespace Ply

open MeasureTheory Geom1D

variable {G : Type}

/-- The results of the buffer can be given to the 2D operations again. -/
def BufferValid (o : G2Ops G) (Valid : G → Prop) : Prop := ∀ a r b, Valid a → o.buffer a r = .ok b → Valid b

/-- Laws of the buffer: larger sets and larger radii give larger results. -/
structure LawfulBuffer {X : Type} (o : G2Ops G) (l : Filter X) (Valid : G → Prop) (den : G → Set X) : Prop where
  valid : ∀ a r b, Valid a → o.buffer a r = .ok b → Valid b
  mono : ∀ a b r r' a' b', Valid a → Valid b → 0 ≤ r → r ≤ r' → o.buffer a r = .ok a' → o.buffer b r' = .ok b' →
    (∀ᶠ x in l, x ∈ den a → x ∈ den b) → ∀ᶠ x in l, x ∈ den a' → x ∈ den b'

/-- Every joint side is on a sheet of the sheetplex, and sheets have distinct names. -/
structure SheetPlex.Sheeted (sp : SheetPlex) : Prop where
  nodup : (sp.sheets.map fun e => e.2.id).Nodup
  known : ∀ id s, sp.interside id = .ok s → ∃ e ∈ sp.sheets, e.2.id = s.sheet

theorem dictOf_spec {κ α β : Type} [DecidableEq κ] (key : α → κ) (f : α → Except PyErr β) (l : List α)
    (r : PMap κ β) (hn : (l.map key).Nodup) (h : dictOf key f l = .ok r) :
    (∀ x ∈ l, ∃ v, f x = .ok v ∧ r.get? (key x) = some v) ∧
    (∀ k v, r.get? k = some v → ∃ x ∈ l, key x = k ∧ f x = .ok v) ∧ r.map Prod.fst = l.map key := by
  induction l generalizing r with
  | nil =>
    cases h
    exact ⟨by simp, by simp [PMap.get?], rfl⟩
  | cons a l ih =>
    rw [dictOf, bind_ok] at h
    obtain ⟨v, h1, h⟩ := h
    rw [bind_ok] at h
    obtain ⟨tail, h2, h⟩ := h
    cases h
    rw [List.map_cons, List.nodup_cons] at hn
    obtain ⟨i1, i2, i3⟩ := ih tail hn.2 h2
    refine ⟨?_, ?_, by rw [List.map_cons, List.map_cons, i3]⟩
    · intro x hx
      rcases List.mem_cons.1 hx with rfl | hx
      · exact ⟨v, h1, by simp [PMap.get?]⟩
      · obtain ⟨w, w1, w2⟩ := i1 x hx
        refine ⟨w, w1, ?_⟩
        have : key x ≠ key a := fun h => hn.1 (h ▸ List.mem_map_of_mem hx)
        simp [PMap.get?, this.symm, w2]
    · intro k w hw
      by_cases hk : key a = k
      · subst hk
        simp [PMap.get?] at hw
        exact ⟨a, by simp, rfl, by rw [h1, hw]⟩
      · simp [PMap.get?, hk] at hw
        obtain ⟨x, hx, h3, h4⟩ := i2 k w hw
        exact ⟨x, by simp [hx], h3, h4⟩

theorem restrictInter_spec (sp : SheetPlex) (hsp : sp.Paired) (l : List InterSide)
    (hl : ∀ s ∈ l, sp.interside s.id = .ok s) (m r : PMap (Name × Name) Geom1D) (hm : MadeMap m)
    (h : restrictInter sp m l = .ok r) :
    MadeMap r ∧ (∀ k, (∃ g, m.get? k = some g) → ∃ g, r.get? k = some g) ∧
    ∀ s t, Joint sp s t → (s.id ∈ l.map InterSide.id → pts r s.id = pts m s.id ∩ pts m t.id) ∧
      (s.id ∉ l.map InterSide.id → pts r s.id = pts m s.id) := by
  induction l generalizing m with
  | nil =>
    cases h
    exact ⟨hm, fun k hk => hk, fun s t _ => ⟨by simp, fun _ => rfl⟩⟩
  | cons s l ih =>
    rw [restrictInter, bind_ok] at h
    obtain ⟨a, h1, h⟩ := h
    rw [bind_ok] at h
    obtain ⟨t, h2, h⟩ := h
    rw [bind_ok] at h
    obtain ⟨b, h3, h⟩ := h
    rw [bind_ok] at h
    obtain ⟨c, h4, h⟩ := h
    rw [PMap.get_ok] at h1 h3
    obtain ⟨w, w1, w2, w3⟩ := and_denotes (hm _ _ h1).nf (hm _ _ h3).nf
    rw [w1] at h4
    cases h4
    have hm' : MadeMap (m.set s.id c) := by
      intro k g hg
      rw [PMap.get?_set] at hg
      split_ifs at hg
      · cases hg
        exact (made_iff_nf _).2 w2
      · exact hm k g hg
    have hj : Joint sp s t := ⟨hl s (by simp), h2⟩
    obtain ⟨hj', hne, _⟩ := hj.symm hsp
    have hp : ∀ k, pts (m.set s.id c) k = if k = s.id then pts m s.id ∩ pts m t.id else pts m k := by
      intro k
      unfold pts
      rw [PMap.get?_set]
      split_ifs
      · rw [h1, h3]
        exact w3
      · rfl
    obtain ⟨i1, i2, i3⟩ := ih (fun s' h' => hl s' (by simp [h'])) _ hm' h
    refine ⟨i1, ?_, ?_⟩
    · intro k hk
      apply i2
      rw [PMap.get?_set]
      split_ifs
      · exact ⟨_, rfl⟩
      · exact hk
    · intro x y hxy
      obtain ⟨j1, j2⟩ := i3 x y hxy
      obtain ⟨hyx, hyne, _⟩ := hxy.symm hsp
      rw [hp, hp] at j1
      rw [hp] at j2
      rw [List.map_cons, List.mem_cons, not_or]
      by_cases hxs : x.id = s.id
      · obtain ⟨rfl, rfl⟩ := hxy.unique hj hxs
        rw [if_pos rfl, if_neg hyne] at j1
        rw [if_pos rfl] at j2
        refine ⟨fun _ => ?_, fun h => absurd rfl h.1⟩
        by_cases hin : x.id ∈ l.map InterSide.id
        · rw [j1 hin, Set.inter_assoc, Set.inter_self]
        · exact j2 hin
      · rw [if_neg hxs] at j1 j2
        refine ⟨fun h => ?_, fun h => j2 h.2⟩
        have hin := h.resolve_left hxs
        rw [j1 hin]
        split_ifs with hys
        · obtain ⟨rfl, rfl⟩ := hyx.unique hj hys
          rw [Set.inter_comm (pts m y.id), ← Set.inter_assoc, Set.inter_self]
        · rfl

theorem restrictInter_keys (sp : SheetPlex) (l : List InterSide) (m r : PMap (Name × Name) Geom1D)
    (h : restrictInter sp m l = .ok r) : r.map Prod.fst = m.map Prod.fst := by
  induction l generalizing m with
  | nil => cases h; rfl
  | cons s l ih =>
    rw [restrictInter, bind_ok] at h
    obtain ⟨a, h1, h⟩ := h
    rw [bind_ok] at h
    obtain ⟨t, h2, h⟩ := h
    rw [bind_ok] at h
    obtain ⟨b, h3, h⟩ := h
    rw [bind_ok] at h
    obtain ⟨c, h4, h⟩ := h
    rw [ih _ h]
    exact PMap.set_keys _ _ _ (List.mem_map.2 ⟨_, PMap.mem_of_get _ _ _ h1, rfl⟩)

theorem removeFingers_spec {X : Type} {o : G2Ops G} {l : Filter X} {Valid : G → Prop} {den : G → Set X}
    (L : Lawful o l Valid den) (sp : SheetPlex) (es : PMap (Name × Name) Geom1D) (hes : ∀ e ∈ es, Made e.2)
    (m r : PMap Name G) (hm : ValidMap Valid m) (h : removeFingers o sp m es = .ok r) :
    ValidMap Valid r ∧ (∀ k, (∃ g, m.get? k = some g) → ∃ g, r.get? k = some g) ∧
    (∀ e ∈ es, ∃ s f, sp.interside e.1 = .ok s ∧ o.fingers s e.2 = .ok f) ∧
    ∀ k, ∀ᶠ x in l, x ∈ dens den r k ↔ x ∈ dens den m k ∧
      ∀ e ∈ es, ∀ s f, sp.interside e.1 = .ok s → s.sheet = k → o.fingers s e.2 = .ok f → x ∉ den f := by
  induction es generalizing m with
  | nil =>
    cases h
    exact ⟨hm, fun k hk => hk, by simp, fun k => Filter.Eventually.of_forall fun x => by simp⟩
  | cons e es ih =>
    obtain ⟨id, v⟩ := e
    rw [removeFingers, bind_ok] at h
    obtain ⟨s, h1, h⟩ := h
    rw [bind_ok] at h
    obtain ⟨c, h2, h⟩ := h
    rw [bind_ok] at h
    obtain ⟨f, h3, h⟩ := h
    rw [bind_ok] at h
    obtain ⟨d, h4, h⟩ := h
    rw [PMap.get_ok] at h2
    have vf := L.fingers s v f (hes (id, v) (by simp)) h3
    obtain ⟨vd, dd⟩ := L.sub c f d (hm _ _ h2) vf h4
    have hm' : ValidMap Valid (m.set s.sheet d) := by
      intro k g hg
      rw [PMap.get?_set] at hg
      split_ifs at hg
      · cases hg
        exact vd
      · exact hm k g hg
    obtain ⟨i1, i2, i3, i4⟩ := ih (fun e he => hes e (by simp [he])) _ hm' h
    refine ⟨i1, ?_, ?_, ?_⟩
    · intro k hk
      apply i2
      rw [PMap.get?_set]
      split_ifs
      · exact ⟨_, rfl⟩
      · exact hk
    · intro e he
      rcases List.mem_cons.1 he with rfl | he
      · exact ⟨s, f, h1, h3⟩
      · exact i3 e he
    · intro k
      filter_upwards [i4 k, dd] with x hx hd
      rw [hx]
      have hk : x ∈ dens den (m.set s.sheet d) k ↔ x ∈ dens den m k ∧ (s.sheet = k → x ∉ den f) := by
        unfold dens
        rw [PMap.get?_set]
        by_cases hks : k = s.sheet
        · subst hks
          rw [if_pos rfl, h2]
          dsimp only
          rw [hd]
          simp
        · rw [if_neg hks]
          simp [Ne.symm hks]
      rw [hk]
      constructor
      · rintro ⟨⟨a1, a2⟩, a3⟩
        refine ⟨a1, ?_⟩
        intro e he s' f' b1 b2 b3
        rcases List.mem_cons.1 he with rfl | he
        · dsimp only at b1 b3
          rw [h1] at b1
          cases b1
          rw [h3] at b3
          cases b3
          exact a2 b2
        · exact a3 e he s' f' b1 b2 b3
      · rintro ⟨a1, a2⟩
        exact ⟨⟨a1, fun hk => a2 (id, v) (by simp) s f h1 hk h3⟩, fun e he => a2 e (by simp [he])⟩

/-- Geometry of the sheets made by the 2D operations. -/
def ValidGeoms (Valid : G → Prop) (geoms : Name → SheetGeoms G) : Prop :=
  ∀ n, Valid (geoms n).face0 ∧ Valid (geoms n).face1 ∧ Valid (geoms n).slicesMax

/-- C46: a fresh build has nothing chosen on any joint, allows the same stretches on both sides of every
joint, and keeps the chosen sheet areas off the fingers of all allowed stretches. -/
theorem c46_fresh {X : Type} {o : G2Ops G} {l : Filter X} {Valid : G → Prop} {den : G → Set X}
    (L : Lawful o l Valid den) (B : BufferValid o Valid) (sp : SheetPlex) (hsp : sp.Paired)
    (hsh : sp.Sheeted) (geoms : Name → SheetGeoms G) (hg : ValidGeoms Valid geoms) (rad : ℚ) (sb : SheetBuild G)
    (h : createSheetbuild o sp geoms rad = .ok sb) :
    sb.sheetplex = sp ∧ Fresh1 sb ∧ Good Valid sb ∧ Full sb ∧
    (∀ s t, Joint sp s t → sb.interOk.get? s.id = sb.interOk.get? t.id) ∧
    (∀ s t v f, Joint sp s t → sb.interOk.get? s.id = some v → o.fingers s v = .ok f →
      ∀ᶠ x in l, ¬ (x ∈ dens den sb.sheetChosen s.sheet ∧ x ∈ den f)) ∧
    (∀ s t, Joint sp s t → ∃ v f, sb.interOk.get? s.id = some v ∧ o.fingers s v = .ok f) ∧
    (∀ e ∈ sp.sheets, ∃ c k, freshChosen o (geoms e.2.id) = .ok c ∧ freshOk o rad (geoms e.2.id) = .ok k ∧
      sb.sheetOk.get? e.2.id = some k ∧ (∃ c', sb.sheetChosen.get? e.2.id = some c') ∧
      ∀ᶠ x in l, x ∈ dens den sb.sheetChosen e.2.id ↔ x ∈ den c ∧
        ∀ s t v f, Joint sp s t → s.sheet = e.2.id → sb.interOk.get? s.id = some v → o.fingers s v = .ok f → x ∉ den f) := by
  unfold createSheetbuild at h
  rw [bind_ok] at h; obtain ⟨ch0, a1, h⟩ := h
  rw [bind_ok] at h; obtain ⟨sok, a2, h⟩ := h
  rw [bind_ok] at h; obtain ⟨ich, a3, h⟩ := h
  rw [bind_ok] at h; obtain ⟨iok0, a4, h⟩ := h
  rw [bind_ok] at h; obtain ⟨iok, a5, h⟩ := h
  rw [bind_ok] at h; obtain ⟨ch, a6, h⟩ := h
  cases h
  obtain ⟨_, hall, _, hnd⟩ := paired_intersides sp hsp _ (List.Perm.refl _) []
  have d1 := dictOf_spec _ _ _ _ hsh.nodup a1
  have d2 := dictOf_spec _ _ _ _ hsh.nodup a2
  have d3 := dictOf_spec _ _ _ _ hnd a3
  have d4 := dictOf_spec _ _ _ _ hnd a4
  have v1 : ValidMap Valid ch0 := by
    intro k g hk
    obtain ⟨e, _, _, he⟩ := d1.2.1 k g hk
    unfold freshChosen at he
    rw [bind_ok] at he; obtain ⟨b0, b1, he⟩ := he
    rw [bind_ok] at he; obtain ⟨b2, b3, he⟩ := he
    rw [bind_ok] at he; obtain ⟨b4, b5, he⟩ := he
    obtain ⟨g0, g1, g2⟩ := hg e.2.id
    exact (L.and _ _ _ (B _ _ _ (L.and _ _ _ g0 g1 b1).1 b3) (B _ _ _ g2 b5) he).1
  have v2 : ValidMap Valid sok := by
    intro k g hk
    obtain ⟨e, _, _, he⟩ := d2.2.1 k g hk
    unfold freshOk at he
    rw [bind_ok] at he; obtain ⟨b0, b1, he⟩ := he
    rw [bind_ok] at he; obtain ⟨b2, b3, he⟩ := he
    rw [bind_ok] at he; obtain ⟨b4, b5, he⟩ := he
    rw [bind_ok] at he; obtain ⟨b6, b7, he⟩ := he
    obtain ⟨g0, g1, g2⟩ := hg e.2.id
    exact (L.and _ _ _ (L.and _ _ _ (B _ _ _ g0 b1) (B _ _ _ g1 b3) b5).1 (B _ _ _ g2 b7) he).1
  have made0 : MadeMap iok0 := by
    intro k g hk
    obtain ⟨s, _, _, he⟩ := d4.2.1 k g hk
    unfold freshInterOk at he
    rw [bind_ok] at he; obtain ⟨b0, b1, he⟩ := he
    rw [bind_ok] at he; obtain ⟨b2, b3, he⟩ := he
    rw [bind_ok] at he; obtain ⟨b4, b5, he⟩ := he
    rw [bind_ok] at he; obtain ⟨b6, b7, he⟩ := he
    rw [bind_ok] at he; obtain ⟨b8, b9, he⟩ := he
    rw [PMap.get_ok] at b1
    have w1 := (L.and _ _ _ (v2 _ _ b1) (hg s.sheet).2.2 b3).1
    have w2 := L.fingers _ _ _ ⟨_, b5⟩ b7
    exact L.project _ _ _ (L.and _ _ _ w1 w2 b9).1 he
  obtain ⟨m1, m2, m3⟩ := restrictInter_spec sp hsp _ (fun s hs => (hall s).1 hs) iok0 iok made0 a5
  have hids : ∀ s, sp.interside s.id = .ok s → s.id ∈ (intersides (sp.intersections.map Prod.snd) none).map InterSide.id :=
    fun s hs => List.mem_map_of_mem ((hall s).2 hs)
  have hkeys := restrictInter_keys sp _ _ _ a5
  have hnk : (iok.map Prod.fst).Nodup := by rw [hkeys, d4.2.2]; exact hnd
  have madeE : ∀ e ∈ iok, Made e.2 := fun e he => m1 e.1 e.2 (PMap.get?_of_mem _ hnk e he)
  obtain ⟨r1, r2, r3, r4⟩ := removeFingers_spec L sp iok madeE ch0 ch v1 a6
  have hid : ∀ id s, sp.interside id = .ok s → s.id = id := fun id s hs => (interside_spec sp hsp id s hs).1
  have hentry : ∀ id s, sp.interside id = .ok s → ∃ g, iok.get? id = some g := by
    intro id s hs
    have e := hid id s hs
    subst e
    obtain ⟨v, _, hv⟩ := d4.1 s ((hall s).2 hs)
    exact m2 _ ⟨v, hv⟩
  have heq : ∀ s t, Joint sp s t → iok.get? s.id = iok.get? t.id := by
    intro s t hj
    obtain ⟨hj', _, _⟩ := hj.symm hsp
    obtain ⟨g, hg1⟩ := hentry s.id s hj.1
    obtain ⟨g', hg2⟩ := hentry t.id t hj'.1
    have e1 := (m3 s t hj).1 (hids s hj.1)
    have e2 := (m3 t s hj').1 (hids t hj'.1)
    have p1 : pts iok s.id = pointsOf g.intervals := by unfold pts; rw [hg1]
    have p2 : pts iok t.id = pointsOf g'.intervals := by unfold pts; rw [hg2]
    rw [hg1, hg2]
    congr 1
    refine c03_canonical _ _ (m1 _ _ hg1) (m1 _ _ hg2) fun x => ?_
    rw [← p1, ← p2, e1, e2, Set.inter_comm]
  refine ⟨rfl, ?_, ⟨hsp, ?_, m1, r1, v2⟩, ⟨hentry, ?_, ?_, ?_⟩, heq, ?_, ?_, ?_⟩
  · refine ⟨hsp, m1, fun k g hk => ?_⟩
    obtain ⟨_, _, _, he⟩ := d3.2.1 k g hk
    obtain ⟨e, e1, e2, e3⟩ := empty_denotes
    rw [e1] at he
    cases he
    refine ⟨(made_iff_nf _).2 e2, ?_⟩
    have := (c10_isEmpty _ ((made_iff_nf _).2 e2)).2 (by rw [e3]; simp)
    simpa [Geom1D.isEmpty] using this
  · intro k g hk
    obtain ⟨_, _, _, he⟩ := d3.2.1 k g hk
    obtain ⟨e, e1, e2, e3⟩ := empty_denotes
    rw [e1] at he
    cases he
    exact (made_iff_nf _).2 e2
  · intro id s hs
    have e := hid id s hs
    subst e
    obtain ⟨v, _, hv⟩ := d3.1 s ((hall s).2 hs)
    exact ⟨v, hv⟩
  · intro id s hs
    obtain ⟨e, he, hes⟩ := hsh.known id s hs
    obtain ⟨v, _, hv⟩ := d2.1 e he
    exact ⟨v, by rw [← hes]; exact hv⟩
  · intro id s hs
    obtain ⟨e, he, hes⟩ := hsh.known id s hs
    obtain ⟨v, _, hv⟩ := d1.1 e he
    exact r2 s.sheet ⟨v, by rw [← hes]; exact hv⟩
  · intro s t v f hj hv hf
    filter_upwards [r4 s.sheet] with x hx hc
    exact (hx.1 hc.1).2 (s.id, v) (PMap.mem_of_get? _ _ _ hv) s f hj.1 rfl hf hc.2
  · intro s t hj
    obtain ⟨v, hv⟩ := hentry s.id s hj.1
    obtain ⟨s', f, h1, h2⟩ := r3 _ (PMap.mem_of_get? _ _ _ hv)
    dsimp only at h1 h2
    rw [hj.1] at h1
    cases h1
    exact ⟨v, f, hv, h2⟩
  · intro e he
    obtain ⟨c, c1, c2⟩ := d1.1 e he
    obtain ⟨k, k1, k2⟩ := d2.1 e he
    refine ⟨c, k, c1, k1, k2, r2 _ ⟨c, c2⟩, ?_⟩
    filter_upwards [r4 e.2.id] with x hx
    rw [hx]
    have e1 : x ∈ dens den ch0 e.2.id ↔ x ∈ den c := by unfold dens; rw [c2]
    rw [e1]
    refine and_congr_right fun _ => ⟨fun h' s t v f hj hs hv hf => ?_, fun h' i hi s f hs hk hf => ?_⟩
    · exact h' (s.id, v) (PMap.mem_of_get? _ _ _ hv) s f hj.1 hs hf
    · obtain ⟨i1, t, i2, -⟩ := interside_spec sp hsp i.1 s hs
      exact h' s t i.2 f ⟨by rw [i1]; exact hs, i2⟩ hk (by rw [i1]; exact PMap.get?_of_mem _ hnk i hi) hf

theorem each_ok {α : Type} (f : α → Except PyErr Unit) (l : List α) (h : ∀ x ∈ l, f x = .ok ()) :
    SheetBuild.each f l = .ok () := by
  induction l with
  | nil => rfl
  | cons a l ih =>
    rw [SheetBuild.each, h a (by simp)]
    exact ih fun x hx => h x (by simp [hx])

/-- C46: a fresh build with support radius at least 1 passes the check. -/
theorem c46_check {X : Type} {o : G2Ops G} {l : Filter X} {Valid : G → Prop} {den : G → Set X}
    {μ : Set X → ENNReal} (L : Lawful o l Valid den) (B : LawfulBuffer o l Valid den)
    (A : LawfulArea o l Valid den μ) (T : Total o Valid) (sp : SheetPlex) (hsp : sp.Paired)
    (hsh : sp.Sheeted) (geoms : Name → SheetGeoms G) (hg : ValidGeoms Valid geoms) (rad : ℚ) (hr : 1 ≤ rad)
    (sb : SheetBuild G) (h : createSheetbuild o sp geoms rad = .ok sb) : sb.check o = .ok () := by
  obtain ⟨h1, h2, h3, h4, h5, h6, h7, h8⟩ := c46_fresh L B.valid sp hsp hsh geoms hg rad sb h
  have ok_bind : ∀ {α β : Type} (a : α) (f : α → Except PyErr β), (Except.ok a >>= f) = f a := fun _ _ => rfl
  have small : ∀ d, Valid d → (∀ᶠ x in l, x ∉ den d) → ∃ q, o.area d = .ok q ∧ q ≤ 0 := by
    intro d vd hd
    obtain ⟨q, hq⟩ := T.area d vd
    refine ⟨q, hq, ?_⟩
    have e := A.area d q vd hq
    rw [A.null _ hd] at e
    have e2 := ENNReal.ofReal_eq_zero.1 e.symm
    exact_mod_cast e2
  obtain ⟨_, hall, _, _⟩ := paired_intersides sp hsp _ (List.Perm.refl _) []
  unfold SheetBuild.check
  rw [h1, each_ok _ _ ?_, ok_bind, each_ok _ _ ?_]
  · -- the sides of the joints
    intro s hs
    have hs := (hall s).1 hs
    obtain ⟨_, t, ht, _⟩ := interside_spec sp hsp s.id s hs
    have hj : Joint sp s t := ⟨hs, ht⟩
    obtain ⟨v, f, hv, hf⟩ := h7 s t hj
    have hv' : sb.interOk.get? t.id = some v := by rw [← h5 s t hj]; exact hv
    obtain ⟨ch, hch⟩ := h4.chosen s.id s (by rw [h1]; exact hs)
    obtain ⟨hm, he⟩ := h2.nothing _ _ hch
    have he' : pointsOf ch.intervals = ∅ := by rw [he, pointsOf_nil]
    have hmv := h2.made _ _ hv
    obtain ⟨d, d1, d2, d3⟩ := sub_denotes hm.nf hmv.nf
    obtain ⟨b, b1, b2, b3⟩ := and_denotes hm.nf hmv.nf
    rw [he', Set.empty_sdiff] at d3
    rw [he', Set.empty_inter] at b3
    obtain ⟨c, hc⟩ := h4.sheetChosen s.id s (by rw [h1]; exact hs)
    have vf := L.fingers s v f hmv hf
    obtain ⟨cb, hcb⟩ := T.and c f (h3.validC _ _ hc) vf
    obtain ⟨vcb, dcb⟩ := L.and c f cb (h3.validC _ _ hc) vf hcb
    obtain ⟨q, hq, hq0⟩ := small cb vcb (by
      filter_upwards [dcb, h6 s t v f hj hv hf] with x x1 x2 x3
      refine x2 ⟨?_, (x1.1 x3).2⟩
      unfold dens
      rw [hc]
      exact (x1.1 x3).1)
    unfold SheetBuild.checkInterside
    rw [h1, ht, ok_bind, (PMap.get_ok _ _ _).2 hch, ok_bind, (PMap.get_ok _ _ _).2 hv, ok_bind, d1, ok_bind,
      (assert_ok _ ()).2 ?_, ok_bind, (PMap.get_ok _ _ _).2 hv', ok_bind, b1, ok_bind, (assert_ok _ ()).2 ?_, ok_bind,
      (PMap.get_ok _ _ _).2 hc, ok_bind, hf, ok_bind, hcb, ok_bind, hq, ok_bind, assert_ok, decide_eq_true_iff]
    · refine lt_of_le_of_lt hq0 ?_
      unfold tol3
      norm_num
    · exact (c10_isEmpty b ((made_iff_nf _).2 b2)).2 (by rw [b3]; simp)
    · rw [measureLt_iff ((made_iff_nf _).2 d2), d3, measure_empty, ENNReal.ofReal_pos]
      unfold tol7
      norm_num
  · -- the sheets
    intro e he
    obtain ⟨c, k, hc, hk, hok, ⟨c', hc'⟩, hsub⟩ := h8 e he
    obtain ⟨g0, g1, g2⟩ := hg e.2.id
    have hck : ∀ᶠ x in l, x ∈ den c → x ∈ den k := by
      unfold freshChosen at hc
      rw [bind_ok] at hc; obtain ⟨b0, b1, hc⟩ := hc
      rw [bind_ok] at hc; obtain ⟨b2, b3, hc⟩ := hc
      rw [bind_ok] at hc; obtain ⟨b4, b5, hc⟩ := hc
      unfold freshOk at hk
      rw [bind_ok] at hk; obtain ⟨e0, e1, hk⟩ := hk
      rw [bind_ok] at hk; obtain ⟨e2, e3, hk⟩ := hk
      rw [bind_ok] at hk; obtain ⟨e4, e5, hk⟩ := hk
      rw [bind_ok] at hk; obtain ⟨e6, e7, hk⟩ := hk
      rw [b5] at e7
      cases e7
      obtain ⟨w0, w1⟩ := L.and _ _ _ g0 g1 b1
      have v2 := B.valid _ _ _ w0 b3
      have v4 := B.valid _ _ _ g2 b5
      have ve0 := B.valid _ _ _ g0 e1
      have ve2 := B.valid _ _ _ g1 e3
      obtain ⟨_, w2⟩ := L.and _ _ _ v2 v4 hc
      obtain ⟨ve4, w3⟩ := L.and _ _ _ ve0 ve2 e5
      obtain ⟨_, w4⟩ := L.and _ _ _ ve4 v4 hk
      have m0 := B.mono _ _ 1 rad _ _ w0 g0 (by norm_num) hr b3 e1 (w1.mono fun x hx h => (hx.1 h).1)
      have m1 := B.mono _ _ 1 rad _ _ w0 g1 (by norm_num) hr b3 e3 (w1.mono fun x hx h => (hx.1 h).2)
      filter_upwards [w2, w3, w4, m0, m1] with x x2 x3 x4 y0 y1 hx
      have := x2.1 hx
      exact x4.2 ⟨x3.2 ⟨y0 this.1, y1 this.1⟩, this.2⟩
    obtain ⟨d, hd⟩ := T.sub c' k (h3.validC _ _ hc') (h3.validO _ _ hok)
    obtain ⟨vd, dd⟩ := L.sub c' k d (h3.validC _ _ hc') (h3.validO _ _ hok) hd
    obtain ⟨q, hq, hq0⟩ := small d vd (by
      filter_upwards [dd, hsub, hck] with x x1 x2 x3 hx
      have := x1.1 hx
      refine this.2 (x3 (x2.1 ?_).1)
      unfold dens
      rw [hc']
      exact this.1)
    unfold SheetBuild.checkSheet
    rw [(PMap.get_ok _ _ _).2 hc', ok_bind, (PMap.get_ok _ _ _).2 hok, ok_bind, hd, ok_bind, hq, ok_bind, assert_ok,
      decide_eq_true_iff]
    refine lt_of_le_of_lt hq0 ?_
    unfold tol7
    norm_num

/-- Buffers and projections do not raise, and projections are bounded. -/
structure TotalCreate (o : G2Ops G) (Valid : G → Prop) : Prop where
  buffer : ∀ a r, Valid a → ∃ b, o.buffer a r = .ok b
  project : ∀ s g, Valid g → ∃ v, o.project s g = .ok v ∧ v.isBounded = true

theorem dictOf_total {κ α β : Type} [DecidableEq κ] (key : α → κ) (f : α → Except PyErr β) (l : List α)
    (h : ∀ x ∈ l, ∃ v, f x = .ok v) : ∃ r, dictOf key f l = .ok r := by
  induction l with
  | nil => exact ⟨_, rfl⟩
  | cons a l ih =>
    obtain ⟨v, hv⟩ := h a (by simp)
    obtain ⟨r, hr⟩ := ih fun x hx => h x (by simp [hx])
    rw [dictOf, hv]
    show ∃ r', (dictOf key f l >>= _) = .ok r'
    rw [hr]
    exact ⟨_, rfl⟩

theorem restrictInter_total (sp : SheetPlex) (hsp : sp.Paired) (l : List InterSide)
    (hl : ∀ s ∈ l, sp.interside s.id = .ok s) (m : PMap (Name × Name) Geom1D)
    (hm : ∀ k g, m.get? k = some g → LineValid g) (hk : ∀ id s, sp.interside id = .ok s → ∃ g, m.get? id = some g) :
    ∃ r, restrictInter sp m l = .ok r ∧ ∀ k g, r.get? k = some g → LineValid g := by
  induction l generalizing m with
  | nil => exact ⟨m, rfl, hm⟩
  | cons s l ih =>
    have hs := hl s (by simp)
    obtain ⟨_, t, ht, _, _, _, ht', _⟩ := interside_spec sp hsp s.id s hs
    obtain ⟨a, ha⟩ := hk s.id s hs
    obtain ⟨b, hb⟩ := hk t.id t ht'
    obtain ⟨w, w1, w2, w3⟩ := and_denotes (hm _ _ ha).1.nf (hm _ _ hb).1.nf
    have ok_bind : ∀ {α β : Type} (a : α) (f : α → Except PyErr β), (Except.ok a >>= f) = f a := fun _ _ => rfl
    rw [restrictInter, (PMap.get_ok _ _ _).2 ha, ok_bind, ht, ok_bind, (PMap.get_ok _ _ _).2 hb, ok_bind, w1, ok_bind]
    apply ih (fun s' h' => hl s' (by simp [h']))
    · intro k g hg
      rw [PMap.get?_set] at hg
      split_ifs at hg
      · cases hg
        exact LineValid.mk' w2 (by rw [w3]; exact (hm _ _ ha).bounded.subset Set.inter_subset_left)
      · exact hm k g hg
    · intro id s' hs'
      rw [PMap.get?_set]
      split_ifs
      · exact ⟨_, rfl⟩
      · exact hk id s' hs'

theorem removeFingers_total {X : Type} {o : G2Ops G} {l : Filter X} {Valid : G → Prop} {den : G → Set X}
    (L : Lawful o l Valid den) (T : Total o Valid) (sp : SheetPlex) (es : PMap (Name × Name) Geom1D)
    (hes : ∀ e ∈ es, LineValid e.2 ∧ ∃ s, sp.interside e.1 = .ok s) (m : PMap Name G) (hm : ValidMap Valid m)
    (hk : ∀ id s, sp.interside id = .ok s → ∃ g, m.get? s.sheet = some g) :
    ∃ r, removeFingers o sp m es = .ok r := by
  induction es generalizing m with
  | nil => exact ⟨_, rfl⟩
  | cons e es ih =>
    obtain ⟨id, v⟩ := e
    obtain ⟨hv, s, hs⟩ := hes (id, v) (by simp)
    dsimp only at hv hs
    obtain ⟨c, hc⟩ := hk id s hs
    obtain ⟨f, hf⟩ := T.fingers s v hv.1 hv.2
    have vf := L.fingers s v f hv.1 hf
    obtain ⟨d, hd⟩ := T.sub c f (hm _ _ hc) vf
    have ok_bind : ∀ {α β : Type} (a : α) (f : α → Except PyErr β), (Except.ok a >>= f) = f a := fun _ _ => rfl
    rw [removeFingers, hs, ok_bind, (PMap.get_ok _ _ _).2 hc, ok_bind, hf, ok_bind, hd, ok_bind]
    apply ih (fun e he => hes e (by simp [he]))
    · intro k g hg
      rw [PMap.get?_set] at hg
      split_ifs at hg
      · cases hg
        exact (L.sub c f d (hm _ _ hc) vf hd).1
      · exact hm k g hg
    · intro id' s' hs'
      rw [PMap.get?_set]
      split_ifs
      · exact ⟨_, rfl⟩
      · exact hk id' s' hs'

/-- C46: creation does not raise when the 2D operations do not. -/
theorem c46_total {X : Type} {o : G2Ops G} {l : Filter X} {Valid : G → Prop} {den : G → Set X}
    (L : Lawful o l Valid den) (B : BufferValid o Valid) (T : Total o Valid) (TC : TotalCreate o Valid)
    (sp : SheetPlex) (hsp : sp.Paired) (hsh : sp.Sheeted) (geoms : Name → SheetGeoms G)
    (hg : ValidGeoms Valid geoms) (rad : ℚ) : ∃ sb, createSheetbuild o sp geoms rad = .ok sb := by
  have ok_bind : ∀ {α β : Type} (a : α) (f : α → Except PyErr β), (Except.ok a >>= f) = f a := fun _ _ => rfl
  obtain ⟨_, hall, _, hnd⟩ := paired_intersides sp hsp _ (List.Perm.refl _) []
  have hid : ∀ id s, sp.interside id = .ok s → s.id = id := fun id s hs => (interside_spec sp hsp id s hs).1
  have c1 : ∀ e ∈ sp.sheets, ∃ v, freshChosen o (geoms e.2.id) = .ok v ∧ Valid v := by
    intro e _
    obtain ⟨g0, g1, g2⟩ := hg e.2.id
    obtain ⟨a, ha⟩ := T.and _ _ g0 g1
    obtain ⟨va, _⟩ := L.and _ _ _ g0 g1 ha
    obtain ⟨b, hb⟩ := TC.buffer a 1 va
    obtain ⟨c, hc⟩ := TC.buffer _ 0 g2
    have vb := B _ _ _ va hb
    have vc := B _ _ _ g2 hc
    obtain ⟨d, hd⟩ := T.and _ _ vb vc
    refine ⟨d, ?_, (L.and _ _ _ vb vc hd).1⟩
    unfold freshChosen
    rw [ha, ok_bind, hb, ok_bind, hc, ok_bind, hd]
  have c2 : ∀ e ∈ sp.sheets, ∃ v, freshOk o rad (geoms e.2.id) = .ok v ∧ Valid v := by
    intro e _
    obtain ⟨g0, g1, g2⟩ := hg e.2.id
    obtain ⟨a, ha⟩ := TC.buffer _ rad g0
    obtain ⟨b, hb⟩ := TC.buffer _ rad g1
    have va := B _ _ _ g0 ha
    have vb := B _ _ _ g1 hb
    obtain ⟨ab, hab⟩ := T.and _ _ va vb
    have vab := (L.and _ _ _ va vb hab).1
    obtain ⟨c, hc⟩ := TC.buffer _ 0 g2
    have vc := B _ _ _ g2 hc
    obtain ⟨d, hd⟩ := T.and _ _ vab vc
    refine ⟨d, ?_, (L.and _ _ _ vab vc hd).1⟩
    unfold freshOk
    rw [ha, ok_bind, hb, ok_bind, hab, ok_bind, hc, ok_bind, hd]
  obtain ⟨ch0, a1⟩ := dictOf_total (fun e : Name × Sheet => e.2.id) (fun e => freshChosen o (geoms e.2.id)) sp.sheets
    (fun e he => ⟨_, (c1 e he).choose_spec.1⟩)
  obtain ⟨sok, a2⟩ := dictOf_total (fun e : Name × Sheet => e.2.id) (fun e => freshOk o rad (geoms e.2.id)) sp.sheets
    (fun e he => ⟨_, (c2 e he).choose_spec.1⟩)
  have d1 := dictOf_spec _ _ _ _ hsh.nodup a1
  have d2 := dictOf_spec _ _ _ _ hsh.nodup a2
  obtain ⟨e, e1, e2, e3⟩ := empty_denotes
  obtain ⟨ich, a3⟩ := dictOf_total InterSide.id (fun _ => Geom1D.empty) (intersides (sp.intersections.map Prod.snd) none)
    (fun _ _ => ⟨e, e1⟩)
  have v1 : ValidMap Valid ch0 := by
    intro k g hk
    obtain ⟨e, he, _, h⟩ := d1.2.1 k g hk
    obtain ⟨v, h1, h2⟩ := c1 e he
    rw [h1] at h
    cases h
    exact h2
  have v2 : ValidMap Valid sok := by
    intro k g hk
    obtain ⟨e, he, _, h⟩ := d2.2.1 k g hk
    obtain ⟨v, h1, h2⟩ := c2 e he
    rw [h1] at h
    cases h
    exact h2
  have c4 : ∀ s ∈ intersides (sp.intersections.map Prod.snd) none, ∃ v, freshInterOk o geoms sok s = .ok v ∧ LineValid v := by
    intro s hs
    obtain ⟨e, he, hes⟩ := hsh.known s.id s ((hall s).1 hs)
    obtain ⟨k, _, hk⟩ := d2.1 e he
    rw [hes] at hk
    have vk := v2 _ _ hk
    obtain ⟨r, hr⟩ := T.and k (geoms s.sheet).slicesMax vk (hg s.sheet).2.2
    have vr := (L.and _ _ _ vk (hg s.sheet).2.2 hr).1
    have hw0 : ∃ w, Geom1D.construct [(.fraction (-1000), .fraction 1000)] = .ok w ∧ w.isBounded = true := by
      obtain ⟨w, w1, w2, w3⟩ := construct_fin (-1000) 1000 (by norm_num)
      refine ⟨w, ?_, ?_⟩
      · rw [← w1]
        rfl
      rw [c10_isBounded w ((made_iff_nf _).2 w2), w3]
      exact Metric.isBounded_Ico _ _
    obtain ⟨w, w1, w2⟩ := hw0
    have mw : Made w := ⟨_, w1⟩
    obtain ⟨f, hf⟩ := T.fingers s w mw w2
    have vf := L.fingers _ _ _ mw hf
    obtain ⟨g, hg'⟩ := T.and r f vr vf
    have vg := (L.and _ _ _ vr vf hg').1
    obtain ⟨v, hv, hb⟩ := TC.project s g vg
    refine ⟨v, ?_, L.project _ _ _ vg hv, hb⟩
    unfold freshInterOk
    rw [(PMap.get_ok _ _ _).2 hk, ok_bind, hr, ok_bind, w1, ok_bind, hf, ok_bind, hg', ok_bind, hv]
  obtain ⟨iok0, a4⟩ := dictOf_total InterSide.id (freshInterOk o geoms sok) (intersides (sp.intersections.map Prod.snd) none)
    (fun s hs => ⟨_, (c4 s hs).choose_spec.1⟩)
  have d4 := dictOf_spec _ _ _ _ hnd a4
  have v4 : ∀ k g, iok0.get? k = some g → LineValid g := by
    intro k g hk
    obtain ⟨s, hs, _, h⟩ := d4.2.1 k g hk
    obtain ⟨v, h1, h2⟩ := c4 s hs
    rw [h1] at h
    cases h
    exact h2
  obtain ⟨iok, a5, v5⟩ := restrictInter_total sp hsp (intersides (sp.intersections.map Prod.snd) none)
    (fun s hs => (hall s).1 hs) iok0 v4 (by
      intro id s hs
      have e := hid id s hs
      subst e
      obtain ⟨v, _, hv⟩ := d4.1 s ((hall s).2 hs)
      exact ⟨v, hv⟩)
  have hkeys := restrictInter_keys sp _ _ _ a5
  have hnk : (iok.map Prod.fst).Nodup := by rw [hkeys, d4.2.2]; exact hnd
  obtain ⟨ch, a6⟩ := removeFingers_total L T sp iok (by
      intro e he
      refine ⟨v5 e.1 e.2 (PMap.get?_of_mem _ hnk e he), ?_⟩
      have : e.1 ∈ iok.map Prod.fst := List.mem_map_of_mem he
      rw [hkeys, d4.2.2] at this
      obtain ⟨s, hs, h⟩ := List.mem_map.1 this
      exact ⟨s, by rw [← h]; exact (hall s).1 hs⟩) ch0 v1 (by
      intro id s hs
      obtain ⟨e, he, hes⟩ := hsh.known id s hs
      obtain ⟨v, _, hv⟩ := d1.1 e he
      exact ⟨v, by rw [← hes]; exact hv⟩)
  unfold createSheetbuild
  rw [a1, ok_bind, a2, ok_bind]
  dsimp only
  rw [a3, ok_bind, a4, ok_bind, a5, ok_bind, a6, ok_bind]
  exact ⟨_, rfl⟩

/-! ### The instance with lines -/

theorem dilate_bounded (S : Set ℝ) (r : ℝ) (h : Bornology.IsBounded S) : Bornology.IsBounded (dilate S r) := by
  obtain ⟨a, ha⟩ := h.subset_closedBall 0
  refine (Metric.isBounded_closedBall (x := (0 : ℝ)) (r := a + r)).subset ?_
  rintro x ⟨y, hy, hxy⟩
  have h1 := ha hy
  rw [Metric.mem_closedBall, Real.dist_eq, sub_zero] at h1 ⊢
  have : x = y + (x - y) := by ring
  rw [this]
  exact le_trans (abs_add_le _ _) (add_le_add h1 hxy)

theorem line_buffer : LawfulBuffer lineOps (⊤ : Filter ℝ) LineValid (fun g => pointsOf g.intervals) where
  valid a r b ha h := by
    obtain ⟨g, h1, h2, h3, h4⟩ := buffer_mpq a ha.1 r
    have h' : a.buffer (.mpq r) = .ok b := h
    rw [h1] at h'
    cases h'
    rcases le_total 0 r with hr | hr
    · exact LineValid.mk' h2.nf (by rw [h3 hr]; exact dilate_bounded _ _ ha.bounded)
    · refine LineValid.mk' h2.nf ?_
      rw [h4 hr]
      refine ha.bounded.subset fun x hx => hx x ?_
      rw [sub_self, abs_zero]
      have : (r : ℝ) ≤ 0 := by exact_mod_cast hr
      linarith
  mono a b r r' a' b' ha hb h0 hr h1 h2 hab := by
    obtain ⟨g, e1, e2, e3, e4⟩ := buffer_mpq a ha.1 r
    obtain ⟨g', f1, f2, f3, f4⟩ := buffer_mpq b hb.1 r'
    have h1' : a.buffer (.mpq r) = .ok a' := h1
    have h2' : b.buffer (.mpq r') = .ok b' := h2
    rw [e1] at h1'
    rw [f1] at h2'
    cases h1'
    cases h2'
    rw [Filter.eventually_top] at hab ⊢
    rw [e3 h0, f3 (le_trans h0 hr)]
    rintro x ⟨y, hy, hxy⟩
    refine ⟨y, hab y hy, le_trans hxy ?_⟩
    exact_mod_cast hr

theorem line_totalCreate : TotalCreate lineOps LineValid where
  buffer a r ha := by
    obtain ⟨g, h1, _⟩ := buffer_mpq a ha.1 r
    exact ⟨g, h1⟩
  project s g hg := ⟨g, rfl, hg.2⟩

theorem plex2_sheeted : plex2.Sheeted where
  nodup := by decide
  known id s h := by
    rcases plex2_sides id s h with ⟨_, rfl⟩ | ⟨_, rfl⟩
    · exact ⟨("s0".toList, ⟨"s0".toList⟩), by decide, rfl⟩
    · exact ⟨("s2".toList, ⟨"s2".toList⟩), by decide, rfl⟩

/-- Both faces from 0 to 10, the slices a bit larger. -/
def geoms2 (_ : Name) : SheetGeoms Geom1D := ⟨ivl 0 10, ivl 0 10, ivl (-20) 30⟩

theorem geoms2_valid : ValidGeoms LineValid geoms2 := fun _ =>
  ⟨ivl_valid 0 10 (by norm_num), ivl_valid 0 10 (by norm_num), ivl_valid (-20) 30 (by norm_num)⟩

/-- A fresh build that passes the check. -/
example : ∃ sb, createSheetbuild lineOps plex2 geoms2 2 = .ok sb ∧ sb.check lineOps = .ok () := by
  obtain ⟨sb, h⟩ := c46_total line_lawful line_buffer.valid line_total line_totalCreate plex2 plex2_paired plex2_sheeted
    geoms2 geoms2_valid 2
  exact ⟨sb, h, c46_check line_lawful line_buffer line_area line_total plex2 plex2_paired plex2_sheeted
    geoms2 geoms2_valid 2 (by norm_num) sb h⟩

/-- A single sheet. -/
def plex1 : SheetPlex := createSheetplex geo3 [⟨"s0".toList⟩]

/-- C46: with support radius 1/2 a fresh build can fail the check. -/
theorem c46_small : ∃ sb, createSheetbuild lineOps plex1 geoms2 (1 / 2) = .ok sb ∧
    sb.check lineOps = .error .assertion := by
  have hp : plex1.Paired := (create_paired geo3 [⟨"s0".toList⟩] (by decide)).2
  have hs : plex1.Sheeted := by
    refine ⟨by decide, fun id s h => ?_⟩
    cases h
  have ok_bind : ∀ {α β : Type} (a : α) (f : α → Except PyErr β), (Except.ok a >>= f) = f a := fun _ _ => rfl
  obtain ⟨sb, h⟩ := c46_total line_lawful line_buffer.valid line_total line_totalCreate plex1 hp hs
    geoms2 geoms2_valid (1 / 2)
  refine ⟨sb, h, ?_⟩
  obtain ⟨_, _, h3, _, _, _, _, h8⟩ := c46_fresh line_lawful line_buffer.valid plex1 hp hs geoms2 geoms2_valid (1 / 2) sb h
  obtain ⟨c, k, hc, hk, hok, _, _⟩ := h8 ("s0".toList, ⟨"s0".toList⟩) (by decide)
  have hch : sb.sheetChosen.get? "s0".toList = some c := by
    unfold createSheetbuild at h
    rw [bind_ok] at h; obtain ⟨ch0, a1, h⟩ := h
    rw [bind_ok] at h; obtain ⟨sok, a2, h⟩ := h
    have hi : intersides (plex1.intersections.map Prod.snd) none = [] := rfl
    rw [hi] at h
    cases h
    obtain ⟨v, v1, v2⟩ := (dictOf_spec _ _ _ _ hs.nodup a1).1 ("s0".toList, ⟨"s0".toList⟩) (by decide)
    dsimp only at v1 hc
    rw [hc] at v1
    cases v1
    exact v2
  have hpl : sb.sheetplex = plex1 := by
    unfold createSheetbuild at h
    iterate 6 (rw [bind_ok] at h; obtain ⟨_, _, h⟩ := h)
    cases h
    rfl
  have v := ivl_valid 0 10 (by norm_num)
  have w := ivl_valid (-20) 30 (by norm_num)
  -- the two areas
  obtain ⟨c1, c2⟩ : LineValid c ∧ ∀ x : ℝ, 10 ≤ x → x < 11 → x ∈ pointsOf c.intervals := by
    unfold freshChosen at hc
    rw [bind_ok] at hc; obtain ⟨b0, b1, hc⟩ := hc
    rw [bind_ok] at hc; obtain ⟨b2, b3, hc⟩ := hc
    rw [bind_ok] at hc; obtain ⟨b4, b5, hc⟩ := hc
    obtain ⟨w0, w1⟩ := line_lawful.and _ _ _ v v b1
    obtain ⟨g, g1, g2, g3, _⟩ := buffer_mpq b0 w0.1 1
    obtain ⟨g', f1, f2, f3, _⟩ := buffer_mpq (ivl (-20) 30) w.1 0
    have v2 := line_buffer.valid _ _ _ w0 b3
    have v4 := line_buffer.valid _ _ _ w b5
    have e1 : b0.buffer (.mpq 1) = .ok b2 := b3
    have e2 : (ivl (-20) 30).buffer (.mpq 0) = .ok b4 := b5
    rw [g1] at e1
    rw [f1] at e2
    cases e1
    cases e2
    obtain ⟨w2, w3⟩ := line_lawful.and _ _ _ v2 v4 hc
    rw [Filter.eventually_top] at w1 w3
    refine ⟨w2, fun x hx hx' => (w3 x).2 ?_⟩
    rw [g3 (by norm_num), f3 (le_refl _)]
    refine ⟨⟨x - 1, (w1 (x - 1)).2 ?_, by norm_num⟩, ⟨x, ?_, by norm_num⟩⟩
    · show x - 1 ∈ pointsOf (ivl 0 10).intervals ∧ x - 1 ∈ pointsOf (ivl 0 10).intervals
      rw [ivl_points]
      refine ⟨⟨?_, ?_⟩, ?_, ?_⟩ <;> push_cast <;> linarith
    · rw [ivl_points]
      refine ⟨?_, ?_⟩ <;> push_cast <;> linarith
  obtain ⟨k1, k2⟩ : LineValid k ∧ ∀ x : ℝ, x ∈ pointsOf k.intervals → x < 21 / 2 := by
    unfold freshOk at hk
    rw [bind_ok] at hk; obtain ⟨b0, b1, hk⟩ := hk
    rw [bind_ok] at hk; obtain ⟨b2, b3, hk⟩ := hk
    rw [bind_ok] at hk; obtain ⟨b4, b5, hk⟩ := hk
    rw [bind_ok] at hk; obtain ⟨b6, b7, hk⟩ := hk
    have v0 := line_buffer.valid _ _ _ v b1
    have v2 := line_buffer.valid _ _ _ v b3
    have v6 := line_buffer.valid _ _ _ w b7
    obtain ⟨w0, w1⟩ := line_lawful.and _ _ _ v0 v2 b5
    obtain ⟨w2, w3⟩ := line_lawful.and _ _ _ w0 v6 hk
    obtain ⟨g, g1, g2, g3, _⟩ := buffer_mpq (ivl 0 10) v.1 (1 / 2)
    have e1 : (ivl 0 10).buffer (.mpq (1 / 2)) = .ok b0 := b1
    rw [g1] at e1
    cases e1
    rw [Filter.eventually_top] at w1 w3
    refine ⟨w2, fun x hx => ?_⟩
    have := ((w1 x).1 ((w3 x).1 hx).1).1
    rw [g3 (by norm_num)] at this
    obtain ⟨y, hy, hxy⟩ := this
    rw [ivl_points] at hy
    have := hy.2
    have h5 := (abs_le.1 hxy).2
    push_cast at this h5
    linarith
  obtain ⟨d, hd⟩ := line_total.sub c k c1 k1
  obtain ⟨vd, dd⟩ := line_lawful.sub c k d c1 k1 hd
  obtain ⟨q, q1, q2⟩ := lineArea_spec vd
  have hq : ¬ q < tol7 := by
    intro hlt
    have : volume (Set.Ico (21 / 2 : ℝ) 11) ≤ volume (pointsOf d.intervals) := by
      refine measure_mono fun x hx => (Filter.eventually_top.1 dd x).2 ⟨c2 x (by linarith [hx.1]) hx.2, fun hk => ?_⟩
      exact absurd (k2 x hk) (not_lt.2 hx.1)
    rw [q2, Real.volume_Ico, ENNReal.ofReal_le_ofReal_iff'] at this
    have hlt' : (q : ℝ) < (tol7 : ℝ) := by exact_mod_cast hlt
    have h7 : (tol7 : ℝ) < 1 / 2 := by unfold tol7; norm_num
    rcases this with h | h <;> linarith
  unfold SheetBuild.check
  have hsh : plex1.sheets = [("s0".toList, ⟨"s0".toList⟩)] := rfl
  rw [hpl, hsh]
  unfold SheetBuild.each SheetBuild.checkSheet
  dsimp only
  rw [(PMap.get_ok _ _ _).2 hch, ok_bind, (PMap.get_ok _ _ _).2 hok, ok_bind, hd, ok_bind]
  have q1' : lineOps.area d = .ok q := q1
  rw [q1', ok_bind, decide_eq_false hq]
  rfl

end Ply
