import Verif.Proofs.TotalContain
import Verif.Proofs.ArrOutline

/-!
# The arrangement of closed loops is always built
-/

namespace Ply.Arr

open CellMerger Nest

/-- The segments are those of closed loops, each of which winds differently around its two sides. -/
def Loops (segments : List Seg) : Prop :=
  ∀ s ∈ segments, s.1 ≠ s.2 ∧ ∃ L, Cuts L ∧ s ∈ polyEdges L ∧ ∀ e ∈ polyEdges L, e ∈ segments

theorem box_contains {pts : List Pt} {p : Pt} (hp : p ∈ pts) : (boxOf pts).contains p = true :=
  (c20_contains pts p).2 ⟨⟨p, hp, le_rfl⟩, ⟨p, hp, le_rfl⟩, ⟨p, hp, le_rfl⟩, ⟨p, hp, le_rfl⟩⟩

theorem box_mid {pts : List Pt} {p q : Pt} (hp : p ∈ pts) (hq : q ∈ pts) :
    (boxOf pts).contains ((p.1 + q.1) / 2, (p.2 + q.2) / 2) = true := by
  rw [c20_contains]
  refine ⟨?_, ?_, ?_, ?_⟩ <;> dsimp only
  · rcases le_total p.1 q.1 with h | h
    · exact ⟨p, hp, by linarith⟩
    · exact ⟨q, hq, by linarith⟩
  · rcases le_total p.1 q.1 with h | h
    · exact ⟨q, hq, by linarith⟩
    · exact ⟨p, hp, by linarith⟩
  · rcases le_total p.2 q.2 with h | h
    · exact ⟨p, hp, by linarith⟩
    · exact ⟨q, hq, by linarith⟩
  · rcases le_total p.2 q.2 with h | h
    · exact ⟨q, hq, by linarith⟩
    · exact ⟨p, hp, by linarith⟩

/-- A point of a cell is found. -/
theorem findPoint_ok {R : Rays} (hR : RaysFine R) (hP : Planar R.halfEdges) {pts : List Pt}
    (hends : ∀ h ∈ R.halfEdges, h.1 ∈ pts) {c0 c1 : Pt} (rest : List Pt) (hh : (c0, c1) ∈ R.halfEdges) :
    ∃ p, findPoint R (boxOf pts) (c0 :: c1 :: rest) = .ok p := by
  have h0 := hends _ hh
  have h1 := hends _ (hP.rev _ hh)
  have hd : dotP R.gv ((c1.2 - c0.2) * 1, (c1.1 - c0.1) * -1) ≠ 0 := by
    intro h
    apply hR.general _ hh
    unfold dotP at h
    unfold cross dir
    dsimp only at h ⊢
    linarith
  obtain ⟨l, hl⟩ := rayQuery_true hR hP h0 h1 (hP.ne _ hh) (box_mid h0 h1)
    (d := if dotP R.gv ((c1.2 - c0.2) * 1, (c1.1 - c0.1) * -1) < 0 then (-R.gv.1, -R.gv.2) else R.gv) (by
      split_ifs
      · right; dsimp only; simp
      · left; rfl)
  unfold findPoint
  dsimp only
  rw [ensure_pos hd]
  show ∃ p, (rayQueryGeneral _ _ _ _ _ >>= _) = _
  dsimp only at hl
  rw [hl]
  show ∃ p, (match l.find? (fun x => decide (0 < x.1)) with
    | none => _
    | some x => _) = Except.ok p
  cases l.find? (fun x => decide (0 < x.1)) with
  | none => exact ⟨_, rfl⟩
  | some x => exact ⟨_, rfl⟩

theorem RaysFine.ok {R : Rays} (h : RaysFine R) (hP : Planar R.halfEdges) : RaysOK R :=
  ⟨_, gsegs_ok _ _ hP.ne, h.tree⟩

/-- The points of all cells are found, inside positive and outside negative ones. -/
theorem findPoints_ok {net : Net} (W : Wheel net) {R : Rays} (hR : RaysFine R) (hRe : R.halfEdges = net.halfEdges)
    {pts : List Pt} (hends : ∀ h ∈ net.halfEdges, h.1 ∈ pts) (l : List (List Pt × Bool))
    (hl : ∀ c ∈ l, CellOK net c.1 ∧ (c.2 = true ↔ 0 < shoelace c.1) ∧ ∃ a b rest, c.1 = a :: b :: rest ∧ (a, b) ∈ polyEdges c.1) :
    ∃ cs, findPoints R (boxOf pts) l = .ok cs := by
  have hP : Planar R.halfEdges := by rw [hRe]; exact W.planar
  induction l with
  | nil => exact ⟨[], rfl⟩
  | cons c l ih =>
    obtain ⟨cs, hcs⟩ := ih fun x hx => hl x (List.mem_cons_of_mem _ hx)
    obtain ⟨hok, hsg, a, b, rest, e, hab⟩ := hl c List.mem_cons_self
    have hH := hok.sub _ hab
    obtain ⟨p, hp⟩ := findPoint_ok hR hP (by rw [hRe]; exact hends) rest (by rw [hRe]; exact hH)
    have hsee := findPoint_sees (hR.ok hP) hP _ _ _ _ _ hp
    rw [hRe] at hsee
    rw [← e] at hp
    rw [findPoints, hp]
    show ∃ cs, (locateWinding c.1 p >>= _) = _
    have hoff : ¬ OnBoundary c.1 p := fun ⟨k, hk, ho⟩ => hsee.off ⟨k, hok.sub k hk, ho⟩
    obtain ⟨_, l1, l2⟩ := c18_locate c.1 hok.ne p
    have hw := sideOf_eq W.planar hok.sub hH hsee
    rcases hok.side W hab with ⟨s1, _, s2⟩ | ⟨s1, _, s2⟩
    · rw [l1.2 ⟨hoff, by rw [← hw, s2]; decide⟩]
      have : ¬ c.2 = true := by rw [hsg]; exact not_lt.2 s1.le
      show ∃ cs, (if c.2 = true then (ensure ((1 : ℤ) < 0) >>= _) else (ensure ((1 : ℤ) > 0) >>= _)) = _
      rw [if_neg this, ensure_pos (by decide)]
      show ∃ r, (findPoints R (boxOf pts) l >>= _) = Except.ok r
      rw [hcs]
      exact ⟨_, rfl⟩
    · rw [l2.2 ⟨hoff, by rw [← hw, s2]⟩]
      have : c.2 = true := hsg.2 s1
      show ∃ cs, (if c.2 = true then (ensure ((-1 : ℤ) < 0) >>= _) else (ensure ((-1 : ℤ) > 0) >>= _)) = _
      rw [if_pos this, ensure_pos (by decide)]
      show ∃ r, (findPoints R (boxOf pts) l >>= _) = Except.ok r
      rw [hcs]
      exact ⟨_, rfl⟩

/-- Everything about an arrangement of closed loops. -/
structure Full (A : Arrangement) : Prop where
  wheel : Wheel A.net
  tiling : Tiling A.net (A.cells.map Cell1.vertices)
  nodup : (A.cells.map Cell1.vertices).Nodup
  sign : ∀ c ∈ A.cells, c.negative = true ↔ 0 < shoelace c.vertices
  sees : ∀ c ∈ A.cells, ∃ e ∈ polyEdges c.vertices, Sees A.net.halfEdges e c.point
  keys : A.containers.map Prod.fst = A.cells.map Cell1.vertices
  conts : ∀ x ∈ A.containers, ContOK A.net (A.cells.map Cell1.vertices) x

/-- The net of closed loops. -/
theorem net_wheel {ch : Choices} (hch : ch.Valid) {segments : List Seg} (hL : Loops segments) {net : Net} {verts : List Pt}
    (hv : ∀ p, p ∈ verts ↔ EventPoint segments p) (hn : NetOK (ch.segs (normSegs segments)) verts net)
    (hon : ∀ x, OnAny net.halfEdges x ↔ OnAny segments x) : Wheel net ∧ ∀ h ∈ net.halfEdges, h.1 ∈ verts := by
  have hev : ∀ p, EventPoint (ch.segs (normSegs segments)) p ↔ p ∈ verts := by
    intro p
    rw [hv, eventPoint_perm (hch.segs _), eventPoint_norm]
  refine ⟨⟨hn.nodup, hn.planar, hn.fans, ?_, ?_⟩, fun h hh => (hev _).1 (hn.elem h hh).ev1⟩
  · intro h hh
    exact dget_ok (by rw [hn.keys]; exact (hev _).1 (hn.elem h hh).ev2)
  · intro h hh p q hp hq
    obtain ⟨s, hs, h1, h2⟩ := (hn.elem h hh).on
    have hs' := (hch.segs (normSegs segments)).mem_iff.1 hs
    unfold normSegs at hs'
    rw [List.mem_dedup, List.mem_map] at hs'
    obtain ⟨t, ht, rfl⟩ := hs'
    rw [onSeg_sorted] at h1 h2
    obtain ⟨_, L, hC, htL, hLs⟩ := hL t ht
    exact two_faces hn.planar hh hC (fun e he x hx => (hon x).2 ⟨e, hLs e he, hx⟩)
      (fun x hx => ⟨t, htL, onSeg_between h1 h2 hx⟩) hp hq

/-- The arrangement of closed loops is always built. -/
theorem build_ok {ch : Choices} (hch : ch.Valid) {segments : List Seg} (hL : Loops segments) :
    ∃ A, build ch segments = .ok A ∧ Full A := by
  obtain ⟨net, aabb, verts, hb, hvn, hv, hn, hon, hbox⟩ := buildNet_spec ch hch segments fun s hs => (hL s hs).1
  obtain ⟨W, hends⟩ := net_wheel hch hL hv hn hon
  have hfans : checkFans net.vertices = .ok () := by
    refine checkFans_ok (H := net.halfEdges) _ fun x hx => ?_
    have hk : dget x.1 net.vertices = .ok x.2 := dget_of_mem (by rw [hn.keys]; exact hvn) hx
    have hf := hn.fans x.1 x.2 hk
    refine ⟨hf, ?_⟩
    have hxv : x.1 ∈ verts := by rw [← hn.keys]; exact List.mem_map_of_mem hx
    obtain ⟨e, he, ho⟩ : OnAny net.halfEdges x.1 := by
      rw [hon]
      rcases (hv x.1).1 hxv with ⟨s, hs, h⟩ | ⟨s, hs, t, ht, _, h, _⟩
      · refine ⟨s, hs, ?_⟩
        rcases h with h | h
        · rw [h]; exact onSeg_start s
        · rw [h, ← onSeg_rev]; exact onSeg_start (s.2, s.1)
      · exact ⟨s, hs, h⟩
    have hxe : EventPoint (ch.segs (normSegs segments)) x.1 := by
      rw [eventPoint_perm (hch.segs _), eventPoint_norm, ← hv]; exact hxv
    have hst : ∃ h ∈ net.halfEdges, h.1 = x.1 := by
      rcases (hn.elem e he).gap x.1 hxe ho with h | h
      · exact ⟨e, he, h.symm⟩
      · exact ⟨(e.2, e.1), hn.rev e he, h.symm⟩
    obtain ⟨h, hh, h1⟩ := hst
    obtain ⟨k, hk⟩ := hf.complete h hh h1
    exact List.ne_nil_of_mem hk
  obtain ⟨R, hRb, hR, hRe⟩ := buildRays_ok net W.planar.ne
  have hP : Planar R.halfEdges := by rw [hRe]; exact W.planar
  obtain ⟨st, hst, hcs⟩ := findCells_ok hch W net.halfEdges.length net.halfEdges ⟨[], []⟩ le_rfl hn.nodup (fun e he => he)
    (fun e k he hk => (hk.spec W he).1) (by simp) (by simp)
  obtain ⟨hC, hcover⟩ := findCells_spec hch W.planar hn.fans _ _ _ _ (fun e he => he)
    ⟨rfl, by simp, by simp, by simp⟩ (fun e he => Or.inl he) hst
  have htwo : ∀ c ∈ st.cells, ∃ a b rest, c.1 = a :: b :: rest ∧ (a, b) ∈ polyEdges c.1 := by
    intro c hc
    obtain ⟨a, b, rest, e, _, _⟩ := hC.two c hc
    refine ⟨a, b, rest, e, ?_⟩
    rw [e]
    simp [polyEdges]
  have haabb : aabb = boxOf verts := hbox
  obtain ⟨cells, hcells⟩ := findPoints_ok W hR hRe hends st.cells fun c hc => ⟨(hcs c hc).1, (hcs c hc).2, htwo c hc⟩
  obtain ⟨p1, p2, p3⟩ := findPoints_spec R (boxOf verts) st.cells cells hcells
  have hbox' : cells.foldl (fun b c => b.includePoint c.point) (boxOf verts) = boxOf (verts ++ cells.map Cell1.point) := by
    unfold boxOf
    rw [List.foldl_append, List.foldl_map]
  have hzip : ∀ c ∈ cells, (c.vertices, c.negative) ∈ st.cells := by
    intro c hc
    have e : cells.map (fun c => (c.vertices, c.negative)) = st.cells := by
      have : ∀ (l : List Cell1) (m : List (List Pt × Bool)), l.map Cell1.vertices = m.map Prod.fst →
          l.map Cell1.negative = m.map Prod.snd → l.map (fun c => (c.vertices, c.negative)) = m := by
        intro l
        induction l with
        | nil => intro m h1 _; cases m with
          | nil => rfl
          | cons _ _ => cases h1
        | cons a l ih => intro m h1 h2; cases m with
          | nil => cases h1
          | cons x m =>
            simp only [List.map_cons, List.cons.injEq] at h1 h2 ⊢
            exact ⟨Prod.ext h1.1 h2.1, ih m h1.2 h2.2⟩
      exact this _ _ p1 p2
    rw [← e]
    exact List.mem_map_of_mem hc
  have hmem : ∀ v ∈ cells.map Cell1.vertices, ∃ s ∈ st.cells, s.1 = v := by
    intro v hv
    rw [p1] at hv
    exact List.mem_map.1 hv
  have hmem' : ∀ s ∈ st.cells, s.1 ∈ cells.map Cell1.vertices := by
    intro s hs
    rw [p1]
    exact List.mem_map_of_mem hs
  have hallE : (allEdges (cells.map Cell1.vertices)).Nodup := by
    have : st.heCell.map Prod.fst = allEdges (cells.map Cell1.vertices) := by
      rw [p1, hC.he]
      unfold allEdges
      rw [List.flatMap_map, List.map_flatMap]
      congr 1
      funext c
      simp [edgesIter_eq, Function.comp_def]
    rw [← this]
    exact hC.nodup
  have hok : ∀ v ∈ cells.map Cell1.vertices, CellOK net v := by
    intro v hv
    obtain ⟨s, hs, rfl⟩ := hmem v hv
    exact (hcs s hs).1
  have hdisj : (cells.map Cell1.vertices).Pairwise fun a b => List.Disjoint (polyEdges a) (polyEdges b) := by
    have := (List.nodup_flatMap.1 hallE).2
    exact this
  have hnd : (cells.map Cell1.vertices).Nodup := by
    refine hdisj.imp_of_mem ?_
    rintro a b ha hb hab rfl
    obtain ⟨e, he⟩ := (hok a ha).edge
    exact hab he he
  have huniq : ∀ a ∈ cells.map Cell1.vertices, ∀ b ∈ cells.map Cell1.vertices, ∀ e, e ∈ polyEdges a → e ∈ polyEdges b → a = b := by
    intro a ha b hb e h1 h2
    by_contra hne
    have : Std.Symm fun a b : List Pt => List.Disjoint (polyEdges a) (polyEdges b) := ⟨fun _ _ h => List.Disjoint.symm h⟩
    exact (hdisj.forall ha hb hne) h1 h2
  have S : Setting net R st.heCell cells (verts ++ cells.map Cell1.point) := by
    refine ⟨W, ⟨hok, huniq, ?_⟩, hnd, hR, hRe, ?_, ?_, ?_, ?_, ?_⟩
    · intro h hh
      obtain ⟨s, hs, h1⟩ := hcover h hh
      exact ⟨s.1, hmem' s hs, by rw [← edgesIter_eq]; exact h1⟩
    · intro h hh
      obtain ⟨s, hs, h1⟩ := hcover h hh
      refine ⟨s.1, hmem' s hs, by rw [← edgesIter_eq]; exact h1, dget_of_mem hC.nodup ?_⟩
      rw [hC.he]
      exact List.mem_flatMap.2 ⟨s, hs, List.mem_map.2 ⟨h, h1, rfl⟩⟩
    · intro c hc
      exact (hcs _ (hzip c hc)).2
    · intro c hc
      obtain ⟨a, b, rest, e, hab⟩ := htwo _ (hzip c hc)
      dsimp only at e hab
      have hp := p3 c hc
      rw [e] at hp
      have := findPoint_sees (hR.ok hP) hP _ _ _ _ _ hp
      rw [hRe] at this
      exact ⟨(a, b), hab, this⟩
    · intro c hc
      exact box_contains (List.mem_append_right _ (List.mem_map_of_mem hc))
    · intro h hh
      exact List.mem_append_left _ (hends h hh)
  obtain ⟨info, i1, i2, i3⟩ := S.findContainers hch cells fun c hc => hc
  obtain ⟨conts, k1, k2, k3⟩ := S.chooseContainers info i2 i3 info fun x hx => hx
  refine ⟨⟨net, cells, conts⟩, ?_, ⟨W, S.tiling, hnd, S.sign, S.sees, k2.trans i2, k3⟩⟩
  unfold build
  rw [hb]
  show (checkFans net.vertices >>= _) = _
  rw [hfans]
  show (buildRays net >>= _) = _
  rw [hRb]
  show (findCells ch net net.halfEdges.length net.halfEdges ⟨[], []⟩ >>= _) = _
  rw [hst]
  show (findPoints R aabb st.cells >>= _) = _
  rw [haabb, hcells]
  show (findContainers ch R (cells.foldl (fun b c => b.includePoint c.point) (boxOf verts)) st.heCell cells cells >>= _) = _
  rw [hbox', i1]
  show (chooseContainers cells info info >>= _) = _
  rw [k1]
  rfl

/-- The boundaries of geoms are closed loops. -/
theorem loops_geoms (gs : List Geom2D) (hg : ∀ g ∈ gs, Geom2D.WellMade g) (ho : ∀ g ∈ gs, Geom2D.Cutting g) :
    Loops (gs.flatMap Geom2D.allSegments) := by
  intro s hs
  refine ⟨segments_ne gs hg s hs, ?_⟩
  obtain ⟨g, hg', hs⟩ := List.mem_flatMap.1 hs
  obtain ⟨sp, hsp, hs'⟩ := List.mem_flatMap.1 hs
  obtain ⟨m1, m2⟩ := mem_edges hsp
  unfold SPWH.segments at hs'
  rcases List.mem_append.1 hs' with h | h
  · rw [edgesIter_eq] at h
    exact ⟨_, (ho g hg' sp hsp).1, h, fun e he => List.mem_flatMap.2 ⟨g, hg', m1 e he⟩⟩
  · obtain ⟨k, hk, h⟩ := List.mem_flatMap.1 h
    rw [edgesIter_eq] at h
    exact ⟨_, (ho g hg' sp hsp).2 k hk, h, fun e he => List.mem_flatMap.2 ⟨g, hg', m2 k hk e he⟩⟩

end Ply.Arr
