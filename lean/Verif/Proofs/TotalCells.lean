import Verif.Proofs.TotalFan
import Verif.Proofs.ArrOutline
import Verif.Proofs.RingArea

/-!
# The cells of an arrangement are always found
-/

namespace Ply.Arr

open CellMerger

/-- The half-edge after `h` along its cell. -/
def Nxt (verts : List (Pt × Fan)) (h k : Seg) : Prop :=
  ∃ fan, dget h.2 verts = .ok fan ∧ getNextCcw h.2 fan (h.2, h.1) = .ok k

/-- Half-edges with the fans of their vertices, such that the two sides of every edge are different faces. -/
structure Wheel (net : Net) : Prop where
  nodup : net.halfEdges.Nodup
  planar : Planar net.halfEdges
  fans : ∀ c fan, dget c net.vertices = .ok fan → FanOK net.halfEdges c fan
  keys : ∀ h ∈ net.halfEdges, ∃ fan, dget h.2 net.vertices = .ok fan
  parts : ∀ h ∈ net.halfEdges, ∀ p q, Sees net.halfEdges h p → Sees net.halfEdges (h.2, h.1) q →
    ¬ SameFace net.halfEdges p q

theorem Nxt.unique {verts : List (Pt × Fan)} {h k k' : Seg} (h1 : Nxt verts h k) (h2 : Nxt verts h k') : k = k' := by
  obtain ⟨fan, a, b⟩ := h1
  obtain ⟨fan', a', b'⟩ := h2
  rw [a] at a'; cases a'
  rw [b] at b'; cases b'
  rfl

theorem nxt_exists {net : Net} (W : Wheel net) {h : Seg} (hh : h ∈ net.halfEdges) :
    ∃ k, Nxt net.vertices h k ∧ k ∈ net.halfEdges ∧ k.1 = h.2 ∧
      ∃ p q, Sees net.halfEdges h p ∧ Sees net.halfEdges k q ∧ SameFace net.halfEdges p q := by
  obtain ⟨fan, hf⟩ := W.keys h hh
  obtain ⟨k, a, b, c, d⟩ := ccw_face W.planar (W.fans _ _ hf) (prev := h.1) hh
  exact ⟨k, ⟨fan, hf, a⟩, b, c, d⟩

theorem Nxt.spec {net : Net} (W : Wheel net) {h k : Seg} (hh : h ∈ net.halfEdges) (hn : Nxt net.vertices h k) :
    k ∈ net.halfEdges ∧ k.1 = h.2 ∧
      ∃ p q, Sees net.halfEdges h p ∧ Sees net.halfEdges k q ∧ SameFace net.halfEdges p q := by
  obtain ⟨k', a, b⟩ := nxt_exists W hh
  rw [hn.unique a]; exact b

/-- The next half-edge does not go back. -/
theorem Nxt.ahead {net : Net} (W : Wheel net) {h k : Seg} (hh : h ∈ net.halfEdges) (hn : Nxt net.vertices h k) :
    k.2 ≠ h.1 := by
  obtain ⟨a, b, p, q, c, d, e⟩ := hn.spec W hh
  intro hc
  have : k = (h.2, h.1) := Prod.ext b hc
  rw [this] at d
  exact W.parts h hh p q c d e

theorem Nxt.inj {net : Net} (W : Wheel net) {h h' k : Seg} (hh : h ∈ net.halfEdges) (hh' : h' ∈ net.halfEdges)
    (h1 : Nxt net.vertices h k) (h2 : Nxt net.vertices h' k) : h = h' := by
  have e1 := (h1.spec W hh).2.1
  have e2 := (h2.spec W hh').2.1
  obtain ⟨fan, a, b⟩ := h1
  obtain ⟨fan', a', b'⟩ := h2
  have e : h.2 = h'.2 := e1.symm.trans e2
  rw [← e, a] at a'; cases a'
  have key : ∀ x : Seg, getNextCcw h.2 fan x = .ok k → getNextCw h.2 fan k = .ok x := by
    intro x hok
    unfold getNextCcw at hok
    obtain ⟨_, _, hok⟩ := (bind_ok _ _ _).1 hok
    obtain ⟨nxt, hn, hok⟩ := (bind_ok _ _ _).1 hok
    obtain ⟨prev, hp, hok⟩ := (bind_ok _ _ _).1 hok
    split_ifs at hok with he
    cases hok
    rw [hp, he]
  have k1 := key _ b
  rw [← e] at b'
  have k2 := key _ b'
  rw [k1] at k2
  have := congrArg Prod.snd (Except.ok.inj k2)
  exact Prod.ext this e

theorem chain_of_isChain (z : Pt) (a : Seg) (l : List Seg) (h : (a :: l).IsChain fun h k => k.1 = h.2)
    (hz : ((a :: l).getLast (by simp)).2 = z) : chain a.1 (l.map Prod.fst ++ [z]) = a :: l := by
  induction l generalizing a with
  | nil =>
    simp only [List.getLast_singleton] at hz
    subst hz; rfl
  | cons b l ih =>
    rw [List.isChain_cons_cons] at h
    rw [List.map_cons, List.cons_append, chain_cons, ih b h.2 (by rw [← hz]; simp), h.1]

theorem nodup_sub_length {α : Type*} [DecidableEq α] {l m : List α} (h : l.Nodup) (hs : ∀ x ∈ l, x ∈ m) : l.length ≤ m.length :=
  (h.subperm hs).length_le

/-- The walk along a cell comes back to where it started. -/
theorem walk_ok {net : Net} (W : Wheel net) (T : Seg → Prop) (hT : ∀ e, T e → e ∈ net.halfEdges)
    (hcl : ∀ e k, T e → Nxt net.vertices e k → T k) (h0 : Seg) (fuel : ℕ) (prev cur : Pt) (init : List Seg)
    (todo : List Seg) (hhead : (init ++ [(prev, cur)]).head? = some h0) (hnd : (init ++ [(prev, cur)]).Nodup)
    (hch : (init ++ [(prev, cur)]).IsChain (Nxt net.vertices)) (hvT : ∀ e ∈ init ++ [(prev, cur)], T e)
    (htd : todo.Nodup) (htm : ∀ e, e ∈ todo ↔ T e ∧ e ∉ init ++ [(prev, cur)])
    (hfuel : net.halfEdges.length + 1 ≤ fuel + init.length + 1) :
    ∃ vis l todo', walk net.vertices h0 fuel prev cur ((init ++ [(prev, cur)]).map Prod.fst) todo =
        .ok ((vis ++ [l]).map Prod.fst, todo') ∧ (vis ++ [l]).head? = some h0 ∧ (vis ++ [l]).Nodup ∧
      (vis ++ [l]).IsChain (Nxt net.vertices) ∧ (∀ e ∈ vis ++ [l], T e) ∧ Nxt net.vertices l h0 ∧ todo'.Nodup ∧
      ∀ e, e ∈ todo' ↔ T e ∧ e ∉ vis ++ [l] := by
  induction fuel generalizing prev cur init todo with
  | zero =>
    have := nodup_sub_length hnd fun e he => hT e (hvT e he)
    rw [List.length_append, List.length_singleton] at this
    omega
  | succ fuel ih =>
    have hcT : T (prev, cur) := hvT _ (by simp)
    have hcH := hT _ hcT
    obtain ⟨nxt, hn, c1, c2, c3⟩ := nxt_exists W hcH
    have hah := hn.ahead W hcH
    obtain ⟨fan, hfan, hok⟩ := hn
    have hn : Nxt net.vertices (prev, cur) nxt := ⟨fan, hfan, hok⟩
    rw [walk, hfan]
    show ∃ vis l todo', (getNextCcw cur fan (cur, prev) >>= _) = _ ∧ _
    rw [show getNextCcw cur fan (cur, prev) = .ok nxt from hok]
    show ∃ vis l todo', (if nxt = h0 then _ else _) = _ ∧ _
    by_cases heq : nxt = h0
    · rw [if_pos heq]
      rw [heq] at c2 hn
      rw [ensure_pos c2.symm]
      exact ⟨init, (prev, cur), todo, rfl, hhead, hnd, hch, hvT, hn, htd, htm⟩
    · rw [if_neg heq]
      have hnT : T nxt := hcl _ _ hcT hn
      have hnew : nxt ∉ init ++ [(prev, cur)] := by
        intro hm
        -- the half-edge before `nxt` in the list is the current one
        obtain ⟨as, bs, hab⟩ := List.append_of_mem hm
        rcases List.eq_nil_or_concat as with rfl | ⟨as', y, rfl⟩
        · rw [hab] at hhead
          simp at hhead
          exact heq hhead
        · rw [List.concat_eq_append] at hab
          have hy : Nxt net.vertices y nxt := by
            rw [hab, List.append_assoc, List.isChain_append] at hch
            have h2 := hch.2.1
            rw [List.singleton_append, List.isChain_cons_cons] at h2
            exact h2.1
          have hym : y ∈ init ++ [(prev, cur)] := by rw [hab]; simp
          have e := Nxt.inj W (hT _ (hvT _ hym)) hcH hy hn
          have hl : (init ++ [(prev, cur)]).getLast? = some (prev, cur) := by simp
          rw [hab] at hnd hl
          rw [e] at hnd hl
          rw [List.getLast?_append] at hl
          have hm2 : (prev, cur) ∈ nxt :: bs := by
            cases hg : (nxt :: bs).getLast? with
            | none => simp at hg
            | some w =>
              rw [hg] at hl
              simp at hl
              rw [← hl]
              exact List.mem_of_getLast? hg
          rw [List.nodup_append] at hnd
          exact hnd.2.2 _ (by simp) _ hm2 rfl
      have hnt : nxt ∈ todo := (htm nxt).2 ⟨hnT, hnew⟩
      rw [ensure_pos hnt]
      show ∃ vis l todo', (ensure _ >>= _) = _ ∧ _
      rw [ensure_pos c2]
      show ∃ vis l todo', (ensure _ >>= _) = _ ∧ _
      rw [ensure_pos (show nxt.2 ≠ cur from fun h => W.planar.ne _ c1 (c2.trans h.symm))]
      show ∃ vis l todo', (ensure _ >>= _) = _ ∧ _
      rw [ensure_pos (show nxt.2 ≠ prev from hah)]
      show ∃ vis l todo', walk net.vertices h0 fuel cur nxt.2 _ _ = _ ∧ _
      have hnx : (cur, nxt.2) = nxt := Prod.ext c2.symm rfl
      have e1 : (init ++ [(prev, cur)]).map Prod.fst ++ [cur] = ((init ++ [(prev, cur)]) ++ [(cur, nxt.2)]).map Prod.fst := by
        simp
      rw [e1]
      refine ih cur nxt.2 (init ++ [(prev, cur)]) (todo.erase nxt) ?_ ?_ ?_ ?_ (htd.erase _) ?_ ?_
      · rw [List.head?_append, hhead]; rfl
      · rw [hnx, List.nodup_append]
        exact ⟨hnd, by simp, fun a ha b hb => by rw [List.mem_singleton] at hb; rintro rfl; exact hnew (hb ▸ ha)⟩
      · rw [hnx, List.isChain_append]
        refine ⟨hch, by simp, ?_⟩
        intro x hx y hy
        simp only [List.getLast?_append, List.getLast?_singleton, Option.some_or, Option.mem_def, Option.some.injEq] at hx
        simp only [List.head?_cons, Option.mem_def, Option.some.injEq] at hy
        rw [← hx, ← hy]; exact hn
      · rw [hnx]
        intro e he
        rw [List.mem_append, List.mem_singleton] at he
        rcases he with he | rfl
        · exact hvT e he
        · exact hnT
      · intro e
        rw [htd.mem_erase_iff, htm, hnx, List.mem_append (t := [nxt]), List.mem_singleton]
        tauto
      · simp only [List.length_append, List.length_singleton]
        omega

/-- A cell: the half-edges of a whole walk. -/
structure CellOK (net : Net) (c : List Pt) : Prop where
  ne : c ≠ []
  sub : ∀ e ∈ polyEdges c, e ∈ net.halfEdges
  nodup : (polyEdges c).Nodup
  closed : ∀ e ∈ polyEdges c, ∀ k, Nxt net.vertices e k → k ∈ polyEdges c
  back : ∀ k ∈ polyEdges c, ∀ e ∈ net.halfEdges, Nxt net.vertices e k → e ∈ polyEdges c
  chain : (polyEdges c).IsChain (Nxt net.vertices)
  linked : ∀ e ∈ polyEdges c, ∀ f ∈ polyEdges c, ∀ p q, Sees net.halfEdges e p → Sees net.halfEdges f q →
    SameFace net.halfEdges p q

theorem sees_some {H : List Seg} (hP : Planar H) {h : Seg} (hh : h ∈ H) : ∃ p, Sees H h p := by
  obtain ⟨l, r, ha⟩ := across_exists hP hh
  exact ⟨r, ha.sees⟩

theorem CellOK.opp {net : Net} (W : Wheel net) {c : List Pt} (h : CellOK net c) {e : Seg} (he : e ∈ polyEdges c) :
    (e.2, e.1) ∉ polyEdges c := by
  intro hc
  obtain ⟨p, hp⟩ := sees_some W.planar (h.sub e he)
  obtain ⟨q, hq⟩ := sees_some W.planar (h.sub _ hc)
  exact W.parts e (h.sub e he) p q hp hq (h.linked e he _ hc p q hp hq)

theorem CellOK.sides {net : Net} (W : Wheel net) {c : List Pt} (h : CellOK net c) :
    Sides c 0 (-1) ∨ Sides c 1 0 := by
  refine loop_sides W.planar h.sub h.nodup (fun e he => h.opp W he) h.ne ?_
  intro e he f hf
  obtain ⟨p, hp⟩ := sees_some W.planar (h.sub e he)
  obtain ⟨q, hq⟩ := sees_some W.planar (h.sub f hf)
  rw [sideOf_eq W.planar h.sub (h.sub e he) hp, sideOf_eq W.planar h.sub (h.sub f hf) hq]
  exact (h.linked e he f hf p q hp hq).winding h.sub

theorem Sides.shoelace_pos {L : List Pt} (h : Sides L 1 0) (hL : L ≠ []) : 0 < shoelace L := by
  obtain ⟨⟨p, p1, p2⟩, -⟩ := Ply.Sides.point h hL
  refine Ply.shoelace_pos (fun e he => h.planar.ne e (mem_bothWays.2 (Or.inl he))) (fun q hq => ?_) (p := p) ⟨p1, by rw [p2]; decide⟩
  rcases h.winding hL hq with e | e <;> rw [e]
  exact zero_le_one

theorem Sides.shoelace_neg {L : List Pt} (h : Sides L 0 (-1)) (hL : L ≠ []) : shoelace L < 0 := by
  have := Sides.shoelace_pos (L := L.reverse) (by simpa using h.reverse) (by simpa using hL)
  rw [shoelace_reverse] at this
  linarith

theorem shoelace_ne {L : List Pt} (h : Sides L 0 (-1) ∨ Sides L 1 0) (hL : L ≠ []) : shoelace L ≠ 0 := by
  rcases h with h | h
  · exact (Sides.shoelace_neg h hL).ne
  · exact (Sides.shoelace_pos h hL).ne'

theorem setCell_ok (hes : List Seg) (cell : List Pt) (es : List Seg) (hc : List (Seg × List Pt))
    (h1 : ∀ e ∈ es, e ∈ hes) (hnd : es.Nodup) (h2 : ∀ e ∈ es, e ∉ hc.map Prod.fst) :
    setCell hes cell es hc = .ok (hc ++ es.map fun e => (e, cell)) := by
  induction es generalizing hc with
  | nil => simp [setCell]
  | cons e es ih =>
    rw [setCell, if_pos (h1 e List.mem_cons_self)]
    rw [ensure_pos]
    · show setCell hes cell es _ = _
      rw [List.nodup_cons] at hnd
      rw [ih _ (fun x hx => h1 x (List.mem_cons_of_mem _ hx)) hnd.2]
      · simp
      · intro x hx
        rw [List.map_append, List.mem_append]
        rintro (h | h)
        · exact h2 x (List.mem_cons_of_mem _ hx) h
        · simp at h
          exact hnd.1 (h ▸ hx)
    · rw [List.all_eq_true]
      intro x hx
      refine decide_eq_true fun hxe => h2 e List.mem_cons_self ?_
      exact List.mem_map.2 ⟨x, hx, hxe⟩

theorem chain_linked {H : List Seg} (hP : Planar H) {R : Seg → Seg → Prop}
    (hR : ∀ h k, h ∈ H → R h k → k ∈ H ∧ ∃ p q, Sees H h p ∧ Sees H k q ∧ SameFace H p q) (a : Seg) (l : List Seg)
    (ha : a ∈ H) (h : (a :: l).IsChain R) : ∀ e ∈ a :: l, e ∈ H ∧ ∀ p q, Sees H a p → Sees H e q → SameFace H p q := by
  induction l generalizing a with
  | nil =>
    intro e he
    rw [List.mem_singleton] at he
    subst he
    exact ⟨ha, fun p q hp hq => sees_same hP ha hp hq⟩
  | cons b l ih =>
    rw [List.isChain_cons_cons] at h
    obtain ⟨hb, p0, q0, hp0, hq0, h0⟩ := hR a b ha h.1
    intro e he
    rcases List.mem_cons.1 he with rfl | he
    · exact ⟨ha, fun p q hp hq => sees_same hP ha hp hq⟩
    · obtain ⟨h1, h2⟩ := ih b hb h.2 e he
      exact ⟨h1, fun p q hp hq => (sees_same hP ha hp hp0).trans (h0.trans (h2 _ _ hq0 hq))⟩

/-- All cells are found. -/
theorem findCells_ok {ch : Choices} (hch : ch.Valid) {net : Net} (W : Wheel net) (n : ℕ) (todo : List Seg) (st : Cells)
    (hn : todo.length ≤ n) (htd : todo.Nodup) (ht : ∀ e ∈ todo, e ∈ net.halfEdges)
    (hcl : ∀ e k, e ∈ todo → Nxt net.vertices e k → k ∈ todo)
    (hst : ∀ e ∈ todo, e ∉ st.heCell.map Prod.fst)
    (hcs : ∀ c ∈ st.cells, CellOK net c.1 ∧ (c.2 = true ↔ 0 < shoelace c.1)) :
    ∃ st', findCells ch net n todo st = .ok st' ∧ ∀ c ∈ st'.cells, CellOK net c.1 ∧ (c.2 = true ↔ 0 < shoelace c.1) := by
  induction n generalizing todo st with
  | zero =>
    have : todo = [] := List.length_eq_zero_iff.1 (by omega)
    rw [findCells, if_pos this]
    exact ⟨st, rfl, hcs⟩
  | succ n ih =>
    rw [findCells]
    by_cases hz : todo = []
    · rw [if_pos hz]
      exact ⟨st, rfl, hcs⟩
    rw [if_neg hz]
    dsimp only
    have h0t : ch.pop todo ∈ todo := hch.pop todo hz
    set h0 := ch.pop todo with hh0
    obtain ⟨vis, l, todo', w1, w2, w3, w4, w5, w6, w7, w8⟩ := walk_ok W (fun e => e ∈ todo) ht hcl h0
      (net.halfEdges.length + 1) h0.1 h0.2 [] (todo.erase h0) rfl (by simp) (by simp)
      (by intro e he; simp at he; rw [he]; exact h0t) (htd.erase _)
      (by intro e; rw [htd.mem_erase_iff]; simp; tauto) (by simp)
    rw [show ([] ++ [(h0.1, h0.2)] : List Seg).map Prod.fst = [h0.1] from rfl] at w1
    rw [w1]
    obtain ⟨tl, hvis⟩ : ∃ tl, vis ++ [l] = h0 :: tl := by
      cases hv : vis ++ [l] with
      | nil => simp at hv
      | cons a tl =>
        rw [hv] at w2
        simp at w2
        exact ⟨tl, by rw [w2]⟩
    have hlast : ((h0 :: tl).getLast (by simp)) = l := by simp only [← hvis, List.getLast_concat]
    have hH : ∀ e ∈ vis ++ [l], e ∈ net.halfEdges := fun e he => ht e (w5 e he)
    have hedges : polyEdges ((vis ++ [l]).map Prod.fst) = vis ++ [l] := by
      rw [hvis, List.map_cons, polyEdges_cons]
      refine chain_of_isChain _ _ _ ?_ ?_
      · rw [← hvis]
        have : ∀ m : List Seg, (∀ e ∈ m, e ∈ net.halfEdges) → m.IsChain (Nxt net.vertices) →
            m.IsChain fun h k => k.1 = h.2 := by
          intro m
          induction m with
          | nil => simp
          | cons a m ihm =>
            cases m with
            | nil => simp
            | cons b m =>
              intro hm hc
              rw [List.isChain_cons_cons] at hc ⊢
              exact ⟨(hc.1.spec W (hm a List.mem_cons_self)).2.1, ihm (fun e he => hm e (List.mem_cons_of_mem _ he)) hc.2⟩
        exact this _ hH w4
      · rw [hlast]
        exact ((w6.spec W (hH l (by simp))).2.1).symm
    have hsucc : ∀ e ∈ vis ++ [l], ∃ k ∈ vis ++ [l], Nxt net.vertices e k := by
      intro e he
      obtain ⟨as, bs, hab⟩ := List.append_of_mem he
      cases bs with
      | nil =>
        have : e = l := by
          have := congrArg List.getLast? hab
          simp at this
          exact this.symm
        rw [this]
        exact ⟨h0, by rw [hvis]; exact List.mem_cons_self, w6⟩
      | cons b bs =>
        refine ⟨b, by rw [hab]; simp, ?_⟩
        rw [hab, List.isChain_append] at w4
        exact (List.isChain_cons_cons.1 w4.2.1).1
    have hpred : ∀ k ∈ vis ++ [l], ∃ e ∈ vis ++ [l], Nxt net.vertices e k := by
      intro k hk
      obtain ⟨as, bs, hab⟩ := List.append_of_mem hk
      rcases List.eq_nil_or_concat as with rfl | ⟨as', y, rfl⟩
      · have : k = h0 := by
          have := congrArg List.head? hab
          rw [hvis] at this
          simp at this
          exact this.symm
        rw [this]
        exact ⟨l, by simp, w6⟩
      · rw [List.concat_eq_append] at hab
        refine ⟨y, by rw [hab]; simp, ?_⟩
        rw [hab, List.append_assoc, List.isChain_append, List.singleton_append] at w4
        exact (List.isChain_cons_cons.1 w4.2.1).1
    have hlk := chain_linked W.planar (R := Nxt net.vertices) (fun h k hh hn => by
      obtain ⟨a, _, b⟩ := hn.spec W hh
      exact ⟨a, b⟩) h0 tl (ht _ h0t) (by rw [← hvis]; exact w4)
    have hC : CellOK net ((vis ++ [l]).map Prod.fst) := by
      refine ⟨by simp, ?_, ?_, ?_, ?_, by rw [hedges]; exact w4, ?_⟩
      · rw [hedges]; exact hH
      · rw [hedges]; exact w3
      · rw [hedges]
        intro e he k hk
        obtain ⟨k', a, b⟩ := hsucc e he
        rw [hk.unique b]; exact a
      · rw [hedges]
        intro k hk e he hn
        obtain ⟨e', a, b⟩ := hpred k hk
        rw [Nxt.inj W he (hH e' a) hn b]; exact a
      · rw [hedges, hvis]
        intro e he f hf p q hp hq
        obtain ⟨o, ho⟩ := sees_some W.planar (ht _ h0t)
        exact ((hlk e he).2 o p ho hp).symm.trans ((hlk f hf).2 o q ho hq)
    have hne := shoelace_ne (hC.sides W) hC.ne
    show ∃ st', ((simplePolygonArea _) >>= _) = _ ∧ _
    rw [area_eq_shoelace _ hC.ne]
    show ∃ st', (ensure _ >>= _) = _ ∧ _
    rw [ensure_pos (by simpa using hne)]
    show ∃ st', (setCell _ _ _ _ >>= _) = _ ∧ _
    rw [edgesIter_eq, hedges, setCell_ok _ _ _ _ hH w3 (fun e he => hst e (w5 e he))]
    show ∃ st', findCells ch net n todo' _ = _ ∧ _
    have hmem : ∀ e, e ∈ todo' → e ∈ todo ∧ e ∉ vis ++ [l] := fun e he => (w8 e).1 he
    refine ih todo' _ ?_ w7 (fun e he => ht e (hmem e he).1) ?_ ?_ ?_
    · have : (h0 :: todo').length ≤ todo.length := nodup_sub_length (List.nodup_cons.2 ⟨fun hc => (hmem h0 hc).2 (by
        rw [hvis]; exact List.mem_cons_self), w7⟩) (by
        intro x hx
        rcases List.mem_cons.1 hx with rfl | hx
        · exact h0t
        · exact (hmem x hx).1)
      rw [List.length_cons] at this
      omega
    · intro e k he hk
      refine (w8 k).2 ⟨hcl e k (hmem e he).1 hk, fun hkv => ?_⟩
      obtain ⟨e', he', hk'⟩ := hpred k hkv
      exact (hmem e he).2 (Nxt.inj W (ht e (hmem e he).1) (hH e' he') hk hk' ▸ he')
    · intro e he
      rw [List.map_append, List.mem_append]
      rintro (h | h)
      · exact hst e (hmem e he).1 h
      · rw [List.map_map] at h
        obtain ⟨x, hx, hxe⟩ := List.mem_map.1 h
        exact (hmem e he).2 (hxe ▸ hx)
    · intro c hc
      rcases List.mem_append.1 hc with hc | hc
      · exact hcs c hc
      · rw [List.mem_singleton] at hc
        subst hc
        refine ⟨hC, ?_⟩
        dsimp only
        rw [decide_eq_true_iff]
        constructor <;> intro h <;> linarith

end Ply.Arr
