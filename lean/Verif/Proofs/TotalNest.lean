import Verif.Proofs.TotalCells
import Verif.Proofs.Nest

/-!
# The cells of an arrangement are nested
-/

namespace Ply.Arr

open CellMerger Nest Finset

/-- The jump of the winding number from the right to the left of an edge. -/
theorem sideOf_jump {H : List Seg} (hP : Planar H) {L : List Pt} (hL : ∀ e ∈ polyEdges L, e ∈ H) {h : Seg} (hh : h ∈ H) :
    sideOf H L (h.2, h.1) - sideOf H L h = ((polyEdges L).count h : ℤ) - (polyEdges L).count (h.2, h.1) := by
  obtain ⟨l, r, hlr⟩ := across_exists hP hh
  rw [sideOf_eq hP hL hh hlr.sees, sideOf_eq hP hL (hP.rev h hh) hlr.rev.sees]
  obtain ⟨⟨t, s, t0, t1, s0, s1, hx⟩, a, c, o⟩ := hlr
  exact winding_jump L l r h t0 t1 hx a c fun k hk => o k (hL k hk)

/-- Neighbouring half-edges. -/
def Step (net : Net) (h k : Seg) : Prop :=
  h ∈ net.halfEdges ∧ k ∈ net.halfEdges ∧ (k = (h.2, h.1) ∨ Nxt net.vertices h k ∨ Nxt net.vertices k h)

theorem Step.symm {net : Net} {h k : Seg} (s : Step net h k) : Step net k h := by
  obtain ⟨a, b, c⟩ := s
  refine ⟨b, a, ?_⟩
  rcases c with rfl | c | c
  · exact Or.inl rfl
  · exact Or.inr (Or.inr c)
  · exact Or.inr (Or.inl c)

/-- Half-edges of the same connected part. -/
def Conn (net : Net) : Seg → Seg → Prop := Relation.ReflTransGen (Step net)

theorem Conn.symm {net : Net} {h k : Seg} (s : Conn net h k) : Conn net k h := by
  unfold Conn at *
  induction s with
  | refl => exact .refl
  | tail _ hs ih => exact .head hs.symm ih

theorem Conn.trans {net : Net} {h k l : Seg} (s : Conn net h k) (t : Conn net k l) : Conn net h l :=
  Relation.ReflTransGen.trans s t

theorem conn_rev {net : Net} (W : Wheel net) {h : Seg} (hh : h ∈ net.halfEdges) : Conn net h (h.2, h.1) :=
  .single ⟨hh, W.planar.rev h hh, Or.inl rfl⟩

/-- All half-edges of a cell are in the same part. -/
theorem CellOK.conn {net : Net} {c : List Pt} (h : CellOK net c) {e f : Seg} (he : e ∈ polyEdges c)
    (hf : f ∈ polyEdges c) : Conn net e f := by
  have key : ∀ (l : List Seg) (a : Seg), (∀ x ∈ a :: l, x ∈ net.halfEdges) → (a :: l).IsChain (Nxt net.vertices) →
      ∀ x ∈ a :: l, Conn net a x := by
    intro l
    induction l with
    | nil => intro a _ _ x hx; rw [List.mem_singleton] at hx; rw [hx]; exact .refl
    | cons b l ih =>
      intro a hm hc x hx
      rw [List.isChain_cons_cons] at hc
      rcases List.mem_cons.1 hx with rfl | hx
      · exact .refl
      · exact .head ⟨hm a List.mem_cons_self, hm b (by simp), Or.inr (Or.inl hc.1)⟩
          (ih b (fun y hy => hm y (List.mem_cons_of_mem _ hy)) hc.2 x hx)
  cases hp : polyEdges c with
  | nil => rw [hp] at he; cases he
  | cons a l =>
    have hs := h.sub
    have hch := h.chain
    rw [hp] at he hf hs hch
    exact (key l a hs hch e he).symm.trans (key l a hs hch f hf)

theorem CellOK.edge {net : Net} {c : List Pt} (h : CellOK net c) : ∃ e, e ∈ polyEdges c := by
  obtain ⟨v, hv⟩ := List.exists_mem_of_ne_nil c h.ne
  obtain ⟨e, he, _⟩ := polyEdges_fst hv
  exact ⟨e, he⟩

/-- The winding number of a cell on its own side. -/
theorem CellOK.side {net : Net} (W : Wheel net) {c : List Pt} (h : CellOK net c) {e : Seg} (he : e ∈ polyEdges c) :
    (shoelace c < 0 ∧ Sides c 0 (-1) ∧ sideOf net.halfEdges c e = -1) ∨
    (0 < shoelace c ∧ Sides c 1 0 ∧ sideOf net.halfEdges c e = 0) := by
  have key : ∀ a b : ℤ, Sides c a b → sideOf net.halfEdges c e = b := by
    intro a b hs
    obtain ⟨u, hu⟩ := right_exists (W.planar.ne e (h.sub e he))
    obtain ⟨ε, -, x1, x2⟩ := small_exists ((sees_small W.planar (h.sub e he) (s := 1 / 2) (by norm_num) (by norm_num) hu).and
      (hs.right e he (1 / 2) (by norm_num) (by norm_num) _ hu))
    rw [sideOf_eq W.planar h.sub (h.sub e he) x1, x2]
  rcases h.sides W with hs | hs
  · exact Or.inl ⟨Sides.shoelace_neg hs h.ne, hs, key _ _ hs⟩
  · exact Or.inr ⟨Sides.shoelace_pos hs h.ne, hs, key _ _ hs⟩

theorem sideOf_next {net : Net} (W : Wheel net) {c : List Pt} (h : CellOK net c) {k l : Seg} (hk : k ∈ net.halfEdges)
    (hn : Nxt net.vertices k l) : sideOf net.halfEdges c k = sideOf net.halfEdges c l := by
  obtain ⟨a, _, p, q, hp, hq, hs⟩ := hn.spec W hk
  rw [sideOf_eq W.planar h.sub hk hp, sideOf_eq W.planar h.sub a hq]
  exact hs.winding h.sub

theorem sideOf_rev {net : Net} (W : Wheel net) {c : List Pt} (h : CellOK net c) {k : Seg} (hk : k ∈ net.halfEdges)
    (h1 : k ∉ polyEdges c) (h2 : (k.2, k.1) ∉ polyEdges c) :
    sideOf net.halfEdges c (k.2, k.1) = sideOf net.halfEdges c k := by
  have := sideOf_jump W.planar h.sub hk
  rw [List.count_eq_zero_of_not_mem h1, List.count_eq_zero_of_not_mem h2] at this
  linarith

theorem sideOf_rev' {net : Net} (W : Wheel net) {c : List Pt} (h : CellOK net c) {k : Seg}
    (h1 : k ∈ polyEdges c) : sideOf net.halfEdges c (k.2, k.1) = sideOf net.halfEdges c k + 1 := by
  have := sideOf_jump W.planar h.sub (h.sub k h1)
  rw [List.count_eq_one_of_mem h.nodup h1, List.count_eq_zero_of_not_mem (h.opp W h1)] at this
  push_cast at this
  linarith

/-- In the connected part of a cell, every other half-edge is on the other side of it. -/
theorem side_same {net : Net} (W : Wheel net) {c : List Pt} (h : CellOK net c) {e k : Seg} (he : e ∈ polyEdges c)
    (hk : Conn net e k) : k ∈ polyEdges c ∨ sideOf net.halfEdges c k = sideOf net.halfEdges c e + 1 := by
  have hconst : ∀ f ∈ polyEdges c, sideOf net.halfEdges c f = sideOf net.halfEdges c e := by
    intro f hf
    rcases h.side W he with ⟨a, _, b⟩ | ⟨a, _, b⟩ <;> rcases h.side W hf with ⟨a', _, b'⟩ | ⟨a', _, b'⟩
    · rw [b, b']
    · linarith
    · linarith
    · rw [b, b']
  unfold Conn at hk
  induction hk with
  | refl => exact Or.inl he
  | @tail k l _ hs ih =>
    obtain ⟨h1, h2, h3⟩ := hs
    rcases h3 with rfl | h3 | h3
    · by_cases hkc : k ∈ polyEdges c
      · right
        rw [sideOf_rev' W h hkc, hconst k hkc]
      · by_cases hkr : (k.2, k.1) ∈ polyEdges c
        · exact Or.inl hkr
        · right
          rw [sideOf_rev W h h1 hkc hkr]
          exact ih.resolve_left hkc
    · rcases ih with ih | ih
      · exact Or.inl (h.closed _ ih _ h3)
      · exact Or.inr (by rw [← sideOf_next W h h1 h3]; exact ih)
    · rcases ih with ih | ih
      · exact Or.inl (h.back _ ih _ h2 h3)
      · exact Or.inr (by rw [sideOf_next W h h2 h3]; exact ih)

/-- In the other connected parts, all half-edges are on the same side of a cell. -/
theorem side_other {net : Net} (W : Wheel net) {c : List Pt} (h : CellOK net c) {e : Seg} (he : e ∈ polyEdges c) {k l : Seg}
    (hk : ¬ Conn net e k) (hkl : Conn net k l) : sideOf net.halfEdges c k = sideOf net.halfEdges c l := by
  unfold Conn at hkl
  induction hkl with
  | refl => rfl
  | @tail l m hs' hs ih =>
    have hno : ∀ f ∈ polyEdges c, Conn net k f → False := fun f hf hc => hk ((h.conn he hf).trans hc.symm)
    have hl : Conn net k l := hs'
    have hm : Conn net k m := Relation.ReflTransGen.tail hs' hs
    rw [ih]
    obtain ⟨h1, h2, h3⟩ := hs
    rcases h3 with rfl | h3 | h3
    · exact (sideOf_rev W h h1 (fun hc => hno _ hc hl) (fun hc => hno _ hc hm)).symm
    · exact sideOf_next W h h1 h3
    · exact (sideOf_next W h h2 h3).symm

/-- The cells of a net. -/
structure Tiling (net : Net) (cells : List (List Pt)) : Prop where
  ok : ∀ c ∈ cells, CellOK net c
  uniq : ∀ a ∈ cells, ∀ b ∈ cells, ∀ e, e ∈ polyEdges a → e ∈ polyEdges b → a = b
  cover : ∀ h ∈ net.halfEdges, ∃ c ∈ cells, h ∈ polyEdges c

open Classical in
/-- The winding number of `a` just inside `b`. -/
noncomputable def cellW (net : Net) (a b : List Pt) : ℤ :=
  if h : ∃ e, e ∈ polyEdges b then sideOf net.halfEdges a h.choose else 0

def cellConn (net : Net) (a b : List Pt) : Prop := ∃ e ∈ polyEdges a, ∃ f ∈ polyEdges b, Conn net e f

def cellPos (c : List Pt) : Prop := shoelace c < 0

theorem cellW_eq {net : Net} (W : Wheel net) {a b : List Pt} (ha : CellOK net a) (hb : CellOK net b) {e : Seg}
    (he : e ∈ polyEdges b) : cellW net a b = sideOf net.halfEdges a e := by
  have hex : ∃ e, e ∈ polyEdges b := ⟨e, he⟩
  unfold cellW
  rw [dif_pos hex]
  obtain ⟨p, hp⟩ := sees_some W.planar (hb.sub _ hex.choose_spec)
  obtain ⟨q, hq⟩ := sees_some W.planar (hb.sub _ he)
  rw [sideOf_eq W.planar ha.sub (hb.sub _ hex.choose_spec) hp, sideOf_eq W.planar ha.sub (hb.sub _ he) hq]
  exact (hb.linked _ hex.choose_spec _ he p q hp hq).winding ha.sub

theorem cellW_point {net : Net} (W : Wheel net) {a b : List Pt} (ha : CellOK net a) (hb : CellOK net b) {e : Seg}
    (he : e ∈ polyEdges b) {p : Pt} (hp : Sees net.halfEdges e p) : cellW net a b = windingNumber a p := by
  rw [cellW_eq W ha hb he, sideOf_eq W.planar ha.sub (hb.sub e he) hp]

open Classical in
/-- The winding numbers of the cells that satisfy a condition, which holds with an edge for its reverse, too, add up to zero. -/
theorem sum_zero {net : Net} (W : Wheel net) {cells : List (List Pt)} (T : Tiling net cells) (Q : Seg → Prop)
    (P : List Pt → Prop) (hPQ : ∀ c ∈ cells, ∀ e ∈ polyEdges c, P c ↔ Q e)
    (hQ : ∀ h ∈ net.halfEdges, Q h → Q (h.2, h.1)) (p : Pt) :
    ∑ a ∈ cells.toFinset with P a, windingNumber a p = 0 := by
  have h1 : ∀ a ∈ cells.toFinset.filter P, windingNumber a p =
      ∑ e ∈ net.halfEdges.toFinset, if e ∈ polyEdges a then crossing p e.1 e.2 else 0 := by
    intro a ha
    have hc := T.ok a (List.mem_toFinset.1 (mem_filter.1 ha).1)
    unfold windingNumber
    rw [← List.sum_toFinset _ hc.nodup, Finset.sum_ite, Finset.sum_const_zero, add_zero]
    refine Finset.sum_congr ?_ fun _ _ => rfl
    ext e
    rw [mem_filter, List.mem_toFinset, List.mem_toFinset]
    exact ⟨fun h => ⟨hc.sub e h, h⟩, fun h => h.2⟩
  rw [Finset.sum_congr rfl h1, Finset.sum_comm]
  have h2 : ∀ e ∈ net.halfEdges.toFinset, (∑ a ∈ cells.toFinset with P a, if e ∈ polyEdges a then crossing p e.1 e.2 else 0) =
      if Q e then crossing p e.1 e.2 else 0 := by
    intro e he
    obtain ⟨c, hc, hec⟩ := T.cover e (List.mem_toFinset.1 he)
    by_cases hq : Q e
    · rw [if_pos hq, Finset.sum_eq_single c]
      · rw [if_pos hec]
      · intro b hb hbc
        rw [if_neg]
        exact fun h => hbc (T.uniq b (List.mem_toFinset.1 (mem_filter.1 hb).1) c hc e h hec)
      · intro h
        exact absurd (mem_filter.2 ⟨List.mem_toFinset.2 hc, (hPQ c hc e hec).2 hq⟩) h
    · rw [if_neg hq]
      refine Finset.sum_eq_zero fun b hb => if_neg fun h => hq ?_
      obtain ⟨b1, b2⟩ := mem_filter.1 hb
      exact (hPQ b (List.mem_toFinset.1 b1) e h).1 b2
  rw [Finset.sum_congr rfl h2]
  refine Finset.sum_involution (fun e _ => (e.2, e.1)) ?_ ?_ ?_ ?_
  · intro e he
    have he := List.mem_toFinset.1 he
    by_cases hq : Q e
    · rw [if_pos hq, if_pos (hQ e he hq), crossing_swap]; ring
    · have : ¬ Q (e.2, e.1) := fun h => hq (hQ (e.2, e.1) (W.planar.rev e he) h)
      rw [if_neg hq, if_neg this]; rfl
  · intro e he _ hc
    exact W.planar.ne e (List.mem_toFinset.1 he) (congrArg Prod.fst hc).symm
  · intro e he
    exact List.mem_toFinset.2 (W.planar.rev e (List.mem_toFinset.1 he))
  · intro e _; rfl

theorem escape {net : Net} (W : Wheel net) {a b : List Pt} (ha : CellOK net a) (hb : CellOK net b) (f : ℤ → ℤ → Prop) {p : Pt}
    (hp : ¬ OnAny net.halfEdges p) (h1 : f (windingNumber a p) (windingNumber b p)) (h0 : ¬ f 0 0) :
    ∃ h ∈ net.halfEdges, f (sideOf net.halfEdges a h) (sideOf net.halfEdges b h) ∧
      ¬ f (sideOf net.halfEdges a (h.2, h.1)) (sideOf net.halfEdges b (h.2, h.1)) := by
  by_contra hc
  push Not at hc
  obtain ⟨M, -, hM⟩ := far_bound [] [a, b]
  have := far_const W.planar (fun q => f (windingNumber a q) (windingNumber b q)) (b := f 0 0) ?_ ?_ M ?_ hp
  · exact h0 (this ▸ h1)
  · intro p q hpq
    have hs := same_of_segment hpq
    rw [hs.winding ha.sub, hs.winding hb.sub]
  · intro h hh l r hlr
    have e1 := hc h hh
    have e2 := hc (h.2, h.1) (W.planar.rev h hh)
    rw [sideOf_eq W.planar ha.sub hh hlr.sees, sideOf_eq W.planar hb.sub hh hlr.sees,
      sideOf_eq W.planar ha.sub (W.planar.rev h hh) hlr.rev.sees, sideOf_eq W.planar hb.sub (W.planar.rev h hh) hlr.rev.sees] at e1
    have e3 : sideOf net.halfEdges a ((h.2, h.1).2, (h.2, h.1).1) = sideOf net.halfEdges a h := rfl
    have e4 : sideOf net.halfEdges b ((h.2, h.1).2, (h.2, h.1).1) = sideOf net.halfEdges b h := rfl
    rw [e3, e4, sideOf_eq W.planar ha.sub hh hlr.sees, sideOf_eq W.planar hb.sub hh hlr.sees,
      sideOf_eq W.planar ha.sub (W.planar.rev h hh) hlr.rev.sees, sideOf_eq W.planar hb.sub (W.planar.rev h hh) hlr.rev.sees] at e2
    exact propext ⟨e2, e1⟩
  · intro q hq
    rw [winding_far a q fun v hv => (hM a (by simp) v hv).trans hq,
      winding_far b q fun v hv => (hM b (by simp) v hv).trans hq]

open Classical in
theorem nested {net : Net} (W : Wheel net) {cells : List (List Pt)} (T : Tiling net cells) :
    Nested cells.toFinset (cellW net) (cellConn net) cellPos := by
  have ok : ∀ c ∈ cells.toFinset, CellOK net c := fun c hc => T.ok c (List.mem_toFinset.1 hc)
  have hconn : ∀ a ∈ cells.toFinset, ∀ b ∈ cells.toFinset, ∀ e ∈ polyEdges a, ∀ f ∈ polyEdges b,
      cellConn net a b ↔ Conn net e f := by
    intro a ha b hb e he f hf
    constructor
    · rintro ⟨e', he', f', hf', h⟩
      exact ((ok a ha).conn he he').trans (h.trans ((ok b hb).conn hf' hf))
    · exact fun h => ⟨e, he, f, hf, h⟩
  refine ⟨?_, ?_, ?_, ?_, ?_, ?_, ?_, ?_, ?_, ?_⟩
  · intro a ha
    obtain ⟨e, he⟩ := (ok a ha).edge
    exact ⟨e, he, e, he, .refl⟩
  · rintro a ha b hb ⟨e, he, f, hf, h⟩
    exact ⟨f, hf, e, he, h.symm⟩
  · rintro a ha b hb c hc ⟨e, he, f, hf, h⟩ ⟨f', hf', g, hg, h'⟩
    exact ⟨e, he, g, hg, h.trans (((ok b hb).conn hf hf').trans h')⟩
  · intro a ha
    obtain ⟨e, he⟩ := (ok a ha).edge
    rw [cellW_eq W (ok a ha) (ok a ha) he]
    unfold cellPos
    rcases (ok a ha).side W he with ⟨h1, _, h2⟩ | ⟨h1, _, h2⟩
    · rw [if_pos h1, h2]
    · rw [if_neg (not_lt.2 h1.le), h2]
  · intro a ha b hb
    obtain ⟨e, he⟩ := (ok a ha).edge
    obtain ⟨f, hf⟩ := (ok b hb).edge
    obtain ⟨p, hp⟩ := sees_some W.planar ((ok b hb).sub f hf)
    have hoff : ¬ OnBoundary a p := by
      rintro ⟨k, hk, hx⟩
      exact hp.off ⟨k, (ok a ha).sub k hk, hx⟩
    rw [cellW_point W (ok a ha) (ok b hb) hf hp, cellW_eq W (ok a ha) (ok a ha) he]
    rcases (ok a ha).side W he with ⟨_, h1, h2⟩ | ⟨_, h1, h2⟩ <;> rw [h2] <;>
      rcases h1.winding (ok a ha).ne hoff with e | e <;> rw [e] <;> simp
  · intro a ha b hb hab hne
    obtain ⟨e, he⟩ := (ok a ha).edge
    obtain ⟨f, hf⟩ := (ok b hb).edge
    rw [cellW_eq W (ok a ha) (ok b hb) hf, cellW_eq W (ok a ha) (ok a ha) he]
    refine (side_same W (ok a ha) he ((hconn a ha b hb e he f hf).1 hab)).resolve_left fun h => hne ?_
    exact T.uniq a (List.mem_toFinset.1 ha) b (List.mem_toFinset.1 hb) f h hf
  · intro a ha b hb c hc hab hbc
    obtain ⟨e, he⟩ := (ok a ha).edge
    obtain ⟨f, hf⟩ := (ok b hb).edge
    obtain ⟨g, hg⟩ := (ok c hc).edge
    rw [cellW_eq W (ok a ha) (ok b hb) hf, cellW_eq W (ok a ha) (ok c hc) hg]
    exact side_other W (ok a ha) he (fun h => hab ((hconn a ha b hb e he f hf).2 h)) ((hconn b hb c hc f hf g hg).1 hbc)
  · intro b hb c hc
    obtain ⟨f, hf⟩ := (ok b hb).edge
    obtain ⟨g, hg⟩ := (ok c hc).edge
    obtain ⟨p, hp⟩ := sees_some W.planar ((ok b hb).sub f hf)
    rw [Finset.sum_congr rfl fun a ha => cellW_point W (ok a (mem_filter.1 ha).1) (ok b hb) hf hp]
    refine sum_zero W T (fun e => Conn net g e) _ ?_ ?_ p
    · intro a ha e he
      exact hconn c hc a (List.mem_toFinset.2 ha) g hg e he
    · intro h hh hq
      exact hq.trans (conn_rev W hh)
  · intro b hb
    obtain ⟨f, hf⟩ := (ok b hb).edge
    obtain ⟨p, hp⟩ := sees_some W.planar ((ok b hb).sub f hf)
    rw [Finset.sum_congr rfl fun a ha => cellW_point W (ok a ha) (ok b hb) hf hp]
    have := sum_zero W T (fun _ => True) (fun _ => True) (fun _ _ _ _ => Iff.rfl) (fun _ _ _ => trivial) p
    simpa using this
  · intro a ha a' ha' b hb f hf h0
    obtain ⟨k, hk⟩ := (ok b hb).edge
    obtain ⟨p, hp⟩ := sees_some W.planar ((ok b hb).sub k hk)
    rw [cellW_point W (ok a ha) (ok b hb) hk hp, cellW_point W (ok a' ha') (ok b hb) hk hp] at hf
    obtain ⟨h, hh, f1, f2⟩ := escape W (ok a ha) (ok a' ha') f hp.off hf h0
    obtain ⟨b1, m1, e1⟩ := T.cover h hh
    obtain ⟨b2, m2, e2⟩ := T.cover _ (W.planar.rev h hh)
    have m1' := List.mem_toFinset.2 m1
    have m2' := List.mem_toFinset.2 m2
    refine ⟨b1, m1', b2, m2', ⟨h, e1, _, e2, conn_rev W hh⟩, ?_, ?_⟩
    · rw [cellW_eq W (ok a ha) (ok b1 m1') e1, cellW_eq W (ok a' ha') (ok b1 m1') e1]; exact f1
    · rw [cellW_eq W (ok a ha) (ok b2 m2') e2, cellW_eq W (ok a' ha') (ok b2 m2') e2]; exact f2

end Ply.Arr
