import Verif.Props.Laws
import Verif.Props.Mono
import Verif.Props.BuildTotal

/-!
# The order of sets

The 2D operations go through sets in some order and the geoms they give depend on it.  What a build decides does not:
the fresh builds made with two orders have the same allowed stretches and areas that agree at every point, and the steps
that neither grow areas nor take them apart into polygons keep it so.
-/

namespace Ply

open Arr

/-! ### Results that correspond -/

/-- If both have a result, then the results are related. -/
def Sim {α β : Type} (R : α → β → Prop) (x : Except PyErr α) (y : Except PyErr β) : Prop :=
  ∀ a b, x = .ok a → y = .ok b → R a b

namespace Sim

variable {α β γ δ : Type}

theorem ok {R : α → β → Prop} {a : α} {b : β} (h : R a b) : Sim R (.ok a) (.ok b) := by
  rintro _ _ ⟨⟩ ⟨⟩
  exact h

theorem error {R : α → β → Prop} {e : PyErr} {y : Except PyErr β} : Sim R (.error e) y := nofun

theorem rfl' {x : Except PyErr α} : Sim Eq x x := by
  intro a b ha hb
  rw [ha] at hb
  exact Except.ok.inj hb

theorem bind {R : α → β → Prop} {S : γ → δ → Prop} {x : Except PyErr α} {y : Except PyErr β} {f : α → Except PyErr γ}
    {g : β → Except PyErr δ} (h : Sim R x y) (hf : ∀ a b, R a b → Sim S (f a) (g b)) : Sim S (x >>= f) (y >>= g) := by
  intro c d hc hd
  obtain ⟨a, ha, hc⟩ := (bind_ok _ _ _).1 hc
  obtain ⟨b, hb, hd⟩ := (bind_ok _ _ _).1 hd
  exact hf a b (h a b ha hb) c d hc hd

/-- The same first step. -/
theorem bind_eq {S : γ → δ → Prop} {x : Except PyErr α} {f : α → Except PyErr γ}
    {g : α → Except PyErr δ} (hf : ∀ a, Sim S (f a) (g a)) : Sim S (x >>= f) (x >>= g) :=
  bind rfl' fun a _ h => h ▸ hf a

end Sim

/-- Maps with the same keys and related values. -/
def MapSim {κ α β : Type} (R : α → β → Prop) (m : PMap κ α) (m' : PMap κ β) : Prop :=
  List.Forall₂ (fun x y => x.1 = y.1 ∧ R x.2 y.2) m m'

namespace MapSim

variable {κ α β : Type} [DecidableEq κ] {R : α → β → Prop} {m : PMap κ α} {m' : PMap κ β}

theorem get (h : MapSim R m m') (k : κ) : Sim R (m.get k) (m'.get k) := by
  induction h with
  | nil => exact Sim.error
  | @cons x y l l' hx _ ih =>
    obtain ⟨k1, v⟩ := x
    obtain ⟨k2, w⟩ := y
    obtain ⟨rfl, hv⟩ := hx
    unfold PMap.get
    split_ifs
    · exact Sim.ok hv
    · exact ih

theorem get? (h : MapSim R m m') (k : κ) : (m.get? k = none ∧ m'.get? k = none) ∨
    ∃ a b, m.get? k = some a ∧ m'.get? k = some b ∧ R a b := by
  induction h with
  | nil => exact Or.inl ⟨rfl, rfl⟩
  | @cons x y l l' hx _ ih =>
    obtain ⟨k1, v⟩ := x
    obtain ⟨k2, w⟩ := y
    obtain ⟨rfl, hv⟩ := hx
    unfold PMap.get?
    dsimp only
    split_ifs
    · exact Or.inr ⟨_, _, rfl, rfl, hv⟩
    · exact ih

theorem set (h : MapSim R m m') (k : κ) {a : α} {b : β} (hab : R a b) : MapSim R (m.set k a) (m'.set k b) := by
  induction h with
  | nil => exact .cons ⟨rfl, hab⟩ .nil
  | @cons x y l l' hx hl ih =>
    obtain ⟨k1, v⟩ := x
    obtain ⟨k2, w⟩ := y
    obtain ⟨rfl, hv⟩ := hx
    unfold PMap.set
    dsimp only
    split_ifs
    · exact .cons ⟨rfl, hab⟩ hl
    · exact .cons ⟨rfl, hv⟩ ih

end MapSim

/-- Operations on areas that correspond, as far as they neither grow areas nor take them apart. -/
structure OpsSim {G : Type} (R : G → G → Prop) (o o' : G2Ops G) : Prop where
  empty : R o.empty o'.empty
  isEmpty : ∀ a b, R a b → o.isEmpty a = o'.isEmpty b
  or : ∀ a b c d, R a b → R c d → Sim R (o.or a c) (o'.or b d)
  and : ∀ a b c d, R a b → R c d → Sim R (o.and a c) (o'.and b d)
  sub : ∀ a b c d, R a b → R c d → Sim R (o.sub a c) (o'.sub b d)
  area : ∀ a b, R a b → Sim Eq (o.area a) (o'.area b)
  fingers : ∀ s v, Sim R (o.fingers s v) (o'.fingers s v)
  project : ∀ s a b, R a b → Sim Eq (o.project s a) (o'.project s b)

/-- Builds that correspond. -/
structure SbSim {G : Type} (R : G → G → Prop) (sb sb' : SheetBuild G) : Prop where
  sheetplex : sb.sheetplex = sb'.sheetplex
  sheetChosen : MapSim R sb.sheetChosen sb'.sheetChosen
  sheetOk : MapSim R sb.sheetOk sb'.sheetOk
  interChosen : sb.interChosen = sb'.interChosen
  interOk : sb.interOk = sb'.interOk

namespace Heu

open SheetBuild

variable {G : Type} {R : G → G → Prop} {o o' : G2Ops G} (el : ℕ → Bool)

theorem sim_mapOp {κ : Type} [DecidableEq κ] {f g : G → G → Except PyErr G}
    (h : ∀ a b c d, R a b → R c d → Sim R (f a c) (g b d)) {m m' : PMap κ G} (hm : MapSim R m m') (k : κ) {x y : G}
    (hxy : R x y) : Sim (MapSim R) (mapOpGeom f m k x) (mapOpGeom g m' k y) := by
  unfold mapOpGeom
  rcases hm.get? k with ⟨e1, e2⟩ | ⟨a, b, e1, e2, hab⟩
  · rw [e1, e2]; exact Sim.error
  · rw [e1, e2]
    exact (h a b x y hab hxy).bind fun r r' hr => Sim.ok (hm.set k hr)

theorem sim_mapOr {κ : Type} [DecidableEq κ] {f g : G → G → Except PyErr G}
    (h : ∀ a b c d, R a b → R c d → Sim R (f a c) (g b d)) {e e' : G} (he : R e e') {m m' : PMap κ G} (hm : MapSim R m m')
    (k : κ) {x y : G} (hxy : R x y) : Sim (MapSim R) (mapOrGeom f (.ok e) m k x) (mapOrGeom g (.ok e') m' k y) := by
  unfold mapOrGeom
  rcases hm.get? k with ⟨e1, e2⟩ | ⟨a, b, e1, e2, hab⟩
  · rw [e1, e2]
    exact (Sim.ok he).bind fun a b hab => (h a b x y hab hxy).bind fun r r' hr => Sim.ok (hm.set k hr)
  · rw [e1, e2]
    exact (Sim.ok hab).bind fun a b hab => (h a b x y hab hxy).bind fun r r' hr => Sim.ok (hm.set k hr)

theorem sim_dict {κ α β : Type} {S : β → β → Prop} (key : α → κ) {f g : α → Except PyErr β} {l : List α}
    (h : ∀ a ∈ l, Sim S (f a) (g a)) : Sim (MapSim S) (dictOf key f l) (dictOf key g l) := by
  induction l with
  | nil => exact Sim.ok .nil
  | cons a l ih =>
    unfold dictOf
    exact (h a (List.mem_cons_self ..)).bind fun v w hv => (ih fun b hb => h b (List.mem_cons_of_mem _ hb)).bind
      fun t t' ht => Sim.ok (.cons ⟨rfl, hv⟩ ht)

theorem mapSim_eq {κ β : Type} {m m' : PMap κ β} (h : MapSim Eq m m') : m = m' := by
  induction h with
  | nil => rfl
  | cons h _ ih => rw [ih, Prod.ext h.1 h.2]

theorem sim_dict_eq {κ α β : Type} (key : α → κ) {f g : α → Except PyErr β} {l : List α}
    (h : ∀ a ∈ l, Sim Eq (f a) (g a)) : Sim Eq (dictOf key f l) (dictOf key g l) := fun a b ha hb =>
  mapSim_eq (sim_dict key h a b ha hb)

theorem sim_fold {α : Type} {f g : SheetBuild G → α → Except PyErr (SheetBuild G)}
    (h : ∀ sb sb' a, SbSim R sb sb' → Sim (SbSim R) (f sb a) (g sb' a)) (l : List α) :
    ∀ sb sb', SbSim R sb sb' → Sim (SbSim R) (fold f sb l) (fold g sb' l) := by
  induction l with
  | nil => exact fun _ _ hs => Sim.ok hs
  | cons a l ih =>
    intro sb sb' hs
    unfold fold
    exact (h sb sb' a hs).bind fun x y hxy => ih x y hxy

section

variable (h : OpsSim R o o') {sb sb' : SheetBuild G} (hs : SbSim R sb sb')
include h hs

omit h in
theorem sim_unchoose (id : Name × Name) (v : Geom1D) :
    Sim (SbSim R) (unchooseInterside sb id v) (unchooseInterside sb' id v) := by
  unfold unchooseInterside
  rw [hs.interChosen, hs.interOk, hs.sheetplex]
  refine Sim.bind_eq fun ch => Sim.bind_eq fun both => ?_
  split
  · refine Sim.bind_eq fun inter => Sim.bind_eq fun ok => Sim.ok ?_
    exact ⟨rfl, hs.sheetChosen, hs.sheetOk, rfl, rfl⟩
  · exact Sim.error

theorem sim_unchooseArea (n : Name) {a b : G} (hab : R a b) :
    Sim (SbSim R) (unchooseSheetArea o sb n a) (unchooseSheetArea o' sb' n b) := by
  unfold unchooseSheetArea
  refine (hs.sheetChosen.get n).bind fun c c' hc => (h.and _ _ _ _ hc hab).bind fun d d' hd =>
    (h.area _ _ hd).bind fun x y hxy => ?_
  subst hxy
  refine Sim.bind_eq fun _ => (sim_mapOp h.sub hs.sheetOk n hab).bind fun m m' hm => Sim.ok ?_
  exact ⟨hs.sheetplex, hs.sheetChosen, hm, hs.interChosen, hs.interOk⟩

theorem sim_choose (id : Name × Name) (v : Geom1D) (t : Bool) :
    Sim (SbSim R) (chooseInterside o sb id v t) (chooseInterside o' sb' id v t) := by
  unfold chooseInterside
  rw [hs.interChosen, hs.interOk, hs.sheetplex]
  refine Sim.bind_eq fun _ => Sim.bind_eq fun _ => Sim.bind_eq fun _ => Sim.bind_eq fun _ => Sim.bind_eq fun inter =>
    Sim.bind_eq fun opp => (h.fingers opp v).bind fun f f' hf => (hs.sheetChosen.get _).bind fun c c' hc =>
    (h.and _ _ _ _ hf hc).bind fun d d' hd => (h.area _ _ hd).bind fun x y hxy => ?_
  subst hxy
  refine Sim.bind_eq fun _ => Sim.bind (R := MapSim R) ?_ fun m m' hm => (h.fingers opp v).bind fun f2 f2' hf2 =>
    (sim_mapOp h.sub hs.sheetOk _ hf2).bind fun k k' hk => Sim.bind_eq fun _ => Sim.bind_eq fun _ => Sim.ok ?_
  · split
    · exact Sim.ok hs.sheetChosen
    · exact (h.fingers inter v).bind fun e e' he => (hs.sheetOk.get _).bind fun k k' hk =>
        (h.and _ _ _ _ he hk).bind fun u u' hu => sim_mapOr h.or h.empty hs.sheetChosen _ hu
  · exact ⟨rfl, hm, hk, rfl, rfl⟩

theorem sim_interOkAt (s : InterSide) : Sim (SbSim R) (interOkAt o sb s) (interOkAt o' sb' s) := by
  unfold interOkAt
  rw [hs.interOk]
  refine Sim.bind_eq fun _ => Sim.bind_eq fun wide => (h.fingers s wide).bind fun f f' hf => (hs.sheetOk.get _).bind
    fun k k' hk => (h.and _ _ _ _ hf hk).bind fun m m' hm => (h.project s _ _ hf).bind fun p p' hp =>
    (h.project s _ _ hm).bind fun q q' hq => ?_
  subst hp hq
  refine Sim.bind_eq fun _ => Sim.bind_eq fun _ => Sim.bind_eq fun _ => Sim.ok ?_
  exact ⟨hs.sheetplex, hs.sheetChosen, hs.sheetOk, hs.interChosen, rfl⟩

theorem sim_find : Sim Eq (findInteractions o sb) (findInteractions o' sb') := by
  have h1 : ∀ i f f', R f f' → ∀ l m, Sim Eq (findInner o sb i f l m) (findInner o' sb' i f' l m) :=
    fun i f f' hf l => by
    induction l with
    | nil => exact fun _ => Sim.ok rfl
    | cons j l ih =>
      intro m
      unfold findInner
      rw [hs.interOk]
      refine Sim.bind_eq fun v => (h.fingers j v).bind fun g g' hg => (h.and _ _ _ _ hf hg).bind fun d d' hd => ?_
      rw [h.isEmpty _ _ hd]
      split
      · exact ih m
      · refine (h.project i _ _ hd).bind fun p p' hp => (h.project j _ _ hd).bind fun q q' hq => ?_
        subst hp hq
        exact ih _
  have h2 : ∀ l m, Sim Eq (findSheet o sb l m) (findSheet o' sb' l m) := fun l => by
    induction l with
    | nil => exact fun _ => Sim.ok rfl
    | cons a l ih =>
      intro m
      unfold findSheet
      rw [hs.interOk]
      refine Sim.bind_eq fun v => (h.fingers a v).bind fun g g' hg => (h1 a g g' hg l m).bind fun x y hxy => ?_
      subst hxy
      exact ih _
  have h3 : ∀ l m, Sim Eq (findSheets o sb l m) (findSheets o' sb' l m) := fun l => by
    induction l with
    | nil => exact fun _ => Sim.ok rfl
    | cons a l ih =>
      intro m
      unfold findSheets
      rw [hs.sheetplex]
      refine (h2 _ m).bind fun x y hxy => ?_
      subst hxy
      exact ih _
  unfold findInteractions
  rw [hs.sheetplex]
  exact h3 _ _

omit h hs in
/-- A check has no result. -/
theorem sim_checkAt {sb sb' : SheetBuild G} (t : ℕ) : Sim Eq (checkAt o el t sb) (checkAt o' el t sb') := fun _ _ _ _ => rfl

theorem sim_interOk : Sim (SbSim R) (updateInterOk o el sb) (updateInterOk o' el sb') := by
  unfold updateInterOk
  rw [hs.sheetplex]
  exact (sim_checkAt el 0).bind fun _ _ _ => sim_fold (fun _ _ s hs => sim_interOkAt h hs s) _ _ _ hs

theorem sim_okSide : Sim (SbSim R) (chooseOkSide o el sb) (chooseOkSide o' el sb') := by
  have h1 : ∀ t sb sb' s, SbSim R sb sb' → Sim (SbSim R) (okSideAt o el t sb s) (okSideAt o' el t sb' s) :=
    fun t sb sb' s hs => by
    unfold okSideAt
    rw [hs.interChosen, hs.interOk, hs.sheetplex]
    exact Sim.bind_eq fun _ => Sim.bind_eq fun _ => Sim.bind_eq fun _ => Sim.bind_eq fun _ => Sim.bind_eq fun _ =>
      Sim.bind_eq fun _ => Sim.bind_eq fun _ => Sim.bind_eq fun _ => Sim.bind_eq fun _ => Sim.bind_eq fun _ =>
      Sim.bind_eq fun _ => (sim_choose h hs _ _ _).bind fun a b hab => (sim_unchoose hab _ _).bind fun c d hcd =>
      (sim_checkAt el t).bind fun _ _ _ => Sim.ok hcd
  have h2 : ∀ l sb sb' t, SbSim R sb sb' → Sim (SbSim R) (okSides o el sb l t) (okSides o' el sb' l t) := fun l => by
    induction l with
    | nil => exact fun _ _ _ hs => Sim.ok hs
    | cons a l ih =>
      intro sb sb' t hs
      unfold okSides
      exact (h1 t sb sb' a hs).bind fun x y hxy => ih x y _ hxy
  unfold chooseOkSide
  rw [hs.sheetplex]
  exact (sim_checkAt el 0).bind fun _ _ _ => h2 _ _ _ _ hs

theorem sim_single (draws : Name → Ivl → Draws) (minW maxW : ℚ) :
    Sim (SbSim R) (singleFingers o el draws minW maxW sb) (singleFingers o' el draws minW maxW sb') := by
  have h1 : ∀ s0 s1 sb sb' c, SbSim R sb sb' → Sim (SbSim R) (chooseFingers o s0 s1 sb c) (chooseFingers o' s0 s1 sb' c) :=
    fun s0 s1 sb sb' c hs => sim_choose h hs _ _ _
  have h2 : ∀ d s0 s1 sb sb' i, SbSim R sb sb' →
      Sim (SbSim R) (fingersAt o d minW maxW s0 s1 sb i) (fingersAt o' d minW maxW s0 s1 sb' i) :=
    fun d s0 s1 sb sb' i hs => by
      unfold fingersAt
      rw [hs.interChosen]
      exact Sim.bind_eq fun _ => Sim.bind_eq fun _ => Sim.bind_eq fun _ => Sim.bind_eq fun _ => Sim.bind_eq fun _ =>
        sim_fold (h1 s0 s1) _ _ _ hs
  have h3 : ∀ sb sb' e, SbSim R sb sb' → Sim (SbSim R) (fingersJoint o draws minW maxW sb e)
      (fingersJoint o' draws minW maxW sb' e) := fun sb sb' e hs => by
    unfold fingersJoint
    rw [hs.interChosen, hs.interOk]
    split
    · exact Sim.bind_eq fun _ => Sim.bind_eq fun _ => Sim.bind_eq fun _ => Sim.bind_eq fun _ => Sim.bind_eq fun _ =>
        Sim.bind_eq fun _ => Sim.bind_eq fun _ => Sim.bind_eq fun _ => sim_fold (h2 _ _ _) _ _ _ hs
    · exact Sim.error
  unfold singleFingers
  rw [hs.sheetplex]
  exact (sim_checkAt el 0).bind fun _ _ _ => sim_fold h3 _ _ _ hs

end

/-- Fresh builds correspond when the grown areas do. -/
theorem sim_create (h : OpsSim R o o') (sp : SheetPlex) (geoms : Name → SheetGeoms G) (rad : ℚ)
    (hgm : ∀ n, R (geoms n).slicesMax (geoms n).slicesMax)
    (h1 : ∀ e ∈ sp.sheets, Sim R (freshChosen o (geoms e.2.id)) (freshChosen o' (geoms e.2.id)))
    (h2 : ∀ e ∈ sp.sheets, Sim R (freshOk o rad (geoms e.2.id)) (freshOk o' rad (geoms e.2.id))) :
    Sim (SbSim R) (createSheetbuild o sp geoms rad) (createSheetbuild o' sp geoms rad) := by
  have h3 : ∀ m m', MapSim R m m' → ∀ s, Sim Eq (freshInterOk o geoms m s) (freshInterOk o' geoms m' s) :=
    fun m m' hm s => by
    unfold freshInterOk
    exact (hm.get _).bind fun k k' hk => (h.and _ _ _ _ hk (hgm _)).bind fun r r' hr => Sim.bind_eq fun w =>
      (h.fingers s w).bind fun f f' hf => (h.and _ _ _ _ hr hf).bind fun g g' hg => h.project s _ _ hg
  have h4 : ∀ l c c', MapSim R c c' → Sim (MapSim R) (removeFingers o sp c l) (removeFingers o' sp c' l) := fun l => by
    induction l with
    | nil => exact fun _ _ hc => Sim.ok hc
    | cons e l ih =>
      intro c c' hc
      obtain ⟨k, v⟩ := e
      unfold removeFingers
      exact Sim.bind_eq fun s => (hc.get _).bind fun a a' ha => (h.fingers s v).bind fun f f' hf =>
        (h.sub _ _ _ _ ha hf).bind fun r r' hr => ih _ _ (hc.set _ hr)
  unfold createSheetbuild
  refine (sim_dict _ h1).bind fun c c' hc => (sim_dict _ h2).bind fun k k' hk => Sim.bind_eq fun ic =>
    (sim_dict_eq _ fun s _ => h3 k k' hk s).bind fun i i' hi => ?_
  subst hi
  exact Sim.bind_eq fun io => (h4 io c c' hc).bind fun d d' hd => Sim.ok ⟨rfl, hd, hk, rfl, rfl⟩

end Heu

/-! ### The code -/

/-- Areas in good order that agree at every point. -/
def Geom2D.Agree (a b : Geom2D) : Prop := a.Fine ∧ b.Fine ∧ a.Same b

theorem agree_self {a : Geom2D} (h : a.Fine) : a.Agree a := ⟨h, h, fun _ => rfl⟩

section

variable {ch ch' : Choices} (hch : ch.Valid) (hch' : ch'.Valid)
include hch hch'

omit hch hch' in
/-- One operation on two geoms that agree with two others. -/
theorem agree_op {e : PlaneExpr} {a b c d r r' : Geom2D} (hab : a.Agree b) (hcd : c.Agree d)
    (h : Computes (fun n => if n = 0 then a else c) e r) (h' : Computes (fun n => if n = 0 then b else d) e r') :
    r.Agree r' := by
  refine c94_laws (fun _ => Iff.rfl) ?_ ?_ ?_ h h'
  · intro n; split_ifs
    exacts [hab.1, hcd.1]
  · intro n; split_ifs
    exacts [hab.2.1, hcd.2.1]
  · intro n; split_ifs
    exacts [hab.2.2, hcd.2.2]

theorem agree_fingers (s : InterSide) (v : Geom1D) (f0 f1 : ℚ) {r r' : Geom2D}
    (h : s.makeFingers (arrangementOp ch) v f0 f1 = .ok r) (h' : s.makeFingers (arrangementOp ch') v f0 f1 = .ok r') :
    r.Agree r' := by
  have f1' := makeFingers_fine ch hch s v f0 f1 r h
  have f2' := makeFingers_fine ch' hch' s v f0 f1 r' h'
  unfold InterSide.makeFingers at h h'
  obtain ⟨gs, h1, h⟩ := (bind_ok _ _ _).1 h
  obtain ⟨gs', h1', h'⟩ := (bind_ok _ _ _).1 h'
  rw [h1] at h1'
  cases h1'
  have hm : ∀ g ∈ gs, Geom2D.WellMade g := fun g hg => (fingerLoop_usable s f0 f1 _ gs h1 g hg).made
  obtain ⟨-, -, e⟩ := union_sound _ (arrangementOp_sound ch hch) gs hm _ le_rfl r h
  obtain ⟨-, -, e'⟩ := union_sound _ (arrangementOp_sound ch' hch') gs hm _ le_rfl r' h'
  refine ⟨f1', f2', same_of_off f1' f2' (gs.flatMap Geom2D.allSegments) fun p hp => ?_⟩
  have off : ∀ g ∈ gs, ¬ Geom2D.OnEdge g p := fun g hg hc => hp ((onAny_flat gs p).2 ⟨g, hg, hc⟩)
  rw [e p off, e' p off]

/-- The operations of the code with two orders correspond. -/
theorem code_sim (bf bf' : Geom2D → ℚ → Except PyErr Geom2D) :
    OpsSim Geom2D.Agree (geom2dOps (arrangementOp ch) bf) (geom2dOps (arrangementOp ch') bf') where
  empty := agree_self fine_empty
  isEmpty a b h := (c94_read h.1 h.2.1 h.2.2).2.1
  or a b c d hab hcd r r' h h' := agree_op (e := .or (.var 0) (.var 1)) hab hcd
    (.or ch hch (.var 0) (.var 1) h) (.or ch' hch' (.var 0) (.var 1) h')
  and a b c d hab hcd r r' h h' := agree_op (e := .and (.var 0) (.var 1)) hab hcd
    (.and ch hch (.var 0) (.var 1) h) (.and ch' hch' (.var 0) (.var 1) h')
  sub a b c d hab hcd r r' h h' := agree_op (e := .sub (.var 0) (.var 1)) hab hcd
    (.sub ch hch (.var 0) (.var 1) h) (.sub ch' hch' (.var 0) (.var 1) h')
  area a b h x y hx hy := by
    have := (c94_read h.1 h.2.1 h.2.2).1
    have hx : Geom2D.area a = .ok x := hx
    have hy : Geom2D.area b = .ok y := hy
    rw [hx, hy] at this
    exact Except.ok.inj this
  fingers s v r r' h h' := agree_fingers hch hch' s v 0 1 h h'
  project s a b h x y hx hy := by
    have := (c94_read h.1 h.2.1 h.2.2).2.2 s.direction (-s.originOffset)
    have hx : Geom2D.projectTo1d a s.direction (-s.originOffset) = .ok x := hx
    have hy : Geom2D.projectTo1d b s.direction (-s.originOffset) = .ok y := hy
    rw [hx, hy] at this
    exact Except.ok.inj this

variable {sq : ℚ → ℚ} (hsq : RootLike sq) (hone : sq 1 = 1)
include hsq hone

theorem agree_buffer {a b : Geom2D} (h : a.Agree b) (amount : ℚ) (na : amount ≠ 0 → a.NoIslands ∧ b.NoIslands) :
    Sim Geom2D.Agree (Geom2D.bufferBy (arrangementOp ch) sq a amount) (Geom2D.bufferBy (arrangementOp ch') sq b amount) := by
  intro ra rb h1 h2
  refine ⟨buffer_fine' ch hch hsq h.1 h1, buffer_fine' ch' hch' hsq h.2.1 h2, ?_⟩
  by_cases h0 : amount = 0
  · subst h0
    unfold Geom2D.bufferBy at h1 h2
    rw [if_pos rfl] at h1 h2
    cases h1
    cases h2
    exact h.2.2
  · exact c94_buffer hch hch' hsq hone h.1 h.2.1 h.2.2 (na h0).1 (na h0).2 h0 h1 h2

/-- **C95.** Fresh builds made with two orders of the sets agree: the same stretches are allowed on every joint side, and
the chosen and the allowed areas are the same at every point. -/
theorem c95_fresh (sp : SheetPlex) (geoms : Name → SheetGeoms Geom2D) (hgm : ValidGeoms Geom2D.Fine geoms) (rad : ℚ)
    (hn : ∀ e ∈ sp.sheets, (geoms e.2.id).face0.NoIslands ∧ (geoms e.2.id).face1.NoIslands ∧
      ∀ b, (Geom2D.and (arrangementOp ch) (geoms e.2.id).face0 (geoms e.2.id).face1 = .ok b ∨
        Geom2D.and (arrangementOp ch') (geoms e.2.id).face0 (geoms e.2.id).face1 = .ok b) → b.NoIslands)
    {sb sb' : SheetBuild Geom2D} (h : createSheetbuild (codeOps ch sq) sp geoms rad = .ok sb)
    (h' : createSheetbuild (codeOps ch' sq) sp geoms rad = .ok sb') : SbSim Geom2D.Agree sb sb' := by
  have C := code_sim hch hch' (Geom2D.bufferBy (arrangementOp ch) sq) (Geom2D.bufferBy (arrangementOp ch') sq)
  refine Heu.sim_create C sp geoms rad (fun n => agree_self (hgm n).2.2) ?_ ?_ sb sb' h h'
  · intro e he
    obtain ⟨g0, g1, g2⟩ := hgm e.2.id
    unfold freshChosen
    intro r r' hr hr'
    obtain ⟨b, b1, hr⟩ := (bind_ok _ _ _).1 hr
    obtain ⟨b', b1', hr'⟩ := (bind_ok _ _ _).1 hr'
    have hb := C.and _ _ _ _ (agree_self g0) (agree_self g1) b b' b1 b1'
    have n1 := (hn e he).2.2 b (Or.inl b1)
    have n2 := (hn e he).2.2 b' (Or.inr b1')
    exact ((agree_buffer hch hch' hsq hone hb 1 fun _ => ⟨n1, n2⟩).bind fun x y hxy =>
      (agree_buffer hch hch' hsq hone (agree_self g2) 0 fun hc => absurd rfl hc).bind fun z w hzw =>
      C.and _ _ _ _ hxy hzw) r r' hr hr'
  · intro e he
    obtain ⟨g0, g1, g2⟩ := hgm e.2.id
    obtain ⟨n0, n1, -⟩ := hn e he
    unfold freshOk
    exact (agree_buffer hch hch' hsq hone (agree_self g0) rad fun _ => ⟨n0, n0⟩).bind fun a b hab =>
      (agree_buffer hch hch' hsq hone (agree_self g1) rad fun _ => ⟨n1, n1⟩).bind fun c d hcd =>
      (C.and _ _ _ _ hab hcd).bind fun x y hxy =>
      (agree_buffer hch hch' hsq hone (agree_self g2) 0 fun hc => absurd rfl hc).bind fun z w hzw =>
      C.and _ _ _ _ hxy hzw

end

section

variable {ch ch' : Choices} (hch : ch.Valid) (hch' : ch'.Valid) {bf bf' : Geom2D → ℚ → Except PyErr Geom2D}
  {sb sb' : SheetBuild Geom2D} (hs : SbSim Geom2D.Agree sb sb')
include hch hch' hs

/-- **C95.** Choices and removals on builds that agree give builds that agree. -/
theorem c95_ops (ops : List (SbOp Geom2D)) (hv : ∀ op ∈ ops, ∀ n g, op = .unchooseArea n g → g.Fine)
    {r r' : SheetBuild Geom2D} (h : runOps (geom2dOps (arrangementOp ch) bf) ops sb = .ok r)
    (h' : runOps (geom2dOps (arrangementOp ch') bf') ops sb' = .ok r') : SbSim Geom2D.Agree r r' := by
  have C := code_sim hch hch' bf bf'
  have key : ∀ (ops : List (SbOp Geom2D)), (∀ op ∈ ops, ∀ n g, op = .unchooseArea n g → g.Fine) → ∀ sb sb',
      SbSim Geom2D.Agree sb sb' → Sim (SbSim Geom2D.Agree) (runOps (geom2dOps (arrangementOp ch) bf) ops sb)
        (runOps (geom2dOps (arrangementOp ch') bf') ops sb') := by
    intro ops
    induction ops with
    | nil => exact fun _ _ _ hs => Sim.ok hs
    | cons op ops ih =>
      intro hv sb sb' hs
      unfold runOps
      refine Sim.bind ?_ fun x y hxy => ih (fun o ho => hv o (List.mem_cons_of_mem _ ho)) x y hxy
      have h0 := hv op (List.mem_cons_self ..)
      cases op with
      | choose id v t => exact Heu.sim_choose C hs id v t
      | unchoose id v => exact Heu.sim_unchoose hs id v
      | unchooseArea n g => exact Heu.sim_unchooseArea C hs n (agree_self (h0 n g rfl))
  exact key ops hv sb sb' hs r r' h h'

/-- **C95.** `update_intersection_ok`, `choose_the_ok_side` and `single_fingers_random` keep builds in agreement, and the
interactions found are the same. -/
theorem c95_steps (el : ℕ → Bool) (draws : Name → Ivl → Draws) (minW maxW : ℚ) :
    Sim (SbSim Geom2D.Agree) (Heu.updateInterOk (geom2dOps (arrangementOp ch) bf) el sb)
      (Heu.updateInterOk (geom2dOps (arrangementOp ch') bf') el sb') ∧
    Sim (SbSim Geom2D.Agree) (Heu.chooseOkSide (geom2dOps (arrangementOp ch) bf) el sb)
      (Heu.chooseOkSide (geom2dOps (arrangementOp ch') bf') el sb') ∧
    Sim (SbSim Geom2D.Agree) (Heu.singleFingers (geom2dOps (arrangementOp ch) bf) el draws minW maxW sb)
      (Heu.singleFingers (geom2dOps (arrangementOp ch') bf') el draws minW maxW sb') ∧
    Sim Eq (Heu.findInteractions (geom2dOps (arrangementOp ch) bf) sb)
      (Heu.findInteractions (geom2dOps (arrangementOp ch') bf') sb') := by
  have C := code_sim hch hch' bf bf'
  exact ⟨Heu.sim_interOk el C hs, Heu.sim_okSide el C hs, Heu.sim_single el C hs draws minW maxW, Heu.sim_find C hs⟩

omit hch hch' in
theorem agree_dens (n : Name) : (∀ᵐ z : ℝ × ℝ, z ∈ dens Geom2D.region sb.sheetChosen n ↔
      z ∈ dens Geom2D.region sb'.sheetChosen n) ∧
    ∀ᵐ z : ℝ × ℝ, z ∈ dens Geom2D.region sb.sheetOk n ↔ z ∈ dens Geom2D.region sb'.sheetOk n := by
  have key : ∀ {m m' : PMap Name Geom2D}, MapSim Geom2D.Agree m m' →
      ∀ᵐ z : ℝ × ℝ, z ∈ dens Geom2D.region m n ↔ z ∈ dens Geom2D.region m' n := by
    intro m m' hm
    unfold dens
    rcases hm.get? n with ⟨e1, e2⟩ | ⟨a, b, e1, e2, fa, fb, hab⟩
    · rw [e1, e2]; exact Filter.Eventually.of_forall fun _ => Iff.rfl
    · rw [e1, e2]
      filter_upwards [has_region fa fb fun p => (hab.has p).1, has_region fb fa fun p => (hab.has p).2] with z h1 h2
      exact ⟨h1, h2⟩
  exact ⟨key hs.sheetChosen, key hs.sheetOk⟩

omit hch hch' in
/-- A build that agrees with a good one is good. -/
theorem agree_good (hg : Good Geom2D.Fine sb) (hf : Full sb)
    (hc : ∀ e ∈ sb.sheetplex.sheets, (∃ g, sb.sheetChosen.get? e.2.id = some g) ∧ ∃ g, sb.sheetOk.get? e.2.id = some g) :
    Good Geom2D.Fine sb' ∧ Full sb' ∧
    ∀ e ∈ sb'.sheetplex.sheets, (∃ g, sb'.sheetChosen.get? e.2.id = some g) ∧ ∃ g, sb'.sheetOk.get? e.2.id = some g := by
  have valid : ∀ {m m' : PMap Name Geom2D}, MapSim Geom2D.Agree m m' → ValidMap Geom2D.Fine m' := by
    intro m m' hm k g hg
    rcases hm.get? k with ⟨e1, e2⟩ | ⟨a, b, e1, e2, fa, fb, hab⟩
    · rw [e2] at hg; cases hg
    · rw [e2] at hg; cases hg; exact fb
  have some : ∀ {m m' : PMap Name Geom2D}, MapSim Geom2D.Agree m m' → ∀ {k}, (∃ g, m.get? k = some g) →
      ∃ g, m'.get? k = some g := by
    rintro m m' hm k ⟨g, hg⟩
    rcases hm.get? k with ⟨e1, e2⟩ | ⟨a, b, e1, e2, -⟩
    · rw [e1] at hg; cases hg
    · exact ⟨b, e2⟩
  refine ⟨⟨hs.sheetplex ▸ hg.paired, hs.interChosen ▸ hg.madeC, hs.interOk ▸ hg.madeO, valid hs.sheetChosen,
    valid hs.sheetOk⟩, ⟨?_, ?_, ?_, ?_⟩, ?_⟩
  · rw [← hs.sheetplex, ← hs.interOk]; exact hf.ok
  · rw [← hs.sheetplex, ← hs.interChosen]; exact hf.chosen
  · rw [← hs.sheetplex]; exact fun id s h => some hs.sheetOk (hf.sheetOk id s h)
  · rw [← hs.sheetplex]; exact fun id s h => some hs.sheetChosen (hf.sheetChosen id s h)
  · rw [← hs.sheetplex]; exact fun e he => ⟨some hs.sheetChosen (hc e he).1, some hs.sheetOk (hc e he).2⟩

/-- **C95.** The check says the same about both. -/
theorem c95_check (hg : Good Geom2D.Fine sb) (hf : Full sb)
    (hc : ∀ e ∈ sb.sheetplex.sheets, (∃ g, sb.sheetChosen.get? e.2.id = some g) ∧ ∃ g, sb.sheetOk.get? e.2.id = some g)
    (hp : sb.sheetplex.SidesProper) (hb : OkBounded sb) :
    sb.check (geom2dOps (arrangementOp ch) bf) = .ok () ↔ sb'.check (geom2dOps (arrangementOp ch') bf') = .ok () := by
  obtain ⟨hg', hf', hc'⟩ := agree_good hs hg hf hc
  have hp' : sb'.sheetplex.SidesProper := hs.sheetplex ▸ hp
  have hb' : OkBounded sb' := by
    unfold OkBounded
    rw [← hs.sheetplex, ← hs.interOk]
    exact hb
  rw [c63_fine hch sb hg hf hc hp hb, c63_fine hch' sb' hg' hf' hc' hp' hb', ← hs.sheetplex, ← hs.interChosen, ← hs.interOk]
  refine and_congr (forall_congr' fun e => forall_congr' fun _ => ?_)
    (forall_congr' fun s => forall_congr' fun t => forall_congr' fun _ => and_congr Iff.rfl (and_congr Iff.rfl ?_))
  · rw [MeasureTheory.measure_congr]
    filter_upwards [(agree_dens hs e.2.id).1, (agree_dens hs e.2.id).2] with z h1 h2
    exact propext (and_congr h1 (not_congr h2))
  · rw [MeasureTheory.measure_congr]
    filter_upwards [(agree_dens hs s.sheet).1] with z h1
    exact propext (and_congr Iff.rfl h1)

/-- **C95.** A tentative choice is accepted on both or on neither. -/
theorem c95_tentative (hg : Good Geom2D.Fine sb) (hf : Full sb)
    (hc : ∀ e ∈ sb.sheetplex.sheets, (∃ g, sb.sheetChosen.get? e.2.id = some g) ∧ ∃ g, sb.sheetOk.get? e.2.id = some g)
    (hp : sb.sheetplex.SidesProper) (hb : OkBounded sb) (id : Name × Name) (v : Geom1D) (hv : Geom1D.Made v) :
    (∃ r, sb.chooseInterside (geom2dOps (arrangementOp ch) bf) id v true = .ok r) ↔
      ∃ r, sb'.chooseInterside (geom2dOps (arrangementOp ch') bf') id v true = .ok r := by
  obtain ⟨hg', hf', hc'⟩ := agree_good hs hg hf hc
  have hp' : sb'.sheetplex.SidesProper := hs.sheetplex ▸ hp
  have hb' : OkBounded sb' := by
    unfold OkBounded
    rw [← hs.sheetplex, ← hs.interOk]
    exact hb
  by_cases hi : ∃ s, sb.sheetplex.interside id = .ok s
  · obtain ⟨s, hi⟩ := hi
    obtain ⟨-, t, ht, -⟩ := interside_spec _ hg.paired id s hi
    rw [c62_tentative hch sb hg hf hp hb id s t hi ht v hv,
      c62_tentative hch' sb' hg' hf' hp' hb' id s t (hs.sheetplex ▸ hi) (hs.sheetplex ▸ ht) v hv, ← hs.interOk]
    refine and_congr Iff.rfl ?_
    rw [MeasureTheory.measure_congr]
    filter_upwards [(agree_dens hs t.sheet).1] with z h1
    exact propext (and_congr Iff.rfl h1)
  · have key : ∀ (o : G2Ops Geom2D) (sb : SheetBuild Geom2D), (¬ ∃ s, sb.sheetplex.interside id = .ok s) →
        ¬ ∃ r, sb.chooseInterside o id v true = .ok r := by
      rintro o sb hi ⟨r, hr⟩
      unfold SheetBuild.chooseInterside at hr
      obtain ⟨_, -, hr⟩ := (bind_ok _ _ _).1 hr
      obtain ⟨_, -, hr⟩ := (bind_ok _ _ _).1 hr
      obtain ⟨_, -, hr⟩ := (bind_ok _ _ _).1 hr
      obtain ⟨_, -, hr⟩ := (bind_ok _ _ _).1 hr
      obtain ⟨s, e, -⟩ := (bind_ok _ _ _).1 hr
      exact hi ⟨s, e⟩
    exact iff_of_false (key _ _ hi) (key _ _ (hs.sheetplex ▸ hi))

end

end Ply
