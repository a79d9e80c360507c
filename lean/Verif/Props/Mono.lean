import Verif.Props.Canned

/-! # Runs with other 2D operations

Nothing in a run depends on an operation that fails: when every result of one implementation of the 2D
operations is also the result of another, then a run that succeeds with the first gives the same with the
second. -/

namespace Ply

/-- Whatever the first gives, the second gives too. -/
def Le {α : Type} (x y : Except PyErr α) : Prop := ∀ r, x = .ok r → y = .ok r

namespace Le

variable {α β : Type}

theorem refl (x : Except PyErr α) : Le x x := fun _ h => h

theorem error (e : PyErr) (y : Except PyErr α) : Le (.error e) y := nofun

theorem bind {x y : Except PyErr α} {f g : α → Except PyErr β} (h : Le x y) (hf : ∀ a, Le (f a) (g a)) :
    Le (x >>= f) (y >>= g) := by
  intro r hr
  obtain ⟨a, ha, hr⟩ := (bind_ok _ _ _).1 hr
  rw [h a ha]
  exact hf a r hr

theorem ite {c : Prop} [Decidable c] {x y x' y' : Except PyErr α} (h : Le x y) (h' : Le x' y') :
    Le (if c then x else x') (if c then y else y') := by
  split
  · exact h
  · exact h'

end Le

/-- Every result of the operations `o` is also given by `o'`. -/
structure OpsLe {G : Type} (o o' : G2Ops G) : Prop where
  empty : o.empty = o'.empty
  isEmpty : o.isEmpty = o'.isEmpty
  polygons : o.polygons = o'.polygons
  or : ∀ a b, Le (o.or a b) (o'.or a b)
  and : ∀ a b, Le (o.and a b) (o'.and a b)
  sub : ∀ a b, Le (o.sub a b) (o'.sub a b)
  area : ∀ a, Le (o.area a) (o'.area a)
  buffer : ∀ a r, Le (o.buffer a r) (o'.buffer a r)
  fingers : ∀ s v, Le (o.fingers s v) (o'.fingers s v)
  project : ∀ s a, Le (o.project s a) (o'.project s a)

set_option linter.unusedTactic false
set_option linter.unreachableTactic false

namespace Heu

open SheetBuild

variable {G : Type} {o o' : G2Ops G} (h : OpsLe o o') (geoms : Name → SheetGeoms G) (el : ℕ → Bool)

theorem le_mapOp {κ α : Type} [DecidableEq κ] {f g : α → α → Except PyErr α} (h : ∀ a b, Le (f a b) (g a b))
    (m : PMap κ α) (k : κ) (x : α) : Le (mapOpGeom f m k x) (mapOpGeom g m k x) := by
  unfold mapOpGeom
  cases m.get? k with
  | none => exact Le.refl _
  | some w => exact Le.bind (h w x) fun _ => Le.refl _

theorem le_mapOr {κ α : Type} [DecidableEq κ] {f g : α → α → Except PyErr α} (h : ∀ a b, Le (f a b) (g a b))
    (e : Except PyErr α) (m : PMap κ α) (k : κ) (x : α) : Le (mapOrGeom f e m k x) (mapOrGeom g e m k x) := by
  unfold mapOrGeom
  repeat' first
    | with_reducible exact Le.refl _ | assumption | with_reducible apply h | with_reducible apply Le.bind
    | with_reducible apply Le.ite | with_reducible intro _ | split

theorem le_dict {κ α β : Type} (key : α → κ) {f g : α → Except PyErr β} (h : ∀ a, Le (f a) (g a)) (l : List α) :
    Le (dictOf key f l) (dictOf key g l) := by
  induction l with
  | nil => exact Le.refl _
  | cons a l ih =>
    unfold dictOf
    repeat' first
      | with_reducible exact Le.refl _ | assumption | with_reducible apply h | with_reducible apply ih
      | with_reducible apply Le.bind | with_reducible apply Le.ite | with_reducible intro _ | split

theorem le_each {α : Type} {f g : α → Except PyErr Unit} (h : ∀ a, Le (f a) (g a)) (l : List α) :
    Le (each f l) (each g l) := by
  induction l with
  | nil => exact Le.refl _
  | cons a l ih =>
    unfold each
    repeat' first
      | with_reducible exact Le.refl _ | assumption | with_reducible apply h | with_reducible apply ih
      | with_reducible apply Le.bind | with_reducible apply Le.ite | with_reducible intro _ | split

theorem le_fold {α : Type} {f g : SheetBuild G → α → Except PyErr (SheetBuild G)} (h : ∀ sb a, Le (f sb a) (g sb a))
    (l : List α) : ∀ sb, Le (fold f sb l) (fold g sb l) := by
  induction l with
  | nil => exact fun _ => Le.refl _
  | cons a l ih =>
    intro sb
    unfold fold
    repeat' first
      | with_reducible exact Le.refl _ | assumption | with_reducible apply h | with_reducible apply ih
      | with_reducible apply Le.bind | with_reducible apply Le.ite | with_reducible intro _ | split

include h

theorem le_unchooseArea (sb : SheetBuild G) (n : Name) (a : G) :
    Le (unchooseSheetArea o sb n a) (unchooseSheetArea o' sb n a) := by
  unfold unchooseSheetArea
  repeat' first
    | with_reducible exact Le.refl _ | assumption | with_reducible apply h.and | with_reducible apply h.area
    | with_reducible apply le_mapOp h.sub | with_reducible apply Le.bind | with_reducible apply Le.ite
    | with_reducible intro _ | split

theorem le_choose (sb : SheetBuild G) (id : Name × Name) (v : Geom1D) (t : Bool) :
    Le (chooseInterside o sb id v t) (chooseInterside o' sb id v t) := by
  unfold chooseInterside
  rw [h.empty]
  repeat' first
    | with_reducible exact Le.refl _ | assumption | with_reducible apply h.and | with_reducible apply h.area
    | with_reducible apply h.fingers | with_reducible apply le_mapOp h.sub
    | with_reducible apply le_mapOr h.or | with_reducible apply Le.bind | with_reducible apply Le.ite
    | with_reducible intro _ | split

theorem le_checkSheet (sb : SheetBuild G) (n : Name) : Le (checkSheet o sb n) (checkSheet o' sb n) := by
  unfold checkSheet
  repeat' first
    | with_reducible exact Le.refl _ | assumption | with_reducible apply h.sub | with_reducible apply h.area
    | with_reducible apply Le.bind | with_reducible apply Le.ite | with_reducible intro _ | split

theorem le_checkInter (sb : SheetBuild G) (s : InterSide) : Le (checkInterside o sb s) (checkInterside o' sb s) := by
  unfold checkInterside
  repeat' first
    | with_reducible exact Le.refl _ | assumption | with_reducible apply h.and | with_reducible apply h.area
    | with_reducible apply h.fingers | with_reducible apply Le.bind | with_reducible apply Le.ite
    | with_reducible intro _ | split

theorem le_check (sb : SheetBuild G) : Le (check o sb) (check o' sb) := by
  unfold check
  repeat' first
    | with_reducible exact Le.refl _ | assumption | with_reducible apply le_each fun _ => le_checkSheet h sb _
    | with_reducible apply le_each fun _ => le_checkInter h sb _ | with_reducible apply Le.bind
    | with_reducible apply Le.ite | with_reducible intro _ | split

theorem le_checkAt (t : ℕ) (sb : SheetBuild G) : Le (checkAt o el t sb) (checkAt o' el t sb) := by
  unfold checkAt
  repeat' first
    | with_reducible exact Le.refl _ | assumption | with_reducible apply le_check h
    | with_reducible apply Le.bind | with_reducible apply Le.ite | with_reducible intro _ | split

theorem le_create (sp : SheetPlex) (rad : ℚ) : Le (createSheetbuild o sp geoms rad) (createSheetbuild o' sp geoms rad) := by
  have h1 : ∀ g, Le (freshChosen o g) (freshChosen o' g) := fun g => by
    unfold freshChosen
    repeat' first
      | with_reducible exact Le.refl _ | assumption | with_reducible apply h.and
      | with_reducible apply h.buffer | with_reducible apply Le.bind | with_reducible apply Le.ite
      | with_reducible intro _ | split
  have h2 : ∀ g, Le (freshOk o rad g) (freshOk o' rad g) := fun g => by
    unfold freshOk
    repeat' first
      | with_reducible exact Le.refl _ | assumption | with_reducible apply h.and
      | with_reducible apply h.buffer | with_reducible apply Le.bind | with_reducible apply Le.ite
      | with_reducible intro _ | split
  have h3 : ∀ m s, Le (freshInterOk o geoms m s) (freshInterOk o' geoms m s) := fun m s => by
    unfold freshInterOk
    repeat' first
      | with_reducible exact Le.refl _ | assumption | with_reducible apply h.and
      | with_reducible apply h.fingers | with_reducible apply h.project | with_reducible apply Le.bind
      | with_reducible apply Le.ite | with_reducible intro _ | split
  have h4 : ∀ l c, Le (removeFingers o sp c l) (removeFingers o' sp c l) := fun l => by
    induction l with
    | nil => exact fun _ => Le.refl _
    | cons a l ih =>
      intro c
      unfold removeFingers
      repeat' first
        | with_reducible exact Le.refl _ | assumption | with_reducible apply h.sub
        | with_reducible apply h.fingers | with_reducible apply ih | with_reducible apply Le.bind
        | with_reducible apply Le.ite | with_reducible intro _ | split
  unfold createSheetbuild
  repeat' first
    | with_reducible exact Le.refl _ | assumption | with_reducible apply le_dict _ fun _ => h1 _
    | with_reducible apply le_dict _ fun _ => h2 _ | with_reducible apply le_dict _ (h3 _)
    | with_reducible apply h4 | with_reducible apply Le.bind | with_reducible apply Le.ite
    | with_reducible intro _ | split

theorem le_irrelevant (sb : SheetBuild G) :
    Le (chooseIrrelevant o geoms el sb) (chooseIrrelevant o' geoms el sb) := by
  have h1 : ∀ s, Le (irrelevantAt o geoms sb s) (irrelevantAt o' geoms sb s) := fun s => by
    unfold irrelevantAt
    repeat' first
      | with_reducible exact Le.refl _ | assumption | with_reducible apply h.and | with_reducible apply h.sub
      | with_reducible apply h.buffer | with_reducible apply h.fingers | with_reducible apply h.project
      | with_reducible apply Le.bind | with_reducible apply Le.ite | with_reducible intro _ | split
  unfold chooseIrrelevant
  repeat' first
    | with_reducible exact Le.refl _ | assumption | with_reducible apply le_checkAt h
    | with_reducible apply le_dict _ h1 | with_reducible apply Le.bind | with_reducible apply Le.ite
    | with_reducible intro _ | split

theorem le_loose (sb : SheetBuild G) : Le (removeLoose o geoms el sb) (removeLoose o' geoms el sb) := by
  have h1 : ∀ s c l i, Le (looseLoop o s c l i) (looseLoop o' s c l i) := fun s c l => by
    induction l with
    | nil => exact fun _ => Le.refl _
    | cons a l ih =>
      intro i
      unfold looseLoop
      rw [h.isEmpty]
      repeat' first
        | with_reducible exact Le.refl _ | assumption | with_reducible apply h.and
        | with_reducible apply h.area | with_reducible apply h.or | with_reducible apply ih
        | with_reducible apply Le.bind | with_reducible apply Le.ite | with_reducible intro _ | split
  have h2 : ∀ sb e, Le (looseSheet o geoms sb e) (looseSheet o' geoms sb e) := fun sb e => by
    unfold looseSheet
    rw [h.empty, h.polygons]
    repeat' first
      | with_reducible exact Le.refl _ | assumption | with_reducible apply h.and | with_reducible apply h.or
      | with_reducible apply h1 | with_reducible apply le_mapOp h.sub | with_reducible apply Le.bind
      | with_reducible apply Le.ite | with_reducible intro _ | split
  unfold removeLoose
  repeat' first
    | with_reducible exact Le.refl _ | assumption | with_reducible apply le_checkAt h
    | with_reducible apply le_fold h2 | with_reducible apply Le.bind | with_reducible apply Le.ite
    | with_reducible intro _ | split

theorem le_interOk (sb : SheetBuild G) : Le (updateInterOk o el sb) (updateInterOk o' el sb) := by
  have h1 : ∀ sb s, Le (interOkAt o sb s) (interOkAt o' sb s) := fun sb s => by
    unfold interOkAt
    repeat' first
      | with_reducible exact Le.refl _ | assumption | with_reducible apply h.and
      | with_reducible apply h.fingers | with_reducible apply h.project | with_reducible apply Le.bind
      | with_reducible apply Le.ite | with_reducible intro _ | split
  unfold updateInterOk
  repeat' first
    | with_reducible exact Le.refl _ | assumption | with_reducible apply le_checkAt h
    | with_reducible apply le_fold h1 | with_reducible apply Le.bind | with_reducible apply Le.ite
    | with_reducible intro _ | split

theorem le_sheetOk (sb : SheetBuild G) : Le (updateSheetOk o el sb) (updateSheetOk o' el sb) := by
  have h1 : ∀ sb l a b, Le (onSides o sb l a b) (onSides o' sb l a b) := fun sb l => by
    induction l with
    | nil => exact fun _ _ => Le.refl _
    | cons a l ih =>
      intro x y
      unfold onSides
      repeat' first
        | with_reducible exact Le.refl _ | assumption | with_reducible apply h.or
        | with_reducible apply h.fingers | with_reducible apply ih | with_reducible apply Le.bind
        | with_reducible apply Le.ite | with_reducible intro _ | split
  have h2 : ∀ sb e, Le (sheetOkAt o sb e) (sheetOkAt o' sb e) := fun sb e => by
    unfold sheetOkAt
    rw [h.empty]
    repeat' first
      | with_reducible exact Le.refl _ | assumption | with_reducible apply h1 | with_reducible apply h.sub
      | with_reducible apply h.buffer | with_reducible apply le_unchooseArea h | with_reducible apply Le.bind
      | with_reducible apply Le.ite | with_reducible intro _ | split
  unfold updateSheetOk
  repeat' first
    | with_reducible exact Le.refl _ | assumption | with_reducible apply le_checkAt h
    | with_reducible apply le_fold h2 | with_reducible apply Le.bind | with_reducible apply Le.ite
    | with_reducible intro _ | split

theorem le_find (sb : SheetBuild G) : Le (findInteractions o sb) (findInteractions o' sb) := by
  have h1 : ∀ i f l m, Le (findInner o sb i f l m) (findInner o' sb i f l m) := fun i f l => by
    induction l with
    | nil => exact fun _ => Le.refl _
    | cons a l ih =>
      intro m
      unfold findInner
      rw [h.isEmpty]
      repeat' first
        | with_reducible exact Le.refl _ | assumption | with_reducible apply h.and
        | with_reducible apply h.fingers | with_reducible apply h.project | with_reducible apply ih
        | with_reducible apply Le.bind | with_reducible apply Le.ite | with_reducible intro _ | split
  have h2 : ∀ l m, Le (findSheet o sb l m) (findSheet o' sb l m) := fun l => by
    induction l with
    | nil => exact fun _ => Le.refl _
    | cons a l ih =>
      intro m
      unfold findSheet
      repeat' first
        | with_reducible exact Le.refl _ | assumption | with_reducible apply h1
        | with_reducible apply h.fingers | with_reducible apply ih | with_reducible apply Le.bind
        | with_reducible apply Le.ite | with_reducible intro _ | split
  have h3 : ∀ l m, Le (findSheets o sb l m) (findSheets o' sb l m) := fun l => by
    induction l with
    | nil => exact fun _ => Le.refl _
    | cons a l ih =>
      intro m
      unfold findSheets
      repeat' first
        | with_reducible exact Le.refl _ | assumption | with_reducible apply h2 | with_reducible apply ih
        | with_reducible apply Le.bind | with_reducible apply Le.ite | with_reducible intro _ | split
  exact h3 _ _

theorem le_decide (order : List Name → List Name) (sb : SheetBuild G) (e : ℕ × Cluster) :
    Le (decideCluster o el order sb e) (decideCluster o' el order sb e) := by
  have h1 : ∀ c l g, Le (clusterFingers o sb c l g) (clusterFingers o' sb c l g) := fun c l => by
    induction l with
    | nil => exact fun _ => Le.refl _
    | cons a l ih =>
      intro g
      unfold clusterFingers
      repeat' first
        | with_reducible exact Le.refl _ | assumption | with_reducible apply h.or
        | with_reducible apply h.fingers | with_reducible apply ih | with_reducible apply Le.bind
        | with_reducible apply Le.ite | with_reducible intro _ | split
  have h2 : ∀ c s n, Le (sheetDemand o sb c s n) (sheetDemand o' sb c s n) := fun c s n => by
    unfold sheetDemand
    rw [h.empty]
    repeat' first
      | with_reducible exact Le.refl _ | assumption | with_reducible apply h1 | with_reducible apply h.and
      | with_reducible apply h.area | with_reducible apply h.buffer | with_reducible apply Le.bind
      | with_reducible apply Le.ite | with_reducible intro _ | split
  have h3 : ∀ c s l, Le (demands o sb c s l) (demands o' sb c s l) := fun c s l => by
    induction l with
    | nil => exact Le.refl _
    | cons a l ih =>
      unfold demands
      repeat' first
        | with_reducible exact Le.refl _ | assumption | with_reducible apply h2 | with_reducible apply ih
        | with_reducible apply Le.bind | with_reducible apply Le.ite | with_reducible intro _ | split
  have h4 : ∀ c sb s, Le (chooseCluster o c sb s) (chooseCluster o' c sb s) := fun c sb s => by
    unfold chooseCluster
    repeat' first
      | with_reducible exact Le.refl _ | assumption | with_reducible apply le_choose h
      | with_reducible apply Le.bind | with_reducible apply Le.ite | with_reducible intro _ | split
  unfold decideCluster
  repeat' first
    | with_reducible exact Le.refl _ | assumption | with_reducible apply h3
    | with_reducible apply le_checkAt h | with_reducible apply le_fold (h4 _) | with_reducible apply Le.bind
    | with_reducible apply Le.ite | with_reducible intro _ | split

theorem le_multi (order : List Name → List Name) (sb : SheetBuild G) :
    Le (multiInter o el order sb) (multiInter o' el order sb) := by
  unfold multiInter
  repeat' first
    | with_reducible exact Le.refl _ | assumption | with_reducible apply le_find h
    | with_reducible apply le_fold (le_decide h el order) | with_reducible apply Le.bind
    | with_reducible apply Le.ite | with_reducible intro _ | split

theorem le_okSide (sb : SheetBuild G) : Le (chooseOkSide o el sb) (chooseOkSide o' el sb) := by
  have h1 : ∀ t sb s, Le (okSideAt o el t sb s) (okSideAt o' el t sb s) := fun t sb s => by
    unfold okSideAt
    repeat' first
      | with_reducible exact Le.refl _ | assumption | with_reducible apply le_choose h
      | with_reducible apply le_checkAt h | with_reducible apply Le.bind | with_reducible apply Le.ite
      | with_reducible intro _ | split
  have h2 : ∀ l sb t, Le (okSides o el sb l t) (okSides o' el sb l t) := fun l => by
    induction l with
    | nil => exact fun _ _ => Le.refl _
    | cons a l ih =>
      intro sb t
      unfold okSides
      repeat' first
        | with_reducible exact Le.refl _ | assumption | with_reducible apply h1 | with_reducible apply ih
        | with_reducible apply Le.bind | with_reducible apply Le.ite | with_reducible intro _ | split
  unfold chooseOkSide
  repeat' first
    | with_reducible exact Le.refl _ | assumption | with_reducible apply le_checkAt h
    | with_reducible apply h2 | with_reducible apply Le.bind | with_reducible apply Le.ite
    | with_reducible intro _ | split

theorem le_single (draws : Name → Ivl → Draws) (minW maxW : ℚ) (sb : SheetBuild G) :
    Le (singleFingers o el draws minW maxW sb) (singleFingers o' el draws minW maxW sb) := by
  have h1 : ∀ s0 s1 sb c, Le (chooseFingers o s0 s1 sb c) (chooseFingers o' s0 s1 sb c) := fun s0 s1 sb c =>
    le_choose h _ _ _ _
  have h2 : ∀ d s0 s1 sb i, Le (fingersAt o d minW maxW s0 s1 sb i) (fingersAt o' d minW maxW s0 s1 sb i) :=
    fun d s0 s1 sb i => by
      unfold fingersAt
      repeat' first
        | with_reducible exact Le.refl _ | assumption | with_reducible apply le_fold (h1 _ _)
        | with_reducible apply Le.bind | with_reducible apply Le.ite | with_reducible intro _ | split
  have h3 : ∀ sb e, Le (fingersJoint o draws minW maxW sb e) (fingersJoint o' draws minW maxW sb e) := fun sb e => by
    unfold fingersJoint
    repeat' first
      | with_reducible exact Le.refl _ | assumption | with_reducible apply le_fold (h2 _ _ _)
      | with_reducible apply Le.bind | with_reducible apply Le.ite | with_reducible intro _ | split
  unfold singleFingers
  repeat' first
    | with_reducible exact Le.refl _ | assumption | with_reducible apply le_checkAt h
    | with_reducible apply le_fold h3 | with_reducible apply Le.bind | with_reducible apply Le.ite
    | with_reducible intro _ | split

theorem le_clean (sb : SheetBuild G) : Le (cleanUp o sb) (cleanUp o' sb) := by
  have h1 : ∀ l m, Le (cleanLoop o sb l m) (cleanLoop o' sb l m) := fun l => by
    induction l with
    | nil => exact fun _ => Le.refl _
    | cons a l ih =>
      intro m
      unfold cleanLoop
      repeat' first
        | with_reducible exact Le.refl _ | assumption | with_reducible apply h.or
        | with_reducible apply h.buffer | with_reducible apply ih | with_reducible apply Le.bind
        | with_reducible apply Le.ite | with_reducible intro _ | split
  unfold cleanUp
  repeat' first
    | with_reducible exact Le.refl _ | assumption | with_reducible apply h1 | with_reducible apply Le.bind
    | with_reducible apply Le.ite | with_reducible intro _ | split

end Heu

namespace Canned

open Heu

variable {G : Type} {o o' : G2Ops G}

theorem le_steps (h : OpsLe o o') (p : Params G) :
    List.Forall₂ (fun f g => ∀ sb, Le (f sb) (g sb)) (steps { p with o := o }) (steps { p with o := o' }) := by
  unfold steps
  exact .cons (le_irrelevant h _ _) <| .cons (le_loose h _ _) <| .cons (le_interOk h _) <|
    .cons (le_sheetOk h _) <| .cons (le_interOk h _) <| .cons (le_loose h _ _) <| .cons (le_interOk h _) <|
    .cons (le_multi h _ _) <| .cons (le_interOk h _) <| .cons (le_okSide h _) <| .cons (le_single h _ _ _ _) <|
    .cons (le_clean h) .nil

theorem Chain.le {sb0 sb : SheetBuild G} {ops : List (Op G)} {hist : List (SheetBuild G)}
    (h : Chain sb0 ops hist sb) : ∀ {ops' : List (Op G)}, List.Forall₂ (fun f g => ∀ sb, Le (f sb) (g sb)) ops ops' →
      Chain sb0 ops' hist sb := by
  induction h with
  | nil sb =>
    intro ops' h'
    cases h'
    exact .nil _
  | cons sb sb1 sb2 op ops hist h1 _ ih =>
    intro ops' h'
    cases h' with
    | cons ha hb => exact .cons _ _ _ _ _ _ (ha _ _ h1) (ih hb)

/-- A run that succeeds gives the same with operations that have the same results and perhaps more. -/
theorem run_le (h : OpsLe o o') (p : Params G) (sp : SheetPlex) (rof : Option Bool) (r : Result G)
    (hr : run { p with o := o } sp none rof = .ok r) (hok : r.ok = true) :
    run { p with o := o' } sp none rof = .ok r := by
  obtain ⟨sb0, hist, sb, ⟨h1, h2, h3, h4⟩, rfl⟩ := (c53_ok _ _ _ _ _ _).1 ⟨hr, hok⟩
  exact ((c53_ok _ _ _ _ _ _).2 ⟨sb0, hist, sb, ⟨le_create h _ _ _ _ h1, le_checkAt h _ _ _ _ h2,
    h3.le (le_steps h p), le_check h _ _ h4⟩, rfl⟩).1

end Canned

end Ply
