import Verif.Model.Canned
import Verif.Props.CleanUp

/-! # C53: the canned driver -/

namespace Ply.Canned

variable {G : Type}

/-- A step of the driver. -/
abbrev Op (G : Type) := SheetBuild G → Except PyErr (SheetBuild G)

/-- All steps succeed one after the other; the list has the builds before each step. -/
inductive Chain : SheetBuild G → List (Op G) → List (SheetBuild G) → SheetBuild G → Prop
  | nil (sb : SheetBuild G) : Chain sb [] [] sb
  | cons (sb sb1 sb' : SheetBuild G) (op : Op G) (ops : List (Op G)) (hist : List (SheetBuild G))
      (h : op sb = .ok sb1) (hc : Chain sb1 ops hist sb') : Chain sb (op :: ops) (sb :: hist) sb'

theorem Chain.length {sb sb' : SheetBuild G} {ops : List (Op G)} {hist : List (SheetBuild G)}
    (h : Chain sb ops hist sb') : hist.length = ops.length := by
  induction h with
  | nil => rfl
  | cons _ _ _ _ _ _ _ _ ih => simp [ih]

theorem Chain.unique {sb a b : SheetBuild G} {ops : List (Op G)} {h1 h2 : List (SheetBuild G)}
    (x : Chain sb ops h1 a) (y : Chain sb ops h2 b) : h1 = h2 ∧ a = b := by
  induction x generalizing h2 b with
  | nil => cases y; exact ⟨rfl, rfl⟩
  | cons sb sb1 sb' op ops hist h hc ih =>
    cases y with
    | cons _ sb1' _ _ _ hist' h' hc' =>
      rw [h] at h'
      cases h'
      obtain ⟨rfl, rfl⟩ := ih hc'
      exact ⟨rfl, rfl⟩

/-- Everything succeeds: creation, first check, all steps, final check. -/
def Succeeds (create : Except PyErr (SheetBuild G)) (firstCheck finalCheck : SheetBuild G → Except PyErr Unit)
    (ops : List (Op G)) (sb0 : SheetBuild G) (hist : List (SheetBuild G)) (sb' : SheetBuild G) : Prop :=
  create = .ok sb0 ∧ firstCheck sb0 = .ok () ∧ Chain sb0 ops hist sb' ∧ finalCheck sb' = .ok ()

/-- Something fails after creation with exception `e`; `sb` is the last good build and `log` the log. -/
def FailsAfter (create : Except PyErr (SheetBuild G)) (firstCheck finalCheck : SheetBuild G → Except PyErr Unit)
    (ops : List (Op G)) (e : PyErr) (sb : SheetBuild G) (log : List (SheetBuild G)) : Prop :=
  (create = .ok sb ∧ firstCheck sb = .error e ∧ log = [sb]) ∨
  ∃ sb0 hist done rest, create = .ok sb0 ∧ firstCheck sb0 = .ok () ∧ ops = done ++ rest ∧ Chain sb0 done hist sb ∧
    log = sb0 :: hist ++ [sb] ∧
    ((rest = [] ∧ finalCheck sb = .error e) ∨ ∃ op rest', rest = op :: rest' ∧ op sb = .error e)

theorem loop_spec (finalCheck : SheetBuild G → Except PyErr Unit) (ops : List (Op G)) (sb : SheetBuild G)
    (log : List (SheetBuild G)) :
    (∃ hist sb', Chain sb ops hist sb' ∧ finalCheck sb' = .ok () ∧
      loop none finalCheck ops sb log = ⟨some sb', log ++ (hist ++ [sb']), none⟩) ∨
    ∃ hist done rest sb' e, ops = done ++ rest ∧ Chain sb done hist sb' ∧
      loop none finalCheck ops sb log = ⟨some sb', log ++ (hist ++ [sb']), some e⟩ ∧
      ((rest = [] ∧ finalCheck sb' = .error e) ∨ ∃ op rest', rest = op :: rest' ∧ op sb' = .error e) := by
  induction ops generalizing sb log with
  | nil =>
    cases hf : finalCheck sb with
    | ok u => exact Or.inl ⟨[], sb, Chain.nil sb, hf, by simp [loop, hf]⟩
    | error e => exact Or.inr ⟨[], [], [], sb, e, rfl, Chain.nil sb, by simp [loop, hf], Or.inl ⟨rfl, hf⟩⟩
  | cons op ops ih =>
    cases ho : op sb with
    | error e =>
      exact Or.inr ⟨[], [], op :: ops, sb, e, rfl, Chain.nil sb, by simp [loop, ho], Or.inr ⟨op, ops, rfl, ho⟩⟩
    | ok sb1 =>
      have hl : loop none finalCheck (op :: ops) sb log = loop none finalCheck ops sb1 (log ++ [sb]) := by
        simp [loop, ho, showOp]
      rcases ih sb1 (log ++ [sb]) with ⟨hist, sb', h1, h2, h3⟩ | ⟨hist, done, rest, sb', e, h1, h2, h3, h4⟩
      · exact Or.inl ⟨sb :: hist, sb', Chain.cons _ _ _ _ _ _ ho h1, h2, by rw [hl, h3]; simp⟩
      · exact Or.inr ⟨sb :: hist, op :: done, rest, sb', e, by rw [h1]; rfl, Chain.cons _ _ _ _ _ _ ho h2,
          by rw [hl, h3]; simp, h4⟩

/-- The three ways the `try` block can end. -/
theorem attempt_spec (create : Except PyErr (SheetBuild G)) (firstCheck finalCheck : SheetBuild G → Except PyErr Unit)
    (ops : List (Op G)) :
    (∃ e, create = .error e ∧ attempt create none firstCheck finalCheck ops = ⟨none, [], some e⟩) ∨
    (∃ sb0 hist sb', Succeeds create firstCheck finalCheck ops sb0 hist sb' ∧
      attempt create none firstCheck finalCheck ops = ⟨some sb', sb0 :: hist ++ [sb'], none⟩) ∨
    ∃ e sb log, FailsAfter create firstCheck finalCheck ops e sb log ∧
      attempt create none firstCheck finalCheck ops = ⟨some sb, log, some e⟩ := by
  cases hc : create with
  | error e => exact Or.inl ⟨e, rfl, rfl⟩
  | ok sb =>
    right
    cases h1 : firstCheck sb with
    | error e => exact Or.inr ⟨e, sb, [sb], Or.inl ⟨rfl, h1, rfl⟩, by simp [attempt, h1]⟩
    | ok u =>
      have ha : attempt (.ok sb) none firstCheck finalCheck ops = loop none finalCheck ops sb [sb] := by
        simp [attempt, h1, showCreation]
      rcases loop_spec finalCheck ops sb [sb] with ⟨hist, sb', a1, a2, a3⟩ | ⟨hist, done, rest, sb', e, a1, a2, a3, a4⟩
      · exact Or.inl ⟨sb, hist, sb', ⟨rfl, h1, a1, a2⟩, by rw [ha, a3]; simp⟩
      · exact Or.inr ⟨e, sb', _, Or.inr ⟨sb, hist, done, rest, rfl, h1, a1, a2, rfl, a4⟩, by rw [ha, a3]; simp⟩

theorem loop_chain (finalCheck : SheetBuild G → Except PyErr Unit) (rest : List (Op G)) {sb sb' : SheetBuild G}
    {done : List (Op G)} {hist : List (SheetBuild G)} (h : Chain sb done hist sb') (log : List (SheetBuild G)) :
    loop none finalCheck (done ++ rest) sb log = loop none finalCheck rest sb' (log ++ hist) := by
  induction h generalizing log with
  | nil => simp
  | cons a a1 a' op ops hist h hc ih =>
    have : loop none finalCheck (op :: (ops ++ rest)) a log = loop none finalCheck (ops ++ rest) a1 (log ++ [a]) := by
      simp [loop, h, showOp]
    rw [List.cons_append, this, ih]
    simp

theorem FailsAfter.attempt {create : Except PyErr (SheetBuild G)}
    {firstCheck finalCheck : SheetBuild G → Except PyErr Unit} {ops : List (Op G)} {e : PyErr} {sb : SheetBuild G}
    {log : List (SheetBuild G)} (h : FailsAfter create firstCheck finalCheck ops e sb log) :
    Canned.attempt create none firstCheck finalCheck ops = ⟨some sb, log, some e⟩ := by
  rcases h with ⟨f1, f2, f3⟩ | ⟨sb1, hist1, done, rest, f1, f2, f3, f4, f5, f6⟩
  · simp [Canned.attempt, f1, f2, f3]
  · have ha : Canned.attempt create none firstCheck finalCheck ops = loop none finalCheck ops sb1 [sb1] := by
      simp [Canned.attempt, f1, f2, showCreation]
    rw [ha, f3, loop_chain finalCheck rest f4, f5]
    rcases f6 with ⟨r, f6⟩ | ⟨op, rest', r, f6⟩
    · subst r
      simp [loop, f6]
    · subst r
      simp [loop, f6]

theorem Succeeds.attempt {create : Except PyErr (SheetBuild G)}
    {firstCheck finalCheck : SheetBuild G → Except PyErr Unit} {ops : List (Op G)} {sb0 sb' : SheetBuild G}
    {hist : List (SheetBuild G)} (h : Succeeds create firstCheck finalCheck ops sb0 hist sb') :
    Canned.attempt create none firstCheck finalCheck ops = ⟨some sb', sb0 :: hist ++ [sb'], none⟩ := by
  obtain ⟨f1, f2, f3, f4⟩ := h
  have ha : Canned.attempt create none firstCheck finalCheck ops = loop none finalCheck ops sb0 [sb0] := by
    simp [Canned.attempt, f1, f2, showCreation]
  have := loop_chain finalCheck [] f3 [sb0]
  rw [List.append_nil] at this
  rw [ha, this]
  simp [loop, f4]

/-- C53: `canned_1` returns `ok=True` iff creation, the first check, all steps and the final check succeed;
the history is then the created build, the build before each step and the final build, and the cuts are the
final chosen areas. -/
theorem c53_ok (create : Except PyErr (SheetBuild G)) (firstCheck finalCheck : SheetBuild G → Except PyErr Unit)
    (ops : List (Op G)) (rof : Option Bool) (r : Result G) :
    (canned1 create none firstCheck finalCheck ops rof = .ok r ∧ r.ok = true) ↔
    ∃ sb0 hist sb', Succeeds create firstCheck finalCheck ops sb0 hist sb' ∧
      r = ⟨true, sb', sb0 :: hist ++ [sb'], sb'.sheetChosen⟩ := by
  unfold canned1
  rcases attempt_spec create firstCheck finalCheck ops with ⟨e, h1, h2⟩ | ⟨sb0, hist, sb', h1, h2⟩ |
    ⟨e, sb, log, h1, h2⟩
  · rw [h2]
    constructor
    · rintro ⟨h, hr⟩
      rcases rof with _ | _ | _ <;> cases h
    · rintro ⟨_, _, _, ⟨h, _⟩, _⟩
      rw [h1] at h
      cases h
  · rw [h2]
    dsimp only [finish]
    constructor
    · rintro ⟨h, _⟩
      cases h
      exact ⟨sb0, hist, sb', h1, rfl⟩
    · rintro ⟨a, b, c, ⟨p1, p2, p3, p4⟩, rfl⟩
      obtain ⟨q1, q2, q3, q4⟩ := h1
      rw [q1] at p1
      cases p1
      obtain ⟨rfl, rfl⟩ := q3.unique p3
      exact ⟨rfl, rfl⟩
  · rw [h2]
    constructor
    · rintro ⟨h, hr⟩
      rcases rof with _ | _ | _
      · cases h
      · cases h
      · cases h
        cases hr
    · rintro ⟨a, b, c, h, _⟩
      rw [h.attempt] at h2
      cases h2

/-- The history of a successful run has one entry per step and two more. -/
theorem c53_history (create : Except PyErr (SheetBuild G)) (firstCheck finalCheck : SheetBuild G → Except PyErr Unit)
    (ops : List (Op G)) (rof : Option Bool) (r : Result G)
    (h : canned1 create none firstCheck finalCheck ops rof = .ok r) (hr : r.ok = true) :
    r.history.length = ops.length + 2 ∧ r.history.head? = create.toOption ∧
    r.history.getLast? = some r.sheetbuild ∧ r.sheetCuts = r.sheetbuild.sheetChosen := by
  obtain ⟨sb0, hist, sb', ⟨h1, _, h3, _⟩, rfl⟩ := (c53_ok create firstCheck finalCheck ops rof r).1 ⟨h, hr⟩
  refine ⟨by simp [h3.length], by rw [h1]; rfl, List.getLast?_concat .., rfl⟩

/-- C53: `canned_1` returns `ok=False` iff `return_on_failure` is set and something fails after creation; it
then returns the last good build. -/
theorem c53_failed (create : Except PyErr (SheetBuild G)) (firstCheck finalCheck : SheetBuild G → Except PyErr Unit)
    (ops : List (Op G)) (rof : Option Bool) (r : Result G) :
    (canned1 create none firstCheck finalCheck ops rof = .ok r ∧ r.ok = false) ↔
    rof = some true ∧ ∃ e, FailsAfter create firstCheck finalCheck ops e r.sheetbuild r.history ∧
      r = ⟨false, r.sheetbuild, r.history, r.sheetbuild.sheetChosen⟩ := by
  unfold canned1
  constructor
  · rintro ⟨h, hr⟩
    rcases attempt_spec create firstCheck finalCheck ops with ⟨e, h1, h2⟩ | ⟨sb0, hist, sb', h1, h2⟩ |
      ⟨e, sb, log, h1, h2⟩
    · rw [h2] at h
      rcases rof with _ | _ | _ <;> cases h
    · rw [h2] at h
      cases h
      cases hr
    · rw [h2] at h
      rcases rof with _ | _ | _
      · cases h
      · cases h
      · cases h
        exact ⟨rfl, e, h1, rfl⟩
  · rintro ⟨rfl, e, h1, h2⟩
    rw [h1.attempt]
    dsimp only [finish]
    rw [h2]
    exact ⟨rfl, rfl⟩

/-- C53: the caller gets an exception iff creation fails or something fails after it and
`return_on_failure` is not set: a `KeyError` when the parameters lack the key, the original exception when it
is false, and `UnboundLocalError` when it is true and creation fails. -/
theorem c53_raises (create : Except PyErr (SheetBuild G)) (firstCheck finalCheck : SheetBuild G → Except PyErr Unit)
    (ops : List (Op G)) (rof : Option Bool) (e' : PyErr) :
    canned1 create none firstCheck finalCheck ops rof = .error e' ↔
    (∃ e, create = .error e ∧ e' = match rof with
      | none => .keyError
      | some false => e
      | some true => .unboundLocal) ∨
    ∃ e sb log, FailsAfter create firstCheck finalCheck ops e sb log ∧
      ((rof = none ∧ e' = .keyError) ∨ (rof = some false ∧ e' = e)) := by
  unfold canned1
  constructor
  · intro h
    rcases attempt_spec create firstCheck finalCheck ops with ⟨e, h1, h2⟩ | ⟨sb0, hist, sb', h1, h2⟩ |
      ⟨e, sb, log, h1, h2⟩
    · rw [h2] at h
      refine Or.inl ⟨e, h1, ?_⟩
      rcases rof with _ | _ | _ <;> cases h <;> rfl
    · rw [h2] at h
      cases h
    · rw [h2] at h
      refine Or.inr ⟨e, sb, log, h1, ?_⟩
      rcases rof with _ | _ | _
      · cases h
        exact Or.inl ⟨rfl, rfl⟩
      · cases h
        exact Or.inr ⟨rfl, rfl⟩
      · cases h
  · rintro (⟨e, h1, rfl⟩ | ⟨e, sb, log, h1, ⟨rfl, rfl⟩ | ⟨rfl, rfl⟩⟩)
    · rw [h1]
      rcases rof with _ | _ | _ <;> rfl
    · rw [h1.attempt]
    · rw [h1.attempt]

/-- C53: with `show` set no run with a step succeeds. -/
theorem c53_show (create : Except PyErr (SheetBuild G)) (shown : Except PyErr Unit)
    (firstCheck finalCheck : SheetBuild G → Except PyErr Unit) (op : Op G) (ops : List (Op G)) (rof : Option Bool)
    (r : Result G) (h : canned1 create (some shown) firstCheck finalCheck (op :: ops) rof = .ok r) : r.ok = false := by
  have key : ∃ x log e, attempt create (some shown) firstCheck finalCheck (op :: ops) = ⟨x, log, some e⟩ := by
    unfold attempt
    cases create with
    | error e => exact ⟨_, _, _, rfl⟩
    | ok sb =>
      dsimp only
      cases firstCheck sb with
      | error e => exact ⟨_, _, _, rfl⟩
      | ok u =>
        cases shown with
        | error e => exact ⟨_, _, _, rfl⟩
        | ok u =>
          dsimp only [showCreation, loop]
          cases op sb with
          | error e => exact ⟨_, _, _, rfl⟩
          | ok sb' => exact ⟨_, _, _, rfl⟩
  obtain ⟨x, log, e, hk⟩ := key
  unfold canned1 at h
  rw [hk] at h
  rcases rof with _ | _ | _
  · cases h
  · cases h
  · cases x with
    | none => cases h
    | some sb =>
      cases h
      rfl

end Ply.Canned
