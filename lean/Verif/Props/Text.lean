import Verif.Model.Text
import Mathlib.Tactic.Tauto
import Mathlib.Tactic.ByContra
import Mathlib.Tactic.NormNum

/-! # C56, C58 -/

namespace Ply

/-! ### C56 -/

/-- Characters that occur in the text of a rational. -/
def isTok (c : Char) : Prop := c.isDigit = true ∨ c = '-' ∨ c = '/'

theorem natText_tok (n : ℕ) : ∀ c ∈ natText n, c.isDigit = true :=
  fun _ hc => Nat.isDigit_of_mem_toDigits (by decide) (by decide) hc

theorem natText_inj {m n : ℕ} (h : natText m = natText n) : m = n := by
  have := congrArg (fun l => Nat.ofDigitChars 10 l 0) h
  simpa [natText, Nat.ofDigitChars_toDigits (b := 10) (by decide) (by decide)] using this

theorem intText_tok (z : ℤ) : ∀ c ∈ intText z, c.isDigit = true ∨ c = '-' := by
  intro c hc
  cases z with
  | ofNat n => exact Or.inl (natText_tok n c hc)
  | negSucc n =>
    rcases List.mem_cons.1 hc with rfl | hc
    · exact Or.inr rfl
    · exact Or.inl (natText_tok _ c hc)

theorem minus_not_digit : ¬ ('-'.isDigit = true) := by decide

theorem intText_inj {y z : ℤ} (h : intText y = intText z) : y = z := by
  cases y with
  | ofNat m =>
    cases z with
    | ofNat n => exact congrArg _ (natText_inj h)
    | negSucc n =>
      have : '-' ∈ natText m := by
        have h' : natText m = '-' :: natText (n + 1) := h
        rw [h']; simp
      exact absurd (natText_tok m _ this) minus_not_digit
  | negSucc m =>
    cases z with
    | ofNat n =>
      have : '-' ∈ natText n := by
        have h' : '-' :: natText (m + 1) = natText n := h
        rw [← h']; simp
      exact absurd (natText_tok n _ this) minus_not_digit
    | negSucc n =>
      have h' : '-' :: natText (m + 1) = '-' :: natText (n + 1) := h
      have := natText_inj (List.cons.inj h').2
      have e : m = n := by omega
      rw [e]

theorem slash_not_int (z : ℤ) : '/' ∉ intText z := by
  intro h
  rcases intText_tok z _ h with h | h
  · exact absurd h (by decide)
  · exact absurd h (by decide)

theorem split_unique {α : Type*} {x : α} {a b c d : List α} (ha : x ∉ a) (hc : x ∉ c)
    (h : a ++ x :: b = c ++ x :: d) : a = c ∧ b = d := by
  induction a generalizing c with
  | nil =>
    cases c with
    | nil => exact ⟨rfl, (List.cons.inj h).2⟩
    | cons y c => exact absurd (List.cons.inj h).1 (fun e => hc (by simp [e]))
  | cons y a ih =>
    cases c with
    | nil => exact absurd (List.cons.inj h).1 (fun e => ha (by simp [e]))
    | cons z c =>
      have := List.cons.inj h
      obtain ⟨e1, e2⟩ := ih (fun m => ha (by simp [m])) (fun m => hc (by simp [m])) this.2
      exact ⟨by rw [this.1, e1], e2⟩

/-- C56: the text of a rational determines the rational. -/
theorem c56_frac {p q : ℚ} (h : fracText p = fracText q) : p = q := by
  unfold fracText at h
  split_ifs at h with hp hq hq
  · exact Rat.ext (intText_inj h) (hp.trans hq.symm)
  · exact absurd (show '/' ∈ intText p.num by rw [h]; simp) (slash_not_int _)
  · exact absurd (show '/' ∈ intText q.num by rw [← h]; simp) (slash_not_int _)
  · obtain ⟨e1, e2⟩ := split_unique (slash_not_int _) (slash_not_int _) h
    exact Rat.ext (intText_inj e1) (natText_inj e2)

theorem fracText_tok (q : ℚ) : ∀ c ∈ fracText q, isTok c := by
  intro c hc
  unfold fracText at hc
  split_ifs at hc
  · rcases intText_tok _ c hc with h | h
    · exact Or.inl h
    · exact Or.inr (Or.inl h)
  · rcases List.mem_append.1 hc with hc | hc
    · rcases intText_tok _ c hc with h | h
      · exact Or.inl h
      · exact Or.inr (Or.inl h)
    · rcases List.mem_cons.1 hc with rfl | hc
      · exact Or.inr (Or.inr rfl)
      · exact Or.inl (natText_tok _ c hc)

theorem natText_ne (n : ℕ) : natText n ≠ [] := Nat.toDigits_ne_nil

theorem fracText_ne (q : ℚ) : fracText q ≠ [] := by
  have : intText q.num ≠ [] := by
    cases q.num with
    | ofNat n => exact natText_ne n
    | negSucc n => exact List.cons_ne_nil _ _
  unfold fracText
  split_ifs
  · exact this
  · simp [this]

/-- What may follow an object: nothing, a comma or a closing bracket. -/
def Delim (s : List Char) : Prop := s = [] ∨ ∃ c r, s = c :: r ∧ (c = ',' ∨ c = ')' ∨ c = ']')

theorem delim_not_tok {c : Char} (h : c = ',' ∨ c = ')' ∨ c = ']') : ¬ isTok c := by
  unfold isTok
  rcases h with rfl | rfl | rfl <;> decide

theorem tok_split {a b s t : List Char} (ha : ∀ c ∈ a, isTok c) (hb : ∀ c ∈ b, isTok c)
    (hs : Delim s) (ht : Delim t) (h : a ++ s = b ++ t) : a = b ∧ s = t := by
  induction a generalizing b with
  | nil =>
    cases b with
    | nil => exact ⟨rfl, h⟩
    | cons y b =>
      rcases hs with rfl | ⟨c, r, rfl, hc⟩
      · simp at h
      · have := (List.cons.inj h).1
        exact absurd (hb y (by simp)) (this ▸ delim_not_tok hc)
  | cons x a ih =>
    cases b with
    | nil =>
      rcases ht with rfl | ⟨c, r, rfl, hc⟩
      · simp at h
      · have := (List.cons.inj h).1
        exact absurd (ha x (by simp)) (this ▸ delim_not_tok hc)
    | cons y b =>
      have := List.cons.inj h
      obtain ⟨e1, e2⟩ := ih (fun c hc => ha c (by simp [hc])) (fun c hc => hb c (by simp [hc])) this.2
      exact ⟨by rw [this.1, e1], e2⟩

/-- Every object's text starts with a character that is no delimiter. -/
theorem text_head (o : Obj) : ∃ c r, o.text = c :: r ∧ c ≠ ',' ∧ c ≠ ')' ∧ c ≠ ']' := by
  cases o with
  | frac q =>
    rw [Obj.text]
    cases h : fracText q with
    | nil => exact absurd h (fracText_ne q)
    | cons c r =>
      have ht : isTok c := fracText_tok q c (by rw [h]; simp)
      exact ⟨c, r, rfl, fun e => delim_not_tok (Or.inl e) ht,
        fun e => delim_not_tok (Or.inr (Or.inl e)) ht, fun e => delim_not_tok (Or.inr (Or.inr e)) ht⟩
  | tuple l => exact ⟨'(', _, by rw [Obj.text], by decide, by decide, by decide⟩
  | list l => exact ⟨'[', _, by rw [Obj.text], by decide, by decide, by decide⟩

theorem not_open_tok {c : Char} (h : c = '(' ∨ c = '[') : ¬ isTok c := by
  unfold isTok
  rcases h with rfl | rfl <;> decide

theorem join_cons (o : Obj) (r : List Obj) :
    joinText (o :: r) = o.text ++ (if r = [] then [] else ',' :: ' ' :: joinText r) := by
  rw [joinText.eq_def]
  cases r with
  | nil => simp
  | cons a r => simp

mutual
theorem text_split : ∀ (o o' : Obj) (s t : List Char), Delim s → Delim t →
    o.text ++ s = o'.text ++ t → o = o' ∧ s = t
  | .frac p, .frac q, s, t, hs, ht, h => by
    rw [Obj.text, Obj.text] at h
    obtain ⟨e1, e2⟩ := tok_split (fracText_tok p) (fracText_tok q) hs ht h
    exact ⟨by rw [c56_frac e1], e2⟩
  | .frac p, .tuple l, s, t, hs, ht, h => by
    rw [Obj.text, Obj.text] at h
    exfalso
    cases hp : fracText p with
    | nil => exact fracText_ne p hp
    | cons c r =>
      rw [hp] at h
      exact not_open_tok (Or.inl (List.cons.inj h).1) (fracText_tok p c (by rw [hp]; simp))
  | .frac p, .list l, s, t, hs, ht, h => by
    rw [Obj.text, Obj.text] at h
    exfalso
    cases hp : fracText p with
    | nil => exact fracText_ne p hp
    | cons c r =>
      rw [hp] at h
      exact not_open_tok (Or.inr (List.cons.inj h).1) (fracText_tok p c (by rw [hp]; simp))
  | .tuple l, .frac p, s, t, hs, ht, h => by
    rw [Obj.text, Obj.text] at h
    exfalso
    cases hp : fracText p with
    | nil => exact fracText_ne p hp
    | cons c r =>
      rw [hp] at h
      exact not_open_tok (Or.inl (List.cons.inj h).1.symm) (fracText_tok p c (by rw [hp]; simp))
  | .list l, .frac p, s, t, hs, ht, h => by
    rw [Obj.text, Obj.text] at h
    exfalso
    cases hp : fracText p with
    | nil => exact fracText_ne p hp
    | cons c r =>
      rw [hp] at h
      exact not_open_tok (Or.inr (List.cons.inj h).1.symm) (fracText_tok p c (by rw [hp]; simp))
  | .tuple l, .list l', s, t, hs, ht, h => by
    rw [Obj.text, Obj.text] at h
    exact absurd (List.cons.inj h).1 (by decide)
  | .list l, .tuple l', s, t, hs, ht, h => by
    rw [Obj.text, Obj.text] at h
    exact absurd (List.cons.inj h).1 (by decide)
  | .tuple l, .tuple l', s, t, hs, ht, h => by
    rw [Obj.text, Obj.text] at h
    have h2 : joinText l ++ [')'] ++ s = joinText l' ++ [')'] ++ t := (List.cons.inj h).2
    rw [List.append_assoc, List.append_assoc] at h2
    obtain ⟨e1, e2⟩ := join_split l l' ')' s t (Or.inl rfl) h2
    exact ⟨by rw [e1], e2⟩
  | .list l, .list l', s, t, hs, ht, h => by
    rw [Obj.text, Obj.text] at h
    have h2 : joinText l ++ [']'] ++ s = joinText l' ++ [']'] ++ t := (List.cons.inj h).2
    rw [List.append_assoc, List.append_assoc] at h2
    obtain ⟨e1, e2⟩ := join_split l l' ']' s t (Or.inr rfl) h2
    exact ⟨by rw [e1], e2⟩

theorem join_split : ∀ (l l' : List Obj) (b : Char) (s t : List Char), (b = ')' ∨ b = ']') →
    joinText l ++ b :: s = joinText l' ++ b :: t → l = l' ∧ s = t
  | [], [], b, s, t, hb, h => by
    rw [joinText.eq_def] at h
    exact ⟨rfl, (List.cons.inj h).2⟩
  | [], o :: r, b, s, t, hb, h => by
    rw [join_cons, joinText.eq_def] at h
    exfalso
    obtain ⟨c, r', e, n1, n2, n3⟩ := text_head o
    rw [e] at h
    have := (List.cons.inj h).1
    rcases hb with rfl | rfl
    · exact n2 this.symm
    · exact n3 this.symm
  | o :: r, [], b, s, t, hb, h => by
    rw [join_cons, joinText.eq_def [] ] at h
    exfalso
    obtain ⟨c, r', e, n1, n2, n3⟩ := text_head o
    rw [e] at h
    have := (List.cons.inj h).1
    rcases hb with rfl | rfl
    · exact n2 this
    · exact n3 this
  | o :: r, o' :: r', b, s, t, hb, h => by
    rw [join_cons, join_cons, List.append_assoc, List.append_assoc] at h
    have hd : ∀ (r : List Obj) (s : List Char),
        Delim ((if r = [] then [] else ',' :: ' ' :: joinText r) ++ b :: s) := by
      intro r s
      by_cases hr : r = []
      · rw [if_pos hr]; exact Or.inr ⟨b, s, rfl, by tauto⟩
      · rw [if_neg hr]; exact Or.inr ⟨',', _, rfl, Or.inl rfl⟩
    obtain ⟨e1, e2⟩ := text_split o o' _ _ (hd r s) (hd r' t) h
    subst e1
    by_cases hr : r = []
    · by_cases hr' : r' = []
      · rw [if_pos hr, if_pos hr'] at e2
        exact ⟨by rw [hr, hr'], (List.cons.inj e2).2⟩
      · rw [if_pos hr, if_neg hr'] at e2
        exfalso
        have := (List.cons.inj e2).1
        rcases hb with rfl | rfl <;> exact absurd this (by decide)
    · by_cases hr' : r' = []
      · rw [if_neg hr, if_pos hr'] at e2
        exfalso
        have := (List.cons.inj e2).1
        rcases hb with rfl | rfl <;> exact absurd this (by decide)
      · rw [if_neg hr, if_neg hr'] at e2
        have e3 := (List.cons.inj (List.cons.inj e2).2).2
        obtain ⟨e4, e5⟩ := join_split r r' b s t hb e3
        exact ⟨by rw [e4], e5⟩
end

theorem args_cons (o : Obj) (r : List Obj) :
    joinArgs (o :: r) = o.text ++ (if r = [] then [] else ',' :: joinArgs r) := by
  rw [joinArgs.eq_def]
  cases r with
  | nil => simp
  | cons a r => simp

theorem args_ne (o : Obj) (r : List Obj) : joinArgs (o :: r) ≠ [] := by
  rw [args_cons]
  obtain ⟨c, r', e, -⟩ := text_head o
  rw [e]
  simp

theorem args_inj : ∀ l l' : List Obj, joinArgs l = joinArgs l' → l = l'
  | [], [], _ => rfl
  | [], o :: r, h => absurd h.symm (args_ne o r)
  | o :: r, [], h => absurd h (args_ne o r)
  | o :: r, o' :: r', h => by
    rw [args_cons, args_cons] at h
    have hd : ∀ r : List Obj, Delim (if r = [] then [] else ',' :: joinArgs r) := by
      intro r
      by_cases hr : r = []
      · rw [if_pos hr]; exact Or.inl rfl
      · rw [if_neg hr]; exact Or.inr ⟨',', _, rfl, Or.inl rfl⟩
    obtain ⟨e1, e2⟩ := text_split o o' _ _ (hd r) (hd r') h
    subst e1
    by_cases hr : r = []
    · by_cases hr' : r' = []
      · rw [hr, hr']
      · rw [if_pos hr, if_neg hr'] at e2
        exact absurd e2.symm (List.cons_ne_nil _ _)
    · by_cases hr' : r' = []
      · rw [if_neg hr, if_pos hr'] at e2
        exact absurd e2 (List.cons_ne_nil _ _)
      · rw [if_neg hr, if_neg hr'] at e2
        rw [args_inj r r' (List.cons.inj e2).2]

/-- C56: `fstr` of any arguments made of rationals, tuples and lists determines the arguments. -/
theorem c56_fstr (l l' : List Obj) (h : fstr l = fstr l') : l = l' := by
  unfold fstr at h
  have h3 := (List.cons.inj (List.cons.inj (List.cons.inj h).2).2).2
  exact args_inj l l' (List.append_cancel_right h3)

/-- C56: the text of a rational: the decimal integer, or numerator, slash, denominator in lowest
terms. -/
theorem c56_text (n : ℤ) (d : ℕ) (hd : 0 < d) (hc : n.natAbs.Coprime d) :
    fracText ((n : ℚ) / d) =
      if d = 1 then (toString n).toList else (toString n).toList ++ '/' :: (toString d).toList := by
  have hn : ∀ m : ℕ, natText m = (toString m).toList := by
    intro m
    simp [natText, toString, Nat.repr]
  have hi : intText n = (toString n).toList := by
    cases n with
    | ofNat m =>
      show natText m = _
      rw [hn]
      rfl
    | negSucc m =>
      show '-' :: natText (m + 1) = _
      rw [hn]
      simp [toString, Int.repr, Nat.repr]
  have e : (n : ℚ) / d = ⟨n, d, hd.ne', hc⟩ := by
    have := Rat.num_div_den (⟨n, d, hd.ne', hc⟩ : ℚ)
    simpa using this
  rw [e, fracText]
  simp only [hi, hn]

example : fracText (3 / 2) = "3/2".toList ∧ fracText (-4) = "-4".toList := by
  have a := c56_text 3 2 (by decide) (by decide)
  have b := c56_text (-4) 1 (by decide) (by decide)
  norm_num at a b
  exact ⟨a, b⟩

/-! ### C58 -/

/-- C58: a forced call always checks. -/
theorem c58_forced (interval index : ℕ) (l : List Bool) (k : ℕ) (h : l[k]? = some true) :
    (checkRun interval index l).1[k]? = some true := by
  induction l generalizing index k with
  | nil => simp at h
  | cons f l ih =>
    rw [checkRun.eq_def]
    dsimp only
    cases k with
    | zero =>
      have : f = true := by simpa using h
      subst this
      simp [checkStep]
    | succ k => exact ih _ _ (by simpa using h)

theorem checkRun_append (n i : ℕ) (l m : List Bool) :
    checkRun n i (l ++ m) =
      ((checkRun n i l).1 ++ (checkRun n (checkRun n i l).2 m).1, (checkRun n (checkRun n i l).2 m).2) := by
  induction l generalizing i with
  | nil => simp [checkRun]
  | cons f l ih =>
    rw [List.cons_append, checkRun.eq_def, checkRun.eq_def n i (f :: l)]
    dsimp only
    rw [ih]
    rfl

theorem checkRun_index (n i : ℕ) (l : List Bool) (hi : i ≤ n) : (checkRun n i l).2 ≤ n := by
  induction l generalizing i with
  | nil => exact hi
  | cons f l ih =>
    rw [checkRun.eq_def]
    dsimp only
    apply ih
    unfold checkStep
    split_ifs with h
    · exact Nat.zero_le _
    · push Not at h
      exact h.2

theorem checkRun_none (n i : ℕ) (l : List Bool) (hi : i ≤ n)
    (h : ∀ b ∈ (checkRun n i l).1, b = false) : i + l.length ≤ n := by
  induction l generalizing i with
  | nil => exact hi
  | cons f l ih =>
    rw [checkRun.eq_def] at h
    dsimp only at h
    have h0 := h (checkStep n i f).1 (by simp)
    unfold checkStep at h0 h
    split_ifs at h0 h with hc
    push Not at hc
    have := ih (i + 1) hc.2 (fun b hb => h b (by simp [hb]))
    simp only [List.length_cons]
    omega

/-- C58: whatever calls came before, one of any `interval + 1` consecutive calls checks.  With the
interval 150 of the code that is one of any 151 calls. -/
theorem c58_often (interval : ℕ) (before calls : List Bool) (h : calls.length = interval + 1) :
    ∃ k, before.length ≤ k ∧ k < before.length + calls.length ∧
      (checkRun interval 0 (before ++ calls)).1[k]? = some true := by
  rw [checkRun_append]
  have hi := checkRun_index interval 0 before (Nat.zero_le _)
  generalize hj : (checkRun interval 0 before).2 = j at hi ⊢
  have hlen : ∀ i (l : List Bool), (checkRun interval i l).1.length = l.length := by
    intro i l
    induction l generalizing i with
    | nil => rfl
    | cons f l ih =>
      rw [checkRun.eq_def]
      dsimp only
      simp [ih]
  obtain ⟨b, hb, hbt⟩ : ∃ b ∈ (checkRun interval j calls).1, b ≠ false := by
    by_contra hn
    push Not at hn
    have := checkRun_none interval j calls hi hn
    omega
  obtain ⟨k, hk, rfl⟩ := List.getElem_of_mem hb
  have hk' := hk
  rw [hlen] at hk'
  refine ⟨before.length + k, by omega, by omega, ?_⟩
  rw [List.getElem?_append_right (by rw [hlen]; omega), hlen, Nat.add_sub_cancel_left,
    List.getElem?_eq_getElem hk]
  simpa using hbt

/-- C58: the bound is sharp: `interval` unforced calls after a real check do not check. -/
theorem c58_sharp (interval : ℕ) :
    ∀ b ∈ (checkRun interval 0 (List.replicate interval false)).1, b = false := by
  have key : ∀ m i, i + m ≤ interval → ∀ b ∈ (checkRun interval i (List.replicate m false)).1, b = false := by
    intro m
    induction m with
    | zero => intro i _ b hb; simp [checkRun] at hb
    | succ m ih =>
      intro i hi b hb
      rw [List.replicate_succ, checkRun.eq_def] at hb
      dsimp only at hb
      have hs : checkStep interval i false = (false, i + 1) := by
        unfold checkStep
        rw [if_neg (by simp; omega)]
      rw [hs] at hb
      rcases List.mem_cons.1 hb with rfl | hb
      · rfl
      · exact ih (i + 1) (by omega) b hb
  exact key interval 0 (by omega)

example : (checkRun 2 0 [false, false, false, true, false]).1 = [false, false, true, true, false] := rfl

end Ply
