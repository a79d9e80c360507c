import Verif.Model.Canned
import Verif.Props.AABB
import Verif.Props.Clusters

/-! # C54, C55: the written drawing -/

namespace Ply.Writer

/-- The loop `l` moved by `v` and closed. -/
def closedAt (v : Pt) (l : List Pt) : Polyline := (l ++ l.take 1).map fun q => (some (q.1 + v.1), some (q.2 + v.2))

/-- The outer boundaries of `g` have the corner `p`. -/
def Outer (g : Geom2D) (p : Pt) : Prop := ∃ s ∈ g, p ∈ s.outer

theorem drawCoords_some (v : Pt) (l : List Pt) (h : l ≠ []) :
    drawCoords (some v.1) (some v.2) l = .ok (closedAt v l) := by
  cases l with
  | nil => exact absurd rfl h
  | cons p l => rfl

theorem drawAll_some (v : Pt) (ls : List (List Pt)) (h : ∀ l ∈ ls, l ≠ []) :
    drawAll (some v.1) (some v.2) ls = .ok (ls.map (closedAt v)) := by
  induction ls with
  | nil => rfl
  | cons l ls ih =>
    rw [drawAll, drawCoords_some v l (h l List.mem_cons_self), bind_okC, ih fun x hx => h x (List.mem_cons_of_mem _ hx)]
    rfl

/-- The loops of all sheets have corners iff the file can be written. -/
theorem drawAll_isOk (dx dy : NQ) (ls : List (List Pt)) :
    (∃ r, drawAll dx dy ls = .ok r) ↔ ∀ l ∈ ls, l ≠ [] := by
  induction ls with
  | nil => exact ⟨fun _ _ h => absurd h List.not_mem_nil, fun _ => ⟨[], rfl⟩⟩
  | cons l ls ih =>
    constructor
    · rintro ⟨r, hr⟩
      rw [drawAll, bind_ok] at hr
      obtain ⟨a, h1, hr⟩ := hr
      rw [bind_ok] at hr
      obtain ⟨t, h2, _⟩ := hr
      intro x hx
      rcases List.mem_cons.1 hx with rfl | hx
      · rintro rfl
        cases h1
      · exact ih.1 ⟨t, h2⟩ x hx
    · intro h
      obtain ⟨t, ht⟩ := ih.2 fun x hx => h x (List.mem_cons_of_mem _ hx)
      cases l with
      | nil => exact absurd rfl (h [] List.mem_cons_self)
      | cons p l =>
        rw [drawAll, ht]
        exact ⟨_, rfl⟩

/-- C55: the file is written iff every boundary and hole has a corner. -/
theorem c55_writes (geoms : List (Name × Geom2D)) :
    (∃ out, writeDxf geoms = .ok out) ↔ ∀ e ∈ geoms, ∀ s ∈ e.2, s.outer ≠ [] ∧ ∀ h ∈ s.holes, h ≠ [] := by
  have key : ∀ x, (∃ out, place x geoms = .ok out) ↔ ∀ e ∈ geoms, ∀ l ∈ loopsOf e.2, l ≠ [] := by
    induction geoms with
    | nil => exact fun x => ⟨fun _ _ h => absurd h List.not_mem_nil, fun _ => ⟨[], rfl⟩⟩
    | cons e geoms ih =>
      intro x
      constructor
      · rintro ⟨out, h⟩
        rw [place, bind_ok] at h
        obtain ⟨a, h1, h⟩ := h
        rw [bind_ok] at h
        obtain ⟨t, h2, _⟩ := h
        intro c hc
        rcases List.mem_cons.1 hc with rfl | hc
        · exact (drawAll_isOk _ _ _).1 ⟨a, h1⟩
        · exact (ih _).1 ⟨t, h2⟩ c hc
      · intro h
        rw [place]
        obtain ⟨a, ha⟩ := (drawAll_isOk (NQ.map2 (· + ·) (NQ.map2 (· - ·) x (boxOfGeom e.2).lower.1) (some 3))
          (NQ.map2 (· - ·) (some 0) (boxOfGeom e.2).lower.2) _).2 (h e List.mem_cons_self)
        obtain ⟨t, ht⟩ := (ih (NQ.map2 (· + ·) x
          (NQ.map2 (· + ·) (NQ.map2 (· - ·) (boxOfGeom e.2).upper.1 (boxOfGeom e.2).lower.1) (some 3)))).2
          fun c hc => h c (List.mem_cons_of_mem _ hc)
        rw [ha, bind_okC, ht]
        exact ⟨_, rfl⟩
  unfold writeDxf
  rw [key]
  refine forall₂_congr fun e _ => ?_
  unfold loopsOf
  constructor
  · exact fun h s hs => ⟨h _ (List.mem_flatMap.2 ⟨s, hs, List.mem_cons_self⟩),
      fun l hl => h l (List.mem_flatMap.2 ⟨s, hs, List.mem_cons_of_mem _ hl⟩)⟩
  · intro h l hl
    obtain ⟨s, hs, hl⟩ := List.mem_flatMap.1 hl
    rcases List.mem_cons.1 hl with rfl | hl
    · exact (h s hs).1
    · exact (h s hs).2 l hl

/-- The positions of the sheets: the first starts at `x + 3`, and every next one starts 3 to the right of
where the one before it ends. -/
inductive Placed : ℚ → List (Name × Geom2D) → List Pt → Prop
  | nil (x : ℚ) : Placed x [] []
  | cons (x x' : ℚ) (e : Name × Geom2D) (v : Pt) (rest : List (Name × Geom2D)) (vs : List Pt)
      (left : (∀ p, Outer e.2 p → x + 3 ≤ p.1 + v.1) ∧ ∃ p, Outer e.2 p ∧ p.1 + v.1 = x + 3)
      (right : (∀ p, Outer e.2 p → p.1 + v.1 ≤ x') ∧ ∃ p, Outer e.2 p ∧ p.1 + v.1 = x')
      (low : (∀ p, Outer e.2 p → 0 ≤ p.2 + v.2) ∧ ∃ p, Outer e.2 p ∧ p.2 + v.2 = 0)
      (next : Placed x' rest vs) : Placed x (e :: rest) (v :: vs)

theorem place_spec (geoms : List (Name × Geom2D)) (hp : ∀ e ∈ geoms, ∃ p, Outer e.2 p)
    (hl : ∀ e ∈ geoms, ∀ l ∈ loopsOf e.2, l ≠ []) (x : ℚ) :
    ∃ vs, Placed x geoms vs ∧ vs.length = geoms.length ∧
      place (some x) geoms = .ok (List.flatten (List.zipWith (fun e v => (loopsOf e.2).map (closedAt v)) geoms vs)) := by
  induction geoms generalizing x with
  | nil => exact ⟨[], .nil x, rfl, rfl⟩
  | cons e geoms ih =>
    have hne : List.flatMap SPWH.outer e.2 ≠ [] := by
      obtain ⟨p, s, hs, h⟩ := hp e List.mem_cons_self
      exact List.ne_nil_of_mem (List.mem_flatMap.2 ⟨s, hs, h⟩)
    obtain ⟨lo, hi, hb, _, h1, h2, h3, h4, h5⟩ := c20_corners _ hne
    have hb' : boxOfGeom e.2 = AABB.make (some lo) (some hi) := hb
    have hmem : ∀ p, p ∈ List.flatMap SPWH.outer e.2 ↔ Outer e.2 p := fun p => List.mem_flatMap
    simp only [hmem] at h1 h2 h3 h4 h5
    obtain ⟨vs, v1, v2, v3⟩ := ih (fun c hc => hp c (List.mem_cons_of_mem _ hc))
      (fun c hc => hl c (List.mem_cons_of_mem _ hc)) (x + (hi.1 - lo.1 + 3))
    refine ⟨(x - lo.1 + 3, 0 - lo.2) :: vs, ?_, by simp [v2], ?_⟩
    · refine .cons x (x + (hi.1 - lo.1 + 3)) e _ geoms vs ⟨?_, ?_⟩ ⟨?_, ?_⟩ ⟨?_, ?_⟩ v1
      · intro p hp
        have := (h5 p hp).1
        dsimp only
        linarith
      · obtain ⟨p, p1, p2⟩ := h1
        exact ⟨p, p1, by dsimp only; linarith⟩
      · intro p hp
        have := (h5 p hp).2.1
        dsimp only
        linarith
      · obtain ⟨p, p1, p2⟩ := h3
        exact ⟨p, p1, by dsimp only; linarith⟩
      · intro p hp
        have := (h5 p hp).2.2.1
        dsimp only
        linarith
      · obtain ⟨p, p1, p2⟩ := h2
        exact ⟨p, p1, by dsimp only; linarith⟩
    · rw [place]
      rw [hb', AABB.make_some]
      have := drawAll_some (x - lo.1 + 3, 0 - lo.2) (loopsOf e.2) (hl e List.mem_cons_self)
      dsimp only [NQ.map2] at this ⊢
      rw [this, bind_okC, v3]
      rfl

theorem Placed.length {x : ℚ} {geoms : List (Name × Geom2D)} {vs : List Pt} (h : Placed x geoms vs) :
    vs.length = geoms.length := by
  induction h with
  | nil => rfl
  | cons _ _ _ _ _ _ _ _ _ _ ih => simp [ih]

/-- Everything is to the right of `x + 3`. -/
theorem Placed.right_of {x : ℚ} {geoms : List (Name × Geom2D)} {vs : List Pt} (h : Placed x geoms vs) (j : ℕ)
    (e : Name × Geom2D) (v : Pt) (he : geoms[j]? = some e) (hv : vs[j]? = some v) (q : Pt) (hq : Outer e.2 q) :
    x + 3 ≤ q.1 + v.1 := by
  induction h generalizing j with
  | nil => cases he
  | cons x x' e' v' rest vs left right low next ih =>
    cases j with
    | zero =>
      cases he
      cases hv
      exact left.1 q hq
    | succ j =>
      have h1 := ih j he hv
      obtain ⟨p, p1, p2⟩ := left.2
      have := right.1 p p1
      linarith

theorem Placed.at {x : ℚ} {geoms : List (Name × Geom2D)} {vs : List Pt} (h : Placed x geoms vs) :
    (∀ (i : ℕ) e v, geoms[i]? = some e → vs[i]? = some v →
      (∀ p, Outer e.2 p → 0 ≤ p.2 + v.2) ∧ ∃ p, Outer e.2 p ∧ p.2 + v.2 = 0) ∧
    (∀ e v, geoms[0]? = some e → vs[0]? = some v → ∃ p, Outer e.2 p ∧ p.1 + v.1 = x + 3) ∧
    (∀ (i j : ℕ) e v e' v', i < j → geoms[i]? = some e → vs[i]? = some v → geoms[j]? = some e' → vs[j]? = some v' →
      ∀ p q, Outer e.2 p → Outer e'.2 q → p.1 + v.1 + 3 ≤ q.1 + v'.1) ∧
    (∀ (i : ℕ) e v e' v', geoms[i]? = some e → vs[i]? = some v → geoms[i + 1]? = some e' → vs[i + 1]? = some v' →
      ∃ p q, Outer e.2 p ∧ Outer e'.2 q ∧ p.1 + v.1 + 3 = q.1 + v'.1) := by
  induction h with
  | nil => simp
  | cons x x' e0 v0 rest vs left right low next ih =>
    obtain ⟨i1, i2, i3, i4⟩ := ih
    refine ⟨?_, ?_, ?_, ?_⟩
    · intro i e v he hv
      cases i with
      | zero => cases he; cases hv; exact low
      | succ i => exact i1 i e v he hv
    · intro e v he hv
      cases he
      cases hv
      exact left.2
    · intro i j e v e' v' hij he hv he' hv' p q hp hq
      cases j with
      | zero => omega
      | succ j =>
        cases i with
        | zero =>
          cases he
          cases hv
          have h1 := right.1 p hp
          have h2 := next.right_of j e' v' he' hv' q hq
          linarith
        | succ i => exact i3 i j e v e' v' (by omega) he hv he' hv' p q hp hq
    · intro i e v e' v' he hv he' hv'
      cases i with
      | zero =>
        cases he
        cases hv
        obtain ⟨p, p1, p2⟩ := right.2
        obtain ⟨q, q1, q2⟩ := i2 e' v' he' hv'
        exact ⟨p, q, p1, q1, by linarith⟩
      | succ i => exact i4 i e v e' v' he hv he' hv'

/-- C54, C55: if every sheet has a corner, `write_dxf` writes for every sheet the closed outlines of its
polygons and holes, moved by one vector.  The moved sheets have their lowest corner at height 0, the first
starts at 3, every sheet is at least 3 to the right of the ones before it, and next sheets are exactly 3
apart. -/
theorem c54_placed (geoms : List (Name × Geom2D)) (out : List Polyline) (h : writeDxf geoms = .ok out)
    (hne : ∀ e ∈ geoms, e.2 ≠ []) :
    ∃ vs : List Pt, vs.length = geoms.length ∧
      out = List.flatten (List.zipWith
        (fun e v => e.2.flatMap fun s => closedAt v s.outer :: s.holes.map (closedAt v)) geoms vs) ∧
      (∀ (i : ℕ) e v, geoms[i]? = some e → vs[i]? = some v →
        (∀ p, Outer e.2 p → 0 ≤ p.2 + v.2) ∧ ∃ p, Outer e.2 p ∧ p.2 + v.2 = 0) ∧
      (∀ e v, geoms[0]? = some e → vs[0]? = some v → (∀ p, Outer e.2 p → 3 ≤ p.1 + v.1) ∧
        ∃ p, Outer e.2 p ∧ p.1 + v.1 = 3) ∧
      (∀ (i j : ℕ) e v e' v', i < j → geoms[i]? = some e → vs[i]? = some v → geoms[j]? = some e' → vs[j]? = some v' →
        ∀ p q, Outer e.2 p → Outer e'.2 q → p.1 + v.1 + 3 ≤ q.1 + v'.1) ∧
      (∀ (i : ℕ) e v e' v', geoms[i]? = some e → vs[i]? = some v → geoms[i + 1]? = some e' → vs[i + 1]? = some v' →
        ∃ p q, Outer e.2 p ∧ Outer e'.2 q ∧ p.1 + v.1 + 3 = q.1 + v'.1) := by
  have hw := (c55_writes geoms).1 ⟨out, h⟩
  obtain ⟨vs, v1, v2, v3⟩ := place_spec geoms (fun e he => by
      obtain ⟨s, hs⟩ := List.exists_mem_of_ne_nil _ (hne e he)
      obtain ⟨p, hp⟩ := List.exists_mem_of_ne_nil _ (hw e he s hs).1
      exact ⟨p, s, hs, hp⟩) (fun e he l hl => by
      obtain ⟨s, hs, hl⟩ := List.mem_flatMap.1 hl
      rcases List.mem_cons.1 hl with rfl | hl
      · exact (hw e he s hs).1
      · exact (hw e he s hs).2 l hl) 0
  obtain ⟨a1, a2, a3, a4⟩ := v1.at
  refine ⟨vs, v2, ?_, a1, fun e v he hv => ⟨fun p hp => ?_, ?_⟩, a3, a4⟩
  · unfold writeDxf at h
    rw [v3] at h
    cases h
    congr 2
    funext e v
    unfold loopsOf
    rw [List.map_flatMap]
    rfl
  · have := v1.right_of 0 e v he hv p hp
    linarith
  · obtain ⟨p, p1, p2⟩ := a2 e v he hv
    exact ⟨p, p1, by linarith⟩

theorem drawAll_none (dy : NQ) (ls : List (List Pt)) (r : List Polyline) (h : drawAll none dy ls = .ok r) :
    r.length = ls.length ∧ ∀ pl ∈ r, ∀ q ∈ pl, q.1 = none := by
  induction ls generalizing r with
  | nil => cases h; exact ⟨rfl, fun _ h => absurd h List.not_mem_nil⟩
  | cons l ls ih =>
    rw [drawAll, bind_ok] at h
    obtain ⟨a, h1, h⟩ := h
    rw [bind_ok] at h
    obtain ⟨t, h2, h⟩ := h
    cases h
    obtain ⟨i1, i2⟩ := ih t h2
    refine ⟨by simp [i1], fun pl hpl => ?_⟩
    rcases List.mem_cons.1 hpl with rfl | hpl
    · cases l with
      | nil => cases h1
      | cons p l =>
        cases h1
        intro q hq
        obtain ⟨c, _, rfl⟩ := List.mem_map.1 hq
        rfl
    · exact i2 pl hpl

theorem place_none (geoms : List (Name × Geom2D)) (r : List Polyline) (h : place none geoms = .ok r) :
    r.length = (geoms.map fun e => (loopsOf e.2).length).sum ∧ ∀ pl ∈ r, ∀ q ∈ pl, q.1 = none := by
  induction geoms generalizing r with
  | nil => cases h; exact ⟨rfl, fun _ h => absurd h List.not_mem_nil⟩
  | cons e geoms ih =>
    rw [place, bind_ok] at h
    obtain ⟨a, h1, h⟩ := h
    rw [bind_ok] at h
    obtain ⟨t, h2, h⟩ := h
    cases h
    obtain ⟨d1, d2⟩ := drawAll_none _ _ a h1
    obtain ⟨i1, i2⟩ := ih t h2
    refine ⟨by simp [d1, i1], fun pl hpl => ?_⟩
    rcases List.mem_append.1 hpl with hpl | hpl
    · exact d2 pl hpl
    · exact i2 pl hpl

/-- C54: after a sheet without polygons every outline has undefined x coordinates. -/
theorem c54_after_empty (before after : List (Name × Geom2D)) (e : Name × Geom2D) (he : e.2 = []) (out : List Polyline)
    (h : writeDxf (before ++ e :: after) = .ok out) :
    ∃ a b, out = a ++ b ∧
      b.length = (after.map fun e => (e.2.map fun s => 1 + s.holes.length).sum).sum ∧
      ∀ pl ∈ b, ∀ q ∈ pl, q.1 = none := by
  have key : ∀ x out, place x (before ++ e :: after) = .ok out → ∃ a b, out = a ++ b ∧
      b.length = (after.map fun e => (loopsOf e.2).length).sum ∧ ∀ pl ∈ b, ∀ q ∈ pl, q.1 = none := by
    clear h
    induction before with
    | nil =>
      intro x out h
      rw [List.nil_append, place, bind_ok] at h
      obtain ⟨a, h1, h⟩ := h
      rw [bind_ok] at h
      obtain ⟨t, h2, h⟩ := h
      cases h
      rw [he, show NQ.map2 (· + ·) x (NQ.map2 (· + ·) (NQ.map2 (· - ·) (boxOfGeom []).upper.1 (boxOfGeom []).lower.1)
        (some 3)) = none by cases x <;> rfl] at h2
      exact ⟨a, t, rfl, place_none after t h2⟩
    | cons c before ih =>
      intro x out h
      rw [List.cons_append, place, bind_ok] at h
      obtain ⟨a, h1, h⟩ := h
      rw [bind_ok] at h
      obtain ⟨t, h2, h⟩ := h
      cases h
      obtain ⟨a', b, e1, e2, e3⟩ := ih _ t h2
      exact ⟨a ++ a', b, by rw [e1, List.append_assoc], e2, e3⟩
  obtain ⟨a, b, e1, e2, e3⟩ := key _ out h
  refine ⟨a, b, e1, e2.trans ?_, e3⟩
  congr 2
  funext c
  unfold loopsOf
  rw [List.length_flatMap]
  congr 2
  funext s
  simp [add_comm]

/-- Two sheets, the second with a hole. -/
example : writeDxf [("a".toList, [⟨[(0, 0), (1, 0), (1, 1)], []⟩]),
      ("b".toList, [⟨[(-5, -5), (5, -5), (0, 5)], [[(0, 0), (1, 0), (0, 1)]]⟩])] =
    .ok [closedAt (3, 0) [(0, 0), (1, 0), (1, 1)], closedAt (12, 5) [(-5, -5), (5, -5), (0, 5)],
      closedAt (12, 5) [(0, 0), (1, 0), (0, 1)]] := by
  decide +kernel

/-- An empty sheet spoils the position of the next. -/
example : writeDxf [("a".toList, []), ("b".toList, [⟨[(0, 0), (1, 0), (1, 1)], []⟩])] =
    .ok [[(none, some 0), (none, some 0), (none, some 1), (none, some 0)]] := by
  decide +kernel

end Ply.Writer
