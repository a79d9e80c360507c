import Verif.Props.Main
import Verif.Props.CollisionExample

/-! # C100: an example

Two plates of 10 by 8 with four facets, from the facets to the drawing. -/

set_option Elab.async false

namespace Ply.FullRun

open Spec MeasureTheory Set Geom1D Arr Canned SheetBuild

/-- The facets 0 and 1 are the sides of one plate, 2 and 3 those of another. -/
def four : SheetOracle where
  enum l := l
  status a b := if (a = 0 ∧ b = 1) ∨ (a = 2 ∧ b = 3) then .opposed else .unrelated
  slices _ := .ok ()
  faces _ := .ok ()

theorem four_found : createSheets four [0, 2, 1, 3] 4 none = .ok [("s0".toList, ⟨[0], [1], []⟩), ("s1".toList, ⟨[2], [3], []⟩)] := by
  rfl

/-- The numbers of the joint. -/
def geo4 (x y : Sheet) : Option JointNums :=
  if x.id = "s0".toList ∧ y.id = "s1".toList then
    some ⟨fun _ => (1, 0), fun i => if i = 0 then ((0, 0), (0, 3), (0, 0), (0, 3)) else ((0, 3), (0, 3), (0, 0), (0, 0))⟩
  else if x.id = "s1".toList ∧ y.id = "s0".toList then
    some ⟨fun _ => (-1, 0), fun i => if i = 0 then ((0, 3), (0, 0), (0, 3), (0, 0)) else ((0, 0), (0, 0), (0, 3), (0, 3))⟩
  else none

/-- The line where the plates cross, seen from the other one. -/
noncomputable def lineV : Line3 := ⟨(-1, 0, 0), (0, 0, 3), (0, 0, 0), (0, 3, 3), (0, 3, 0)⟩

theorem line_back : createLine upright flatPlate = some lineV := by
  have e : norm3 (cross3 upright.plane flatPlate.plane) = 1 := by
    unfold norm3
    rw [show dot3 (cross3 upright.plane flatPlate.plane) (cross3 upright.plane flatPlate.plane) = 1 by
      norm_num [dot3, cross3, flatPlate, upright]]
    exact Real.sqrt_one
  unfold createLine
  simp only [Plate.normal, Plate.offset, if_true, if_false, one_ne_zero, e]
  rw [if_neg (by norm_num)]
  norm_num [lineV, lstsq, cross3, dot3, flatPlate, upright]
  rfl

theorem line_none {p : Plate} (hp : p.Sound) : createLine p p = none := by
  have h := (c89_crosses hp hp).1
  cases hl : createLine p p with
  | none => rfl
  | some l =>
    rw [hl, show dot3 p.plane p.plane = 1 from hp.frame'.ww] at h
    norm_num at h

theorem plate4_0 : plates "s0".toList = flatPlate := if_pos rfl

theorem plate4_1 : plates "s1".toList = upright := if_neg (by decide)

theorem geo4_exact : GeoExact geo4 plates [⟨"s0".toList⟩, ⟨"s1".toList⟩] := by
  intro x hx y hy
  have hx' : x = ⟨"s0".toList⟩ ∨ x = ⟨"s1".toList⟩ := by simpa using hx
  have hy' : y = ⟨"s0".toList⟩ ∨ y = ⟨"s1".toList⟩ := by simpa using hy
  rcases hx' with rfl | rfl <;> rcases hy' with rfl | rfl
  · rw [line_none (by rw [plate4_0]; exact flat_sound)]; rfl
  · dsimp only
    rw [plate4_0, plate4_1, line_upright]
    refine ⟨_, rfl, ?_, ?_⟩ <;> unfold JointNums.Exact <;> norm_num [Plate.project, lineU, dot3, flatPlate, upright]
  · dsimp only
    rw [plate4_0, plate4_1, line_back]
    refine ⟨_, rfl, ?_, ?_⟩ <;> unfold JointNums.Exact <;> norm_num [Plate.project, lineV, dot3, flatPlate, upright]
  · rw [line_none (by rw [plate4_1]; exact upright_sound)]; rfl

/-- The two sides of the joint. -/
def side4 (i : ℕ) : InterSide :=
  createInterSide ⟨fun _ => (1, 0), fun i => if i = 0 then ((0, 0), (0, 3), (0, 0), (0, 3)) else ((0, 3), (0, 3), (0, 0), (0, 0))⟩
    "s0,s1".toList ⟨if i = 0 then "s0".toList else "s1".toList⟩ i

/-- The two sheets. -/
def plex4 : SheetPlex := createSheetplex geo4 [⟨"s0".toList⟩, ⟨"s1".toList⟩]

theorem run_listed4 : okAnd (run { par with o := listed } plex4 none none) (fun r => r.ok &&
    decide (r.sheetCuts = [("s0".toList, g8), ("s1".toList, plateBack)])) = true := by
  decide +kernel

theorem run4 : ∃ r, run par plex4 none none = .ok r ∧ r.ok = true ∧
    r.sheetCuts = [("s0".toList, g8), ("s1".toList, plateBack)] := by
  obtain ⟨r, h1, h2⟩ := ok_of_match run_listed4
  simp only [Bool.and_eq_true, decide_eq_true_eq] at h2
  exact ⟨r, run_le listed_le par plex4 none r h1 h2.1, h2.1, h2.2⟩

theorem drawn4 : okAnd (dilateAll (Geom2D.bufferBy (arrangementOp chDemo) sqDemo) (1 / 20) [("s0".toList, g8), ("s1".toList, plateBack)]) (fun d =>
    okAnd (Writer.writeDxf d) fun out => decide (out.length = 2)) = true := by
  decide +kernel

/-- The whole way: four facets, two sheets, one joint, two outlines. -/
theorem main4 : ∃ out, mainFrom four [0, 2, 1, 3] 4 none id geo4 par (Geom2D.bufferBy (arrangementOp chDemo) sqDemo) (1 / 20) =
    .ok out ∧ out.length = 2 := by
  obtain ⟨r, h1, h2, h3⟩ := run4
  obtain ⟨d, h4, h5⟩ := ok_of_match drawn4
  obtain ⟨out, h6, h7⟩ := ok_of_match h5
  refine ⟨out, ?_, of_decide_eq_true h7⟩
  have h8 : commandLine par plex4 (Geom2D.bufferBy (arrangementOp chDemo) sqDemo) (1 / 20) = .ok out := by
    unfold commandLine
    rw [if_neg (by decide), h1]
    refine (bind_ok _ _ _).2 ⟨r, rfl, (bind_ok _ _ _).2 ⟨d, ?_, h6⟩⟩
    rw [h3]
    exact h4
  exact (bind_ok _ _ _).2 ⟨_, four_found, h8⟩

/-- C100 for these four facets: the solids cut from the two plates share next to no volume. -/
example : ∃ r, run par plex4 none none = .ok r ∧ ∃ v : V3, Spec.inner v v = 1 ∧
    volume (flatPlate.solid (dens Geom2D.region r.sheetCuts "s0".toList \ otherFingers r.sheetbuild (side4 0)) ∩
      upright.solid (dens Geom2D.region r.sheetCuts "s1".toList \ otherFingers r.sheetbuild (side4 1)) ∩
      {x | Spec.inner v x ∈ Ico (-1000) 1000}) ≤ ENNReal.ofReal (9 / 10000000) := by
  obtain ⟨out, h, -⟩ := main4
  obtain ⟨-, -, r, d, m2, m3, -, -, -, m⟩ := c100_main chDemo_valid sqDemo_root rfl (fun _ => 0) four
    (fun l => List.Perm.refl l) 4 [0, 2, 1, 3] (by decide) (by decide) none id (fun l => List.Perm.refl l) geo4 plates _ four_found
    (by
      intro s hs
      have hs' : s.1 = "s0".toList ∨ s.1 = "s1".toList := by
        simp only [List.mem_cons, List.not_mem_nil, or_false] at hs
        exact hs.imp (fun h => by rw [h]) (fun h => by rw [h])
      rcases hs' with h | h <;> rw [h]
      · exact plate4_0 ▸ flat_sound
      · exact plate4_1 ▸ upright_sound) geo4_exact par rfl par_valid par_geoms le_rfl par_islands (1 / 20) (by norm_num) out h
  obtain ⟨-, ⟨v, v1, -, -, hv⟩, -⟩ := m (side4 0) (side4 1) ⟨rfl, rfl⟩
  rw [show plates (side4 0).sheet = flatPlate from plate4_0, show plates (side4 1).sheet = upright from plate4_1] at hv
  refine ⟨r, m2, v, v1, hv.trans (ENNReal.ofReal_le_ofReal ?_)⟩
  have w : ∀ i, (side4 i).wide = 3 := fun i => by
    have : (side4 i).minNormalOffset = -3 ∧ (side4 i).maxNormalOffset = 0 := by
      unfold side4 createInterSide
      norm_num [dot, Geom2D.minQ, Geom2D.maxQ]
      split <;> norm_num
    unfold InterSide.wide
    rw [this.1, this.2]
    norm_num
  rw [w, w]
  norm_num [tol7, Spec.inner, flatPlate, upright]

end Ply.FullRun
