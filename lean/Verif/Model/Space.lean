import Verif.Model.SheetPlex
import Mathlib.Analysis.Real.Sqrt

/-!
# The joint of two sheets in space: create_sheetplex.py:307-386 and sheetplex.py:91-135

The program computes these numbers in floating point, from numpy arrays.  Here they are exact real numbers.  The
results that the rest of the program uses are the ones that `createInterSide` (Verif/Model/SheetPlex.lean) keeps as
fractions.
-/

namespace Ply

/-- A vector of space. -/
abbrev V3 := ℝ × ℝ × ℝ

/-- `np.dot` in space. -/
def dot3 (a b : V3) : ℝ := a.1 * b.1 + a.2.1 * b.2.1 + a.2.2 * b.2.2

/-- `np.cross`. -/
def cross3 (a b : V3) : V3 :=
  (a.2.1 * b.2.2 - a.2.2 * b.2.1, a.2.2 * b.1 - a.1 * b.2.2, a.1 * b.2.1 - a.2.1 * b.1)

/-- `np.linalg.norm`. -/
noncomputable def norm3 (a : V3) : ℝ := Real.sqrt (dot3 a a)

/-- The numbers of a `Sheet` (create_sheetplex.py:95-104, 123-125, 175-185): the plane of the first face, the
thickness, and the columns of `slice_rotation`.  `slice_rotation` comes from trimesh. -/
structure Plate where
  plane : V3
  height : ℝ
  thickness : ℝ
  ex : V3
  ey : V3
  ez : V3

/-- `Sheet.normal` (sheetplex.py:119-120) of the rows of `sides` (create_sheetplex.py:98-102). -/
def Plate.normal (p : Plate) (side : ℕ) : V3 := if side = 0 then p.plane else -p.plane

/-- `Sheet.offset` (sheetplex.py:122-123) of the rows of `sides` (create_sheetplex.py:98-102). -/
def Plate.offset (p : Plate) (side : ℕ) : ℝ := if side = 0 then p.height else -(p.height - p.thickness)

/-- `Sheet.project_point4` (sheetplex.py:128-135) for a fourth coordinate of 0 or 1: the inverse rotation is the
transpose and has no translation. -/
def Plate.project (p : Plate) (x : V3) : ℝ × ℝ := (dot3 p.ex x, dot3 p.ey x)

/-- `np.linalg.lstsq` for two equations with independent left sides: their solution that is nearest to the origin. -/
noncomputable def lstsq (n m : V3) (d e : ℝ) : V3 :=
  let det := dot3 n n * dot3 m m - dot3 n m * dot3 n m
  ((d * dot3 m m - e * dot3 n m) / det) • n + ((e * dot3 n n - d * dot3 n m) / det) • m

/-- The 3D fields of `Intersection` (sheetplex.py:138-163). -/
structure Line3 where
  direction : V3
  origins : V3 × V3 × V3 × V3

open Classical in
/-- The 3D part of `create_intersection` (create_sheetplex.py:312-345). -/
noncomputable def createLine (a b : Plate) : Option Line3 :=
  let dir := cross3 (a.normal 0) (b.normal 0)
  let ilen := norm3 dir
  if ilen < 1 / 10000 then none
  else
    let corner := fun t1 t2 => lstsq (a.normal t1) (b.normal t2) (a.offset t1) (b.offset t2)
    some ⟨ilen⁻¹ • dir, corner 0 0, corner 0 1, corner 1 0, corner 1 1⟩

/-- `np.dot` in the plane. -/
def dotR (a b : ℝ × ℝ) : ℝ := a.1 * b.1 + a.2 * b.2

/-- `create_inter_side` (create_sheetplex.py:360-386) before and without the rounding to floats: the five numbers it
keeps are those of the line. -/
structure InterSide.Exact (s : InterSide) (p : Plate) (l : Line3) : Prop where
  direction : ((s.direction.1 : ℝ), (s.direction.2 : ℝ)) = p.project l.direction
  normal : s.normal = (s.direction.2, -s.direction.1)
  origin : (s.originOffset : ℝ) = dotR (p.project l.direction) (p.project l.origins.1)
  low : (s.minNormalOffset : ℝ) =
    min (min (dotR (p.project l.origins.1) ((p.project l.direction).2, -(p.project l.direction).1))
        (dotR (p.project l.origins.2.1) ((p.project l.direction).2, -(p.project l.direction).1)))
      (min (dotR (p.project l.origins.2.2.1) ((p.project l.direction).2, -(p.project l.direction).1))
        (dotR (p.project l.origins.2.2.2) ((p.project l.direction).2, -(p.project l.direction).1)))
  high : (s.maxNormalOffset : ℝ) =
    max (max (dotR (p.project l.origins.1) ((p.project l.direction).2, -(p.project l.direction).1))
        (dotR (p.project l.origins.2.1) ((p.project l.direction).2, -(p.project l.direction).1)))
      (max (dotR (p.project l.origins.2.2.1) ((p.project l.direction).2, -(p.project l.direction).1))
        (dotR (p.project l.origins.2.2.2) ((p.project l.direction).2, -(p.project l.direction).1)))

/-- The numbers that `create_inter_side` turns into fractions are those of the line: what `vFraction`
(create_sheetplex.py:365, 372) gives for floats that are exact. -/
def JointNums.Exact (nums : JointNums) (p : Plate) (l : Line3) (idx : ℕ) : Prop :=
  let c := fun (q : Pt) => ((q.1 : ℝ), (q.2 : ℝ))
  c (nums.dir idx) = p.project l.direction ∧ c (nums.origs idx).1 = p.project l.origins.1 ∧
    c (nums.origs idx).2.1 = p.project l.origins.2.1 ∧ c (nums.origs idx).2.2.1 = p.project l.origins.2.2.1 ∧
    c (nums.origs idx).2.2.2 = p.project l.origins.2.2.2

end Ply
