import Verif.Model.TestController
import Verif.Model.GeomUtils

/- The tests of the functions of geometry/utils.py, /repo/pympc/test/test_geometry/test_utils.py. -/
namespace Verif.TestSuite

/-- `np.testing.assert_array_almost_equal(a, b)` on two dimensional arrays (six digits) -/
noncomputable def assertMatAlmostEqual (a b : Mat ℝ) : Py Unit :=
  assertTrue (decide (a.nr = b.nr ∧ a.nc = b.nc ∧ ∀ i < a.nr, ∀ j < a.nc, |a.e i j - b.e i j| < 1.5e-6))

/-- the matrix of test_utils.py:21 -/
def planeRows : Mat ℝ := ⟨2, 3, fun i j => if i = j then 1 else 0⟩

/-- the matrix of test_utils.py:29 -/
def slantRows : Mat ℝ := ⟨2, 3, fun i j => if i = j ∨ (i = 1 ∧ j = 2) then 1 else 0⟩

/-- the first case of `test_nullspace_basis` (test_utils.py:15-18) -/
noncomputable def nullspaceEmpty (L : Lib) : Py Unit := do
  let N ← Geom.nullspace_basis L (Mat.eye 3)
  assertTrue (decide (N.nr = 3 ∧ N.nc = 0))

/-- the second case (test_utils.py:20-26) -/
noncomputable def nullspacePlane (L : Lib) : Py Unit := do
  let N ← Geom.nullspace_basis L planeRows
  assertMatAlmostEqual N ⟨3, 1, fun i _ => if i = 2 then 1 else 0⟩

/-- the third case (test_utils.py:28-33).  Numpy divides by zero with a warning, and neither infinity nor `nan` is almost -1; here the quotient is zero,
which is not either. -/
noncomputable def nullspaceSlant (L : Lib) : Py Unit := do
  let N ← Geom.nullspace_basis L slantRows
  assertTrue (decide (N.nr = 3 ∧ N.nc = 1))
  assertAlmostEqual (N.e 0 0) 0
  assertAlmostEqual (N.e 1 0 / N.e 2 0) (-1)

/-- `test_nullspace_basis` (test_utils.py:12-33) -/
noncomputable def test_nullspace_basis (L : Lib) : Py Unit := do
  nullspaceEmpty L
  nullspacePlane L
  nullspaceSlant L

/-- the matrix of test_utils.py:38 -/
def repeatedRow : Mat ℝ := ⟨3, 3, fun i j => if (i = 1 ∧ j = 1) ∨ (i ≠ 1 ∧ j = 0) then 1 else 0⟩

/-- `test_linearly_independent_rows` (test_utils.py:35-48); `remove` raises `ValueError` if the entry is missing -/
noncomputable def test_linearly_independent_rows (L : Lib) : Py Unit := do
  let li_rows := Geom.linearly_independent_rows L repeatedRow
  assertTrue (decide (li_rows.length = 2))
  assertTrue (decide (1 ∈ li_rows))
  let first ← np.listGet (li_rows.erase 1) 0
  assertTrue (decide (first = 0 ∨ first = 2))
  let all := Geom.linearly_independent_rows L (Mat.eye 3)
  assertTrue (decide (all = List.range 3))

/-- the case of dimension `n` of `test_plane_through_points` (test_utils.py:54-60), with the offset that is drawn -/
noncomputable def planeSimplex (offset : Vec ℝ) (n : ℕ) : Py Unit := do
  let (a, d) ← Geom.plane_through_points offset ((List.range n).map (Mat.eye n).row)
  assertArrayAlmostEqual (some a) (some ⟨n, fun _ => 1 / Real.sqrt n⟩)
  assertAlmostEqual d (1 / Real.sqrt n)

/-- the two points of test_utils.py:63 -/
def linePoints : List (Vec ℝ) := [⟨2, fun i => if i = 0 then 1 else -1⟩, ⟨2, fun i => if i = 0 then -1 else 1⟩]

/-- the plane through the origin (test_utils.py:62-66).  As above, a division by zero leads to a failure here and there. -/
noncomputable def planeLine (offset : Vec ℝ) : Py Unit := do
  let (a, d) ← Geom.plane_through_points offset linePoints
  assertAlmostEqual (a.e 0 / a.e 1) 1
  assertAlmostEqual d 0

/-- `test_plane_through_points` (test_utils.py:50-66) with the offsets that are drawn -/
noncomputable def test_plane_through_points (offsets : ℕ → Vec ℝ) (offset : Vec ℝ) : Py Unit := do
  forRange (fun i => planeSimplex (offsets i) (i + 2)) 8
  planeLine offset

end Verif.TestSuite
