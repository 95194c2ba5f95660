import Verif.Model.TestSolvers

/- `test_remove_equalities`, /repo/pympc/test/test_geometry/test_polyhedron.py:257-299. -/
namespace Verif.TestSuite

/-- `M[i,j]` -/
def entryM (M : Mat ℝ) (i j : ℕ) : Py ℝ := if i < M.nr ∧ j < M.nc then .ok (M.e i j) else .error .indexError

/-- `np.min(..)` of the entries, which raises if there are none -/
noncomputable def minList : List ℝ → Py ℝ
  | [] => .error .valueError
  | a :: l => .ok (l.foldr min a)

/-- `np.abs(residual)` where `residual = E.dot(np.array([[n]])) - f` (test_polyhedron.py:278).  The product is a column and `f` an array with one axis: the
difference is the matrix of all the differences of an entry of the product and an entry of `f`. -/
noncomputable def absResiduals (E : Mat ℝ) (f : Vec ℝ) (n : ℝ) : Py (List ℝ) := do
  let En ← np.dotMM E ⟨1, 1, fun _ _ => n⟩
  return (List.range En.nr).flatMap fun i => (List.range f.n).map fun k => |En.e i 0 - f.e k|

/-- the body of the loop over `intersections` (test_polyhedron.py:278-279) -/
noncomputable def residualCheck (E : Mat ℝ) (f : Vec ℝ) (n : ℝ) : Py Unit := do
  let l ← absResiduals E f n
  let m ← minList l
  assertAlmostEqual m 0

/-- the checks of the change of coordinates (test_polyhedron.py:259-279).  Numpy divides by zero with a warning, and neither infinity nor `nan` is almost
one; here the quotient is zero, which is not either. -/
noncomputable def removeEqualitiesValues (L : Lib) (p : Poly) : Py Unit := do
  let (E, f, N, R) ← Poly.removeEqualities L p
  let N0 ← entryM N 0 0
  let N1 ← entryM N 1 0
  assertAlmostEqual (N0 / N1) (-1)
  let R0 ← entryM R 0 0
  let R1 ← entryM R 1 0
  assertAlmostEqual (R0 / R1) 1
  residualCheck E f (Real.sqrt 2 / 2)
  residualCheck E f (3 * Real.sqrt 2 / 2)
  residualCheck E f (-Real.sqrt 2 / 2)
  residualCheck E f (-3 * Real.sqrt 2 / 2)

/-- `test_remove_equalities` (test_polyhedron.py:257-299).  The methods assign new arrays, so `copy(p)` is a copy. -/
noncomputable def test_remove_equalities (L : Lib) : Py Unit := do
  let p ← Poly.from_bounds (fullB 2 (-1)) (fullB 2 1)
  let p ← Poly.runOn p (Poly.add_equality ones12 (.d1 (full 1 1)))
  removeEqualitiesValues L p
  let p1 ← Poly.runOn p (Poly.add_equality ⟨1, 2, fun _ j => if j = 0 then 1 else -1⟩ (.d1 (full 1 0)))
  assertValueError (Poly.removeEqualities L p1)
  let p1 ← Poly.runOn p1 (Poly.add_equality ⟨1, 2, fun _ j => if j = 0 then 0 else 1⟩ (.d1 (full 1 5)))
  assertValueError (Poly.removeEqualities L p1)
  let p2 ← Poly.runOn p (Poly.add_equality ⟨1, 2, fun _ _ => 2⟩ (.d1 (full 1 1)))
  assertValueError (Poly.removeEqualities L p2)

end Verif.TestSuite
