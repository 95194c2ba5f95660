import Verif.Model.TestSets

/- The tests of the functions that add constraints and of the constructors from bounds, /repo/pympc/test/test_geometry/test_polyhedron.py:43-103, 136-210 (without the
symbolic expressions). -/
namespace Verif.TestSuite

/-- `np.array([[..], ..])` with `n` columns of integers as floating point numbers -/
def intArray (n : ℕ) (l : List (List ℤ)) : Mat ℝ := ⟨l.length, n, fun i j => (((l.getD i []).getD j 0 : ℤ) : ℝ)⟩

/-- `np.array([..])` of integers as floating point numbers -/
def intVec (l : List ℤ) : Vec ℝ := ⟨l.length, fun i => ((l.getD i 0 : ℤ) : ℝ)⟩

/-- `np.array([[a]])` -/
def one11 (a : ℝ) : Mat ℝ := ⟨1, 1, fun _ _ => a⟩

/-- inequalities and equalities are added (test_polyhedron.py:43-76).  The right-hand side in line 70 has one column, which `column_stack` takes like an array with one axis.
The calls that raise do so before they change the object. -/
noncomputable def addRows : Py Unit := do
  let p ← Poly.init (Mat.eye 2) (.d1 (full 2 1))
  let p ← Poly.runOn p (Poly.add_inequality ones12 (.d1 (full 1 1)))
  let p ← Poly.runOn p (Poly.add_inequality (one11 1) (.d1 (full 1 3)) (some [1]))
  let A := intArray 2 [[1, 0], [0, 1], [1, 1], [0, 1]]
  assertSameRows A (intVec [1, 1, 1, 3]) p.A p.b
  assertValueError (Poly.runOn p (Poly.add_inequality A (.d1 (full 2 1))))
  let p ← Poly.runOn p (Poly.add_equality (Mat.eye 2) (.d1 (full 2 1)))
  let p ← Poly.runOn p (Poly.add_equality (one11 3) (.d1 (full 1 1)) (some [0]))
  let A := intArray 2 [[1, 0], [0, 1], [3, 0]]
  assertSameRows A (intVec [1, 1, 1]) p.C p.d
  assertValueError (Poly.runOn p (Poly.add_equality A (.d1 (full 2 1))))

/-- bounds are added (test_polyhedron.py:78-92) -/
noncomputable def addBounds : Py Unit := do
  let p ← Poly.init (Mat.zeros 0 2) (.d1 (Vec.zeros 0))
  let p ← Poly.runOn p (Poly.add_lower_bound (fullB 2 (-1)))
  let p ← Poly.runOn p (Poly.add_upper_bound (fullB 2 2))
  let p ← Poly.runOn p (Poly.add_bounds (fullB 2 (-3)) (fullB 2 3))
  let p ← Poly.runOn p (Poly.add_lower_bound (fullB 1 (-4)) (some [0]))
  let p ← Poly.runOn p (Poly.add_upper_bound (fullB 1 5) (some [0]))
  let p ← Poly.runOn p (Poly.add_bounds (fullB 1 (-6)) (fullB 1 6) (some [1]))
  assertSameRows (intArray 2 [[-1, 0], [0, -1], [1, 0], [0, 1], [-1, 0], [0, -1], [1, 0], [0, 1], [-1, 0], [1, 0], [0, -1], [0, 1]])
    (intVec [1, 1, 2, 2, 3, 3, 3, 3, 4, 5, 6, 6]) p.A p.b

/-- the constructors from bounds (test_polyhedron.py:140-203; 168-170 are in `test_bound_errors`) -/
noncomputable def fromBounds : Py Unit := do
  let p ← Poly.from_lower_bound (fullB 2 1)
  assertSameRows (intArray 2 [[-1, 0], [0, -1]]) (intVec [-1, -1]) p.A p.b
  let p ← Poly.from_upper_bound (fullB 2 1)
  assertSameRows (intArray 2 [[1, 0], [0, 1]]) (intVec [1, 1]) p.A p.b
  let p ← Poly.from_bounds (fullB 2 1) (fullB 2 1)
  assertSameRows (intArray 2 [[-1, 0], [0, -1], [1, 0], [0, 1]]) (intVec [-1, -1, 1, 1]) p.A p.b
  let p ← Poly.from_lower_bound (fullB 2 1) (some [1, 2]) (some 3)
  assertSameRows (intArray 3 [[0, -1, 0], [0, 0, -1]]) (intVec [-1, -1]) p.A p.b
  let p ← Poly.from_upper_bound (fullB 2 1) (some [0, 2]) (some 3)
  assertSameRows (intArray 3 [[1, 0, 0], [0, 0, 1]]) (intVec [1, 1]) p.A p.b
  let p ← Poly.from_bounds (fullB 2 1) (fullB 2 1) (some [0, 1]) (some 3)
  assertSameRows (intArray 3 [[-1, 0, 0], [0, -1, 0], [1, 0, 0], [0, 1, 0]]) (intVec [-1, -1, 1, 1]) p.A p.b

end Verif.TestSuite
