import Verif.Model.TestSolvers

/- `test_chebyshev`, /repo/pympc/test/test_geometry/test_polyhedron.py:581-632. -/
namespace Verif.TestSuite

/-- the assertions on `radius` and `center` (test_polyhedron.py:587-588, 594-595, 601-602, 608-609) -/
noncomputable def checkBall (L : Lib) (p : Poly) (r : ℝ) (c : Vec ℝ) : Py Poly := do
  let (r', p) ← ask p (Poly.radius L)
  assertAlmostEqualO r' r
  let (c', p) ← ask p (Poly.center L)
  assertArrayAlmostEqual c' (some c)
  return p

/-- the first part (test_polyhedron.py:583-609) -/
noncomputable def chebyshevBalls (L : Lib) : Py Unit := do
  let p ← Poly.from_bounds (fullB 2 0) (fullB 2 2)
  let p ← checkBall L p 1 (full 2 1)
  let p ← Poly.runOn p (Poly.add_inequality (Mat.zeros 1 2) (.d1 (full 1 1)))
  let p ← checkBall L p 1 (full 2 1)
  let p ← Poly.runOn p (Poly.add_equality ones12 (.d1 (full 1 3)))
  let _ ← checkBall L p (Real.sqrt 2 / 2) (full 2 1.5)
  let p ← Poly.from_bounds (fullB 2 1) (fullB 2 (-1))
  let _ ← checkBall L p (-1) (full 2 0)

/-- the quadrant without a largest ball and the strip in it, "bounded very difficult" (test_polyhedron.py:611-620) -/
noncomputable def chebyshevStrip (L : Lib) : Py Unit := do
  let p ← Poly.from_lower_bound (fullB 2 1)
  let (r, p) ← ask p (Poly.radius L)
  assertTrue r.isNone
  let (c, p) ← ask p (Poly.center L)
  assertTrue c.isNone
  let p ← Poly.runOn p (Poly.add_upper_bound (fullB 1 2) (some [1]))
  let (r, p) ← ask p (Poly.radius L)
  assertAlmostEqualO r 0.5
  let (c, _) ← ask p (Poly.center L)
  let c0 ← entryOf c 0
  assertAlmostEqual c0 1.5

/-- the case in three dimensions (test_polyhedron.py:622-632) -/
noncomputable def chebyshevSpace (L : Lib) : Py Unit := do
  let p ← Poly.from_bounds (pairB (-1) (-2)) (pairB 1 2) (some [0, 1]) (some 3)
  let p ← Poly.runOn p (Poly.add_equality ⟨1, 3, fun _ j => if j = 0 then 1 else if j = 2 then -1 else 0⟩ (.d1 (full 1 0)))
  let (r, p) ← ask p (Poly.radius L)
  assertAlmostEqualO r (Real.sqrt 2)
  let (c, p) ← ask p (Poly.center L)
  let c0 ← entryOf c 0
  assertAlmostEqual c0 0
  let c2 ← entryOf c 2
  assertAlmostEqual c2 0
  let c1 ← entryOf c 1
  let (r, _) ← ask p (Poly.radius L)
  -- `2. - None` raises
  match r with
  | some r => assertTrue (decide (|c1| < 2 - r + 1e-6))
  | none => .error .typeError

/-- `test_chebyshev` (test_polyhedron.py:581-632) -/
noncomputable def test_chebyshev (L : Lib) : Py Unit := do
  chebyshevBalls L
  chebyshevStrip L
  chebyshevSpace L

end Verif.TestSuite
