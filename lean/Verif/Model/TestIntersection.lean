import Verif.Model.TestSets

/- The test of `intersection`, /repo/pympc/test/test_geometry/test_polyhedron.py:523-549. -/
namespace Verif.TestSuite

/-- `np.array([[1., 0.]])` (545) -/
def first12 : Mat ℝ := ⟨1, 2, fun _ j => if j = 0 then 1 else 0⟩

/-- `test_intersection` (523-549) -/
noncomputable def test_intersection (L : Lib) : Py Unit := do
  let p1 ← Poly.from_bounds (fullB 2 (-1)) (fullB 2 1)
  let p2 ← Poly.from_bounds (fullB 2 0) (fullB 2 2)
  let p3 ← Poly.intersection p1 p2
  let p3 ← Poly.runOn p3 (Poly.remove_redundant_inequalities L)
  let p4 ← Poly.from_bounds (fullB 2 0) (fullB 2 1)
  assertSameRows p3.A p3.b p4.A p4.b
  let p1 ← Poly.runOn p1 (Poly.add_equality first12 (.d1 (full 1 (-0.5))))
  let p3 ← Poly.intersection p1 p2
  let e ← ask p3 (Poly.empty L)
  assertTrue e.1

end Verif.TestSuite
