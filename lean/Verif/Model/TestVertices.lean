import Verif.Model.TestSuite
import Verif.Model.Projection

/- The polyhedra without vertices in the test of `vertices`, /repo/pympc/test/test_geometry/test_polyhedron.py:718-731. -/
namespace Verif.TestSuite

/-- unbounded, flat and empty polyhedra (718-731) -/
noncomputable def noVertices (L : Lib) (Q : Qhull) : Py Unit := do
  let p ← Poly.from_lower_bound (fullB 2 0)
  let v ← ask p (Poly.vertices L Q)
  assertTrue v.1.isNone
  let p ← Poly.runOn v.2 (Poly.add_upper_bound (pairB 1 0))
  let v ← ask p (Poly.vertices L Q)
  assertTrue v.1.isNone
  let p ← Poly.runOn v.2 (Poly.add_upper_bound (fullB 2 (-1)))
  let v ← ask p (Poly.vertices L Q)
  assertTrue v.1.isNone

end Verif.TestSuite
