import Verif.Model.TestSuite
import Verif.Model.TestParametric

/- The tests of `normalize` and `cartesian_product`, /repo/pympc/test/test_geometry/test_polyhedron.py:231-255, 551-579. -/
namespace Verif.TestSuite

/-- `self.assertTrue(same_rows(np.column_stack((A, b)), np.column_stack((A', b')), normalize))` -/
noncomputable def assertSameRows (A : Mat ℝ) (b : Vec ℝ) (A' : Mat ℝ) (b' : Vec ℝ) (normalize : Bool := true) : Py Unit := do
  let m ← columnStack A b
  let n ← columnStack A' b'
  let s ← Geom.same_rows m n normalize
  assertTrue s

/-- `np.array([[0., x],[0., y]])` -/
def zeroCol (x y : ℝ) : Mat ℝ := ⟨2, 2, fun i j => if j = 0 then 0 else if i = 0 then x else y⟩

/-- `np.array([x, y])` -/
def pairV (x y : ℝ) : Vec ℝ := ⟨2, fun i => if i = 0 then x else y⟩

/-- `test_normalize` (test_polyhedron.py:231-255).  `normalize` works in place on the arrays given to the constructor; the names `A`, `b`, `C`, `d` are bound to
new arrays afterwards. -/
noncomputable def test_normalize : Py Unit := do
  let p ← Poly.init (zeroCol 2 (-3)) (.d1 (pairV 2 0)) (some ones12) (some (.d1 (full 1 1)))
  let p := p.normalize
  assertSameRows (zeroCol 1 (-1)) (pairV 1 0) p.A p.b false
  assertSameRows ⟨1, 2, fun _ _ => 1 / Real.sqrt 2⟩ ⟨1, fun _ => 1 / Real.sqrt 2⟩ p.C p.d false

/-- `test_cartesian_product` (test_polyhedron.py:551-579) -/
noncomputable def test_cartesian_product : Py Unit := do
  let p ← Poly.from_bounds (fullB 2 (-1)) (fullB 2 1)
  let p1 ← Poly.runOn p (Poly.add_equality ones12 (.d1 (full 1 0)))
  let p2 ← p1.cartesian_product p1
  let p ← Poly.from_bounds (fullB 4 (-1)) (fullB 4 1)
  let p3 ← Poly.runOn p (Poly.add_equality (np.block_diag [ones12, ones12]) (.d1 (full 2 0)))
  assertSameRows p2.A p2.b p3.A p3.b
  assertSameRows p2.C p2.d p3.C p3.d

end Verif.TestSuite
