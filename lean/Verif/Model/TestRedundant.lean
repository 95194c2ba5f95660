import Verif.Model.TestBounds

/- The test of the redundant inequalities, /repo/pympc/test/test_geometry/test_polyhedron.py:301-374. -/
namespace Verif.TestSuite

/-- `set(..)` and `sorted(..)` of the answer of `minimal_facets`, in which `None` raises `TypeError` (307, 314, 335) -/
def facetList : Option (List ℕ) → Py (List ℕ)
  | none => .error .typeError
  | some l => .ok l

/-- the sets of facets in lines 308 and 315 -/
def isMinimal (l : List ℕ) : Bool := decide (l.toFinset = {1, 2, 0}) || decide (l.toFinset = {1, 2, 5})

/-- inequalities only (303-324) -/
noncomputable def redundantRows (L : Lib) : Py Unit := do
  let p ← Poly.init (intArray 2 [[1, 1], [-1, 1], [0, -1], [0, 1], [0, 1], [2, 2]]) (.d1 (intVec [1, 1, 1, 1, 2, 2]))
  let m ← ask p (Poly.minimal_facets L)
  let l ← facetList m.1
  assertTrue (isMinimal l)
  let p ← Poly.runOn m.2 (Poly.add_inequality (Mat.zeros 1 2) (.d1 (full 1 1)))
  let m ← ask p (Poly.minimal_facets L)
  let l ← facetList m.1
  assertTrue (isMinimal l)
  let p ← Poly.runOn m.2 (Poly.remove_redundant_inequalities L)
  assertSameRows (intArray 2 [[-1, 1], [0, -1], [1, 1]]) (intVec [1, 1, 1]) p.A p.b

/-- inequalities and equalities (326-374) -/
noncomputable def redundantMixed (L : Lib) : Py Unit := do
  let p ← Poly.from_bounds (fullB 2 (-1)) (fullB 2 1)
  let p ← Poly.runOn p (Poly.add_equality ones12 (.d1 (full 1 1)))
  let m ← ask p (Poly.minimal_facets L)
  let l ← facetList m.1
  assertTrue (decide ([2, 3] = l.insertionSort (· ≤ ·)))
  let p ← Poly.runOn m.2 (Poly.remove_redundant_inequalities L)
  assertSameRows (intArray 2 [[1, 0], [0, 1]]) (intVec [1, 1]) p.A p.b
  let p ← Poly.runOn p (Poly.add_inequality ones12 (.d1 (full 1 1)))
  let p ← Poly.runOn p (Poly.remove_redundant_inequalities L)
  assertSameRows (intArray 2 [[1, 0], [0, 1]]) (intVec [1, 1]) p.A p.b
  let p ← Poly.runOn p (Poly.add_inequality (intArray 2 [[-1, 1]]) (.d1 (full 1 1.1)))
  let p ← Poly.runOn p (Poly.remove_redundant_inequalities L)
  assertSameRows (intArray 2 [[1, 0], [0, 1]]) (intVec [1, 1]) p.A p.b
  let p ← Poly.runOn p (Poly.add_equality ones12 (.d1 (full 1 (-1))))
  assertValueError (Poly.runOn p (Poly.remove_redundant_inequalities L))
  let p ← Poly.from_bounds (fullB 2 1) (fullB 2 0)
  assertValueError (Poly.runOn p (Poly.remove_redundant_inequalities L))

end Verif.TestSuite
