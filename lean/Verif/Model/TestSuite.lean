import Verif.Model.Systems
import Verif.Model.GeomUtils

/- Code of the repository's own tests, `/repo/pympc/test`, that the library does not have. -/
namespace Verif.TestSuite
open Dyn

/-- `np.allclose(a, b)` on two dimensional arrays of the same shape, with the default tolerances `rtol=1e-5` and `atol=1e-8` -/
noncomputable def allcloseM (a b : Mat ℝ) : Bool :=
  decide (∀ i < a.nr, ∀ j < a.nc, |a.e i j - b.e i j| ≤ 1e-8 + 1e-5 * |b.e i j|)

/-- the loop `while not convergence` (test_dynamics/test_discretization_methods.py:42-49), entered with the step `h`: the step that makes the two
discretizations of the system `np.allclose`, or `none` if there is none among the first `fuel` steps tried.  The arrays compared have the same shapes. -/
noncomputable def reduceStep (A B : Mat ℝ) (c : NDArr ℝ) : ℕ → ℝ → Py (Option ℝ)
  | 0, _ => .ok none
  | fuel + 1, h => do
    let (A_ee, B_ee, c_ee) ← explicit_euler A B c h
    let (A_zoh, B_zoh, c_zoh) ← zero_order_hold A B c h
    if allcloseM A_ee A_zoh && allcloseM B_ee B_zoh && Geom.allclose (some c_ee) (some c_zoh) then return some h
    else reduceStep A B c fuel (h / 10)

/-- `self.assertTrue(b)`; `AssertionError` otherwise -/
def assertTrue (b : Bool) : Py Unit := if b then .ok () else .error .assertionError

/-- `self.assertFalse(b)` -/
def assertFalse (b : Bool) : Py Unit := if b then .error .assertionError else .ok ()

/-- `self.assertRaises(ValueError, …)`: any other exception passes through, and no exception is an `AssertionError` -/
def assertValueError {α : Type} (m : Py α) : Py Unit :=
  match m with
  | .error .valueError => .ok ()
  | .error e => .error e
  | .ok _ => .error .assertionError

/-- a property or method of the polyhedron: its value, and the object with the values stored -/
def ask {α : Type} (p : Poly) (m : PyM Poly α) : Py (α × Poly) :=
  match m p with
  | (.ok a, q) => .ok (a, q)
  | (.error e, _) => .error e

/-- `a*np.ones(n)` -/
def full (n : ℕ) (a : ℝ) : Vec ℝ := ⟨n, fun _ => a⟩

/-- `a*np.ones(n)`, as a bound -/
def fullB (n : ℕ) (a : ℝ) : Bound := .arr (.d1 (full n a))

/-- `np.array([a, b])`, as a bound -/
def pairB (a b : ℝ) : Bound := .arr (.d1 ⟨2, fun i => if i = 0 then a else b⟩)

/-- `np.ones((1, 2))` -/
def ones12 : Mat ℝ := ⟨1, 2, fun _ _ => 1⟩

/-- `test_initialization` (test_geometry/test_polyhedron.py:15-39; lines 26-27 compare an array with an equal one) -/
noncomputable def test_initialization : Py Unit := do
  let A : Mat ℝ := Mat.eye 3
  let C : Mat ℝ := Mat.eye 2
  let b : NDArr ℝ := .d1 (full 3 1)
  let d : NDArr ℝ := .d1 (full 2 1)
  let _ ← Poly.init A b (some C) (some d)
  assertValueError (Poly.init A b (some C))
  assertValueError (Poly.init A d)
  assertValueError (Poly.init A b (some C) (some b))
  let b1 : NDArr ℝ := .d2 ⟨3, 1, fun _ _ => 1⟩
  let d1 : NDArr ℝ := .d2 ⟨2, 1, fun _ _ => 1⟩
  assertValueError (Poly.init A b1)
  assertValueError (Poly.init A b (some C) (some d1))

/-- the calls of `test_add_functions` and `test_from_functions` that have to raise `ValueError`
(test_polyhedron.py:60, 76, 95-103, 137-138, 168-170, 205-210) -/
noncomputable def test_bound_errors : Py Unit := do
  -- 95-103
  let p ← Poly.init (Mat.eye 3) (.d1 (full 3 1))
  assertValueError (Poly.runOn p (Poly.add_lower_bound (fullB 1 0) (some [0, 1])))
  assertValueError (Poly.runOn p (Poly.add_upper_bound (fullB 1 0) (some [0, 1])))
  assertValueError (Poly.runOn p (Poly.add_bounds (fullB 1 0) (fullB 1 0) (some [0, 1])))
  -- 60 and 76, on a polyhedron in two dimensions
  let q ← Poly.init (Mat.eye 2) (.d1 (full 2 1))
  assertValueError (Poly.runOn q (Poly.add_inequality ⟨4, 2, fun _ _ => 1⟩ (.d1 (full 2 1))))
  assertValueError (Poly.runOn q (Poly.add_equality ⟨3, 2, fun _ _ => 1⟩ (.d1 (full 2 1))))
  -- 137-138
  assertValueError (Poly.from_lower_bound (.arr (.d2 ⟨1, 5, fun _ _ => 1⟩)))
  -- 168-170
  assertValueError (Poly.from_bounds (fullB 2 1) (.arr (.d2 ⟨3, 1, fun _ _ => 1⟩)))
  -- 205-210
  assertValueError (Poly.from_lower_bound (fullB 2 1) (some [1, 2, 3]) (some 5))
  assertValueError (Poly.from_upper_bound (fullB 2 1) (some [1, 2, 3]) (some 5))
  assertValueError (Poly.from_bounds (fullB 2 1) (fullB 2 1) (some [1, 2, 3]) (some 5))

/-- `test_empty` (test_polyhedron.py:376-393) -/
noncomputable def test_empty (L : Lib) : Py Unit := do
  let p ← Poly.from_bounds (fullB 2 1) (fullB 2 2)
  let (e, p) ← ask p (Poly.empty L)
  assertFalse e
  let p ← Poly.runOn p (Poly.add_equality ones12 (.d1 (full 1 3)))
  let (e, p) ← ask p (Poly.empty L)
  assertFalse e
  let p ← Poly.runOn p (Poly.add_upper_bound (fullB 1 0.5) (some [0]))
  let (e, _) ← ask p (Poly.empty L)
  assertTrue e

/-- `test_bounded` (test_polyhedron.py:395-447) -/
noncomputable def test_bounded (L : Lib) : Py Unit := do
  let p ← Poly.from_bounds (fullB 2 1) (fullB 2 (-1))
  let (e, _) ← ask p (Poly.bounded L)
  assertTrue e
  let p ← Poly.from_bounds (fullB 1 1) (fullB 1 (-1)) (some [0]) (some 2)
  let (e, _) ← ask p (Poly.bounded L)
  assertTrue e
  let p ← Poly.from_bounds (fullB 2 1) (fullB 2 2)
  let (e, _) ← ask p (Poly.bounded L)
  assertTrue e
  let p ← Poly.from_lower_bound (fullB 1 0) (some [0]) (some 2)
  let (e, p) ← ask p (Poly.bounded L)
  assertFalse e
  let p ← Poly.runOn p (Poly.add_lower_bound (fullB 1 0) (some [1]))
  let (e, p) ← ask p (Poly.bounded L)
  assertFalse e
  let p ← Poly.runOn p (Poly.add_upper_bound (fullB 1 1) (some [0]))
  let (e, p) ← ask p (Poly.bounded L)
  assertFalse e
  let p ← Poly.runOn p (Poly.add_lower_bound (fullB 1 1) (some [0]))
  let (e, p) ← ask p (Poly.bounded L)
  assertFalse e
  let p ← Poly.runOn p (Poly.add_upper_bound (fullB 1 1000) (some [1]))
  let (e, _) ← ask p (Poly.bounded L)
  assertTrue e
  let p ← Poly.from_bounds (pairB (-1) (-2)) (pairB 1 2) (some [0, 1]) (some 3)
  let p ← Poly.runOn p (Poly.add_equality ⟨1, 3, fun _ j => if j = 0 then 1 else if j = 2 then -1 else 0⟩ (.d1 (full 1 0)))
  let (e, _) ← ask p (Poly.bounded L)
  assertTrue e

/-- `test_contains` (test_polyhedron.py:449-470) -/
noncomputable def test_contains : Py Unit := do
  let p ← Poly.from_bounds (fullB 2 1) (fullB 2 3)
  let e ← p.contains (full 2 2)
  assertTrue e
  let e ← p.contains (full 2 2.5)
  assertTrue e
  let e ← p.contains (full 2 3.5)
  assertFalse e
  let p ← Poly.runOn p (Poly.add_equality ones12 (.d1 (full 1 4)))
  let e ← p.contains (full 2 2)
  assertTrue e
  let e ← p.contains (full 2 2.5)
  assertFalse e
  let e ← p.contains (full 2 3.5)
  assertFalse e

/-- `test_is_included_in` (test_polyhedron.py:472-521) -/
noncomputable def test_is_included_in (L : Lib) : Py Unit := do
  let p1 ← Poly.from_bounds (fullB 2 1) (fullB 2 2)
  let p2 ← Poly.from_bounds (fullB 2 0.5) (fullB 2 2.5)
  let e ← Poly.is_included_in L p1 p1
  assertTrue e
  let e ← Poly.is_included_in L p1 p2
  assertTrue e
  let e ← Poly.is_included_in L p2 p1
  assertFalse e
  let p2 ← Poly.from_bounds (fullB 2 0.5) (fullB 2 1.5)
  let e ← Poly.is_included_in L p1 p2
  assertFalse e
  let e ← Poly.is_included_in L p2 p1
  assertFalse e
  let p2 ← Poly.from_bounds (fullB 2 0.5) (fullB 2 2)
  let e ← Poly.is_included_in L p1 p2
  assertTrue e
  let e ← Poly.is_included_in L p2 p1
  assertFalse e
  let p2 ← Poly.runOn p2 (Poly.add_lower_bound (fullB 2 1.5))
  let e ← Poly.is_included_in L p1 p2
  assertFalse e
  let e ← Poly.is_included_in L p2 p1
  assertTrue e
  let p1 ← Poly.runOn p1 (Poly.add_equality ones12 (.d1 (full 1 3.5)))
  let e ← Poly.is_included_in L p1 p2
  assertTrue e
  let e ← Poly.is_included_in L p2 p1
  assertFalse e
  let p2 ← Poly.runOn p2 (Poly.add_equality ones12 (.d1 (full 1 3.5)))
  let e ← Poly.is_included_in L p1 p2
  assertTrue e
  let e ← Poly.is_included_in L p2 p1
  assertTrue e
  let p2 ← Poly.runOn p2 (Poly.add_upper_bound (fullB 1 1.75) (some [1]))
  let e ← Poly.is_included_in L p1 p2
  assertFalse e
  let e ← Poly.is_included_in L p2 p1
  assertTrue e

end Verif.TestSuite
