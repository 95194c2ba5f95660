import Verif.Model.Pwa
import Verif.Model.TestSuite

/- The tests of wrong initializations, /repo/pympc/test/test_dynamics/test_utils.py:10-33 and test_discrete_time_systems.py:12-20, 180-193, 279-323. -/
namespace Verif.TestSuite
open Dyn

/-- `np.ones((m,n))` -/
def onesM (m n : ℕ) : Mat ℝ := ⟨m, n, fun _ _ => 1⟩

/-- `test_check_affine_system` (test_dynamics/test_utils.py:10-33) -/
noncomputable def test_check_affine_system : Py Unit := do
  assertValueError (check_affine_system (onesM 2 1) (onesM 2 1))
  assertValueError (check_affine_system (onesM 3 3) (onesM 2 1))
  assertValueError (check_affine_system (onesM 3 3) (onesM 3 1) (some (.d1 (full 1 1))))
  assertValueError (check_affine_system (onesM 3 3) (onesM 3 1) (some (.d2 (onesM 3 1))))
  assertValueError (check_affine_system (onesM 3 3) (onesM 3 1) (some (.d1 (full 3 1))) (some (-0.1)))

/-- `TestLinearSystem.test_intialization` (test_discrete_time_systems.py:12-20) -/
noncomputable def test_linear_intialization : Py Unit := do
  assertValueError (LinearSystem.init (onesM 3 3) (onesM 4 1))
  assertValueError (LinearSystem.init (onesM 4 5) (onesM 4 1))

/-- `TestAffineSystem.test_intialization` (test_discrete_time_systems.py:180-193) -/
noncomputable def test_affine_intialization : Py Unit := do
  assertValueError (AffineSystem.init (onesM 3 3) (onesM 4 1) (.d1 (full 4 1)))
  assertValueError (AffineSystem.init (onesM 4 5) (onesM 4 1) (.d1 (full 4 1)))
  assertValueError (AffineSystem.init (onesM 4 4) (onesM 4 1) (.d1 (full 5 1)))

/-- `TestPieceWiseAffineSystem.test_intialization` (test_discrete_time_systems.py:279-323).  The constructor may overwrite entries of the list it is given, but
only linear systems, of which there are none here. -/
noncomputable def test_pwa_intialization : Py Unit := do
  let S ← AffineSystem.init (onesM 3 3) (onesM 3 2) (.d1 (full 3 1))
  let affine_systems := List.replicate 5 (Sys.aff S)
  let D ← Poly.init (onesM 9 5) (.d1 (full 9 1))
  let domains := List.replicate 4 D
  assertValueError (PWA.init affine_systems domains)
  let domains := domains ++ [D, D]
  let T ← AffineSystem.init (onesM 2 2) (onesM 2 2) (.d1 (full 2 1))
  let affine_systems := affine_systems ++ [Sys.aff T]
  assertValueError (PWA.init affine_systems domains)
  let affine_systems := affine_systems.dropLast
  let T ← AffineSystem.init (onesM 3 3) (onesM 3 1) (.d1 (full 3 1))
  let affine_systems := affine_systems ++ [Sys.aff T]
  assertValueError (PWA.init affine_systems domains)
  let affine_systems := affine_systems.dropLast
  let affine_systems := affine_systems ++ [Sys.aff S, Sys.aff S]
  let D ← Poly.init (onesM 9 4) (.d1 (full 9 1))
  let domains := domains ++ [D]
  assertValueError (PWA.init affine_systems domains)
  let D ← Poly.init (onesM 9 4) (.d1 (full 9 1))
  let domains := List.replicate 7 D
  assertValueError (PWA.init affine_systems domains)

end Verif.TestSuite
