import Verif.Model.Pwa
import Verif.Model.TestSuite

/- `test_is_well_posed` of `/repo/pympc/test/test_dynamics/test_discrete_time_systems.py`. -/
namespace Verif.TestSuite
open Dyn

/-- `test_is_well_posed` (test_discrete_time_systems.py:392-416), where `nx = 2` and `nu = 1` -/
noncomputable def test_is_well_posed (L : Lib) (nx nu : ℕ) : Py Unit := do
  let D0 ← Poly.from_bounds (fullB (nx + nu) (-1)) (fullB (nx + nu) 1)
  let D1 ← Poly.from_bounds (fullB (nx + nu) 0) (fullB (nx + nu) 2)
  let S ← AffineSystem.init ⟨nx, nx, fun _ _ => 1⟩ ⟨nx, nu, fun _ _ => 1⟩ (.d1 ⟨nx, fun _ => 1⟩)
  let P ← PWA.init [.aff S, .aff S] [D0, D1]
  let w ← P.is_well_posed L
  assertFalse w
  let D1' ← Poly.runOn D1 (Poly.add_lower_bound (fullB (nx + nu) 1))
  let D2 ← Poly.from_bounds (fullB (nx + nu) 2) (fullB (nx + nu) 3)
  let P' ← PWA.init [.aff S, .aff S, .aff S] [D0, D1', D2]
  let w' ← P'.is_well_posed L
  assertTrue w'

end Verif.TestSuite
