import Verif.Model.Hybrid
import Verif.Model.NegIndex

/- The functions of `/repo/pympc/dynamics/discrete_time_systems.py` and `/repo/pympc/control/controllers.py` that take a mode sequence, for lists of integers: Python accepts negative indices of
lists. -/
namespace Verif
open Classical

/-- `l[i]` of a Python list: negative indices count from the end, `IndexError` is raised out of range -/
def np.listGetZ {α : Type} (l : List α) (i : ℤ) : Py α := do
  let k ← np.position l.length i
  np.listGet l k

namespace Dyn

/-- `condense_pwa_system(affine_systems, mode_sequence)` (discrete_time_systems.py:676-729) -/
def condense_pwa_systemZ (systems : List AffineSystem) (modes : List ℤ) : Py (Mat ℝ × Mat ℝ × Vec ℝ) := do
  -- system dimensions (701-704)
  let S0 ← np.listGet systems 0
  let nx := S0.nx
  let nu := S0.nu
  let N := modes.length
  -- matrix sequence (706-709)
  let seq ← modes.mapM (np.listGetZ systems)
  let As := seq.map (·.A)
  let Bs := seq.map (·.B)
  let cs := seq.map (·.c)
  -- free evolution of the system (711-713)
  let l ← (List.range N).mapM fun i => productory (As.take (i + 1)).reverse
  let A_free ← np.vstack l
  let A_bar ← np.vstack [Mat.eye nx, A_free]
  -- forced evolution of the system (715-721)
  let B_forced ← (List.range N).foldlM (forcedRow nx nu As Bs) (Mat.zeros (nx * N) (nu * N))
  let B_bar ← np.vstack [Mat.zeros nx (nu * N), B_forced]
  -- evolution related to the offset term (723-727)
  let c0 ← np.listGet cs 0
  let c_bar ← (List.range (N - 1)).foldlM (fun c k => do
    let o ← offsetAt As cs (k + 1)
    np.concatenate [c, o]) ((Vec.zeros nx).append c0)
  return (A_bar, B_bar, c_bar)

/-- `PieceWiseAffineSystem.condense(mode_sequence)` (discrete_time_systems.py:487-491) -/
def PWA.condenseZ (P : PWA) (modes : List ℤ) : Py (Mat ℝ × Mat ℝ × Vec ℝ) := condense_pwa_systemZ P.affine_systems modes

end Dyn

namespace Control
open Dyn

/-- `condense_optimal_control_problem(S, Q, R, P, X_N, mode_sequence)` (controllers.py:682-749) -/
noncomputable def condense_optimal_control_problemZ (S : PWA) (Q R P : Mat ℝ) (X_N : Poly) (modes : List ℤ) : Py MpQP := do
  let (A_bar, B_bar, c_bar) ← S.condenseZ modes
  let (Huu, Hux, Hxx, fu, fx, g) ← condenseCost Q R P modes.length A_bar B_bar c_bar
  let Ds ← modes.mapM (np.listGetZ S.domains)
  let (Au, Ax, b) ← condenseConstr S.nx Ds X_N A_bar B_bar c_bar
  MpQP.init Huu Hux Hxx fu fx g Au Ax b

/-- `get_mpqp(mode_sequence)` (controllers.py:668-680) -/
noncomputable def HMPC.get_mpqpZ (c : HMPC) (modes : List ℤ) : Py MpQP :=
  condense_optimal_control_problemZ c.S c.Q c.R c.P c.X_N modes

end Control
end Verif
