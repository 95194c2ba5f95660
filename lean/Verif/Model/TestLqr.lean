import Verif.Model.TestSuite
import Verif.Model.Voronoi

/- `test_controllable` and `test_solve_dare_and_simulate_closed_loop` of `/repo/pympc/test/test_dynamics/test_discrete_time_systems.py`. -/
namespace Verif.TestSuite
open Dyn

/-- `x.dot(M).dot(x)` -/
noncomputable def quadOf (M : Mat ℝ) (x : Vec ℝ) : Py ℝ := do
  let y ← np.dotVM x M
  np.dotVV y x

/-- `self.assertTrue(min(l) > 0.)`; `ValueError` if the list is empty.  `np.min` of an array is the same. -/
noncomputable def assertMinPos : List ℝ → Py Unit
  | [] => .error .valueError
  | a :: l => assertTrue (decide (0 < Voronoi.minL a l))

/-- the check that `x P x` decreases along `N` steps of the closed loop (test_discrete_time_systems.py:81-86, where `N = 10`) -/
noncomputable def checkLyapunov (S : LinearSystem) (P K : Mat ℝ) (x0 : Vec ℝ) (N : ℕ) : Py Unit := do
  let x_list ← S.simulate_closed_loop x0 N K
  let V_list ← x_list.mapM (quadOf P)
  let dV_list ← (List.range (V_list.length - 1)).mapM fun i => do
    let a ← np.listGet V_list i
    let b ← np.listGet V_list (i + 1)
    return a - b
  assertMinPos dV_list

/-- the increment of `finite_horizon_V` (test_discrete_time_systems.py:96) -/
noncomputable def stageOf (Q R K : Mat ℝ) (x : Vec ℝ) : Py ℝ := do
  let q ← quadOf Q x
  let u ← np.dotMV K x
  let v ← np.dotVM u R
  let w ← np.dotVM v K
  let r ← np.dotVV w x
  return 0.5 * (q + r)

/-- the loop `while not np.isclose(…)` (test_discrete_time_systems.py:95-100) entered with `max_iter - t` equal to the first number.  `0` is the failing
assertion of line 100. -/
noncomputable def costLoop (Q R K A_cl : Mat ℝ) (infinite_horizon_V : ℝ) : ℕ → Vec ℝ → ℝ → Py Unit
  | 0, _, _ => .error .assertionError
  | k + 1, x, finite_horizon_V =>
    if Voronoi.isclose infinite_horizon_V finite_horizon_V then .ok ()
    else do
      let s ← stageOf Q R K x
      let y ← np.dotMV A_cl x
      costLoop Q R K A_cl infinite_horizon_V k y (finite_horizon_V + s)

/-- the check that `1/2 x0 P x0` is the cost to go (test_discrete_time_systems.py:88-100, where `max_iter = 1000`).  With `max_iter = 0` the code would
not stop by the assertion; the model fails at once. -/
noncomputable def checkCostToGo (S : LinearSystem) (Q R P K : Mat ℝ) (x0 : Vec ℝ) (max_iter : ℕ) : Py Unit := do
  let BK ← np.dotMM S.B K
  let A_cl ← np.addM S.A BK
  let v ← quadOf P x0
  costLoop Q R K A_cl (0.5 * v) max_iter x0 0

/-- the body of the loop of `test_solve_dare_and_simulate_closed_loop` after the random draws (test_discrete_time_systems.py:77-100): `S` is the system
drawn, `x0` and `y0` are the initial states of the two simulations, `eig(P)` is `np.linalg.eig(P)[0]`, for a `P` with real eigenvalues -/
noncomputable def lqrBody (dare : Mat ℝ → Mat ℝ → Mat ℝ → Mat ℝ → Py (Mat ℝ)) (eig : Mat ℝ → Py (List ℝ)) (S : LinearSystem) (Q R : Mat ℝ) (x0 y0 : Vec ℝ)
    (N max_iter : ℕ) : Py Unit := do
  let (P, K) ← (LinearSystem.solve_dare dare Q R S).1
  let l ← eig P
  assertMinPos l
  checkLyapunov S P K x0 N
  checkCostToGo S Q R P K y0 max_iter

/-- `A` of the tests (test_discrete_time_systems.py:43 and 61) -/
def chainA : Mat ℝ := ⟨2, 2, fun i j => if i = 0 ∧ j = 1 then 1 else 0⟩
/-- `B` of the controllable system (test_discrete_time_systems.py:44) -/
def chainB : Mat ℝ := ⟨2, 1, fun i _ => if i = 1 then 1 else 0⟩
/-- `B` of the uncontrollable system (test_discrete_time_systems.py:50 and 62) -/
def stuckB : Mat ℝ := ⟨2, 1, fun i _ => if i = 0 then 1 else 0⟩

/-- `test_controllable` (test_discrete_time_systems.py:38-55), where `h = .1` -/
noncomputable def test_controllable (h : ℝ) : Py Unit := do
  let S ← LinearSystem.from_continuous chainA chainB h .zeroOrderHold
  let c ← (LinearSystem.controllable S).1
  assertTrue c
  let S' ← LinearSystem.from_continuous chainA stuckB h .zeroOrderHold
  let c' ← (LinearSystem.controllable S').1
  assertFalse c'

/-- `test_solve_dare_and_simulate_closed_loop` up to the loop (test_discrete_time_systems.py:60-65), where `h = .1` -/
noncomputable def test_solve_dare_uncontrollable (dare : Mat ℝ → Mat ℝ → Mat ℝ → Mat ℝ → Py (Mat ℝ)) (h : ℝ) : Py Unit := do
  let S ← LinearSystem.from_continuous chainA stuckB h .zeroOrderHold
  assertValueError (LinearSystem.solve_dare dare (Mat.eye 2) (Mat.eye 1) S).1

end Verif.TestSuite
