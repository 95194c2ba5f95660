import Verif.Model.TestExplicit
import Verif.Model.Hybrid

/- The test of the hybrid controller, /repo/pympc/test/test_control/test_controllers.py:165-289, for any system, controller and states. -/
namespace Verif.TestSuite
open Dyn Control

/-- the comparison of an answer of the hybrid controller with given inputs, states and value (test_controllers.py:239-249 and 258-268), where the value of
`V` may be `None` -/
noncomputable def compareAnswer (G : Gurobi) (c : HMPC) (x0 : Vec ℝ) (us xs : List (Vec ℝ)) (V : Option ℝ) (a : HMPC.Answer) : Py Unit := do
  let u1 ← np.concatenate us
  let u2 ← np.concatenate a.u
  assertArrayAlmostEqual (some u1) (some u2)
  let x1 ← np.concatenate xs
  let x2 ← np.concatenate a.x
  assertArrayAlmostEqual (some x1) (some x2)
  assertAlmostEqualO V a.V
  assertTrue (a.modes.all fun m => decide (m = 0))
  let u0 ← np.listGet a.u 0
  let fb ← c.feedback G x0
  assertArrayAlmostEqual (some u0) fb

/-- what `feedforward` returns; `np.concatenate(None)`, `sum(None)` and `get_mpqp(None)` are a `TypeError` -/
def gotAnswer (o : Option HMPC.Answer) : Py HMPC.Answer :=
  match o with
  | some a => .ok a
  | none => .error .typeError

/-- the comparison with the program of a mode sequence (test_controllers.py:271-277 and 283-289) -/
noncomputable def compareMpqp (L : Lib) (c : HMPC) (x0 : Vec ℝ) (us : List (Vec ℝ)) (V : ℝ) (modes : List ℕ) : Py Unit := do
  let q ← c.get_mpqp modes
  let sol ← q.solve L x0
  let u ← np.concatenate us
  assertArrayAlmostEqual (some u) sol.argmin
  assertAlmostEqualO sol.min V

/-- `compare with lqr` (test_controllers.py:229-249) -/
noncomputable def checkHybridLqr (G : Gurobi) (S1 : LinearSystem) (N : ℕ) (P K : Mat ℝ) (X_N : Poly) (c : HMPC) (x0 : Vec ℝ) : Py Unit := do
  let inside ← X_N.contains x0
  assertTrue inside
  let xP ← np.dotVM x0 P
  let xPx ← np.dotVV xP x0
  let us ← lqrInputs S1 K N x0
  let xs ← S1.simulate_closed_loop x0 N K
  let o ← c.feedforward G x0
  let a ← gotAnswer o
  compareAnswer G c x0 us xs (some (0.5 * xPx)) a

/-- `simulate(x0, u)` for a `u` that may be `None`, which is not iterable -/
def simulateO (S : LinearSystem) (x0 : Vec ℝ) (u : Option (List (Vec ℝ))) : Py (List (Vec ℝ)) :=
  match u with
  | some u => S.simulate x0 u
  | none => .error .typeError

/-- `compare with linear mpc` and `test get mpqp` (test_controllers.py:251-277), after the assertion that `x0` is not in the terminal set -/
noncomputable def checkHybridLinear (L : Lib) (G : Gurobi) (S1 : LinearSystem) (cl : MPC) (c : HMPC) (x0 : Vec ℝ) : Py Unit := do
  let (us, V) ← cl.feedforward L x0
  let xs ← simulateO S1 x0 us
  let o ← c.feedforward G x0
  let a ← gotAnswer o
  compareAnswer G c x0 (us.getD []) xs V a
  compareMpqp L c x0 (us.getD []) (V.getD 0) a.modes

/-- `with change of the mode sequence` (test_controllers.py:279-289) -/
noncomputable def checkHybridModes (L : Lib) (G : Gurobi) (c : HMPC) (x0 : Vec ℝ) : Py Unit := do
  let o ← c.feedforward G x0
  let a ← gotAnswer o
  assertTrue (decide (1 ≤ a.modes.sum))
  compareMpqp L c x0 a.u a.V a.modes

end Verif.TestSuite
