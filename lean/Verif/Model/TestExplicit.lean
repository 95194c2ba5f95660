import Verif.Model.TestController

/- The test of the explicit linear controller, /repo/pympc/test/test_control/test_controllers.py:103-163. -/
namespace Verif.TestSuite
open Dyn Control

/-- `l[t]` for an `l` that may be `None` (`TypeError`) -/
def itemOf (l : Option (List (Vec ℝ))) (t : ℕ) : Py (Vec ℝ) :=
  match l with
  | none => .error .typeError
  | some l => np.listGet l t

/-- the branch for a state at which the program is found to be feasible (test_controllers.py:149-156).  `assertAlmostEqual` does not depend on the order of its arguments. -/
noncomputable def checkBoth (L : Lib) (N : ℕ) (c : MPC) (x : Vec ℝ) (us us' : Option (List (Vec ℝ))) (V : ℝ) (V' : Option ℝ) : Py Unit := do
  assertAlmostEqualO V' V
  forRange (fun t => do
    let a ← itemOf us t
    let b ← itemOf us' t
    assertArrayAlmostEqual (some a) (some b)) N
  let a ← c.feedback L x
  let b ← c.feedback_explicit x
  assertArrayAlmostEqual a b

/-- the branch for a state at which it is not (test_controllers.py:158-162) -/
noncomputable def checkNeither (c : MPC) (x : Vec ℝ) (us' : Option (List (Vec ℝ))) (V' : Option ℝ) : Py Unit := do
  assertTrue V'.isNone
  assertTrue us'.isNone
  let b ← c.feedback_explicit x
  assertTrue b.isNone

/-- the body of the loop over the states (test_controllers.py:139-162, where `N = 10`), for a given controller after `store_explicit_solution()` and a given state -/
noncomputable def checkExplicit (L : Lib) (N : ℕ) (c : MPC) (x : Vec ℝ) : Py Unit := do
  let (us, V) ← c.feedforward L x
  let (us', V') ← c.feedforward_explicit x
  match V with
  | some V => checkBoth L N c x us us' V V'
  | none => checkNeither c x us' V'

end Verif.TestSuite
