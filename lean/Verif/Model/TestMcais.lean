import Verif.Model.Pwa
import Verif.Model.TestSuite

/- `TestMCAIS` of `/repo/pympc/test/test_dynamics/test_discrete_time_systems.py`.  The random matrices and points are arguments.  The loops
`while` have a number of iterations, and give `none` if they do not stop within it.
The answers that `mcais` stores in `X` are not kept from one matrix to the next: they would be computed again with the same result. -/
namespace Verif.TestSuite
open Dyn

/-- `while np.linalg.norm(x) > 0.001: …` (test_discrete_time_systems.py:445-447) -/
noncomputable def insideLoop (A : Mat ℝ) (X : Poly) : ℕ → Vec ℝ → Py (Option Unit)
  | 0, _ => .ok none
  | fuel + 1, x =>
    if 0.001 < vnorm x then do
      let x' ← np.dotMV A x
      let c ← X.contains x'
      assertTrue c
      insideLoop A X fuel x'
    else .ok (some ())

/-- `while X.contains(x): …` (test_discrete_time_systems.py:449-453) -/
noncomputable def outsideLoop (A : Mat ℝ) (X : Poly) : ℕ → Vec ℝ → Py (Option Unit)
  | 0, _ => .ok none
  | fuel + 1, x => do
    let c ← X.contains x
    if c then do
      let x' ← np.dotMV A x
      if vnorm x' < 0.0001 then .error .assertionError else outsideLoop A X fuel x'
    else .ok (some ())

/-- one initial condition (test_discrete_time_systems.py:444-453) -/
noncomputable def mcaisPoint (A : Mat ℝ) (X O_inf : Poly) (fuel : ℕ) (x : Vec ℝ) : Py (Option Unit) := do
  let c ← O_inf.contains x
  if c then insideLoop A X fuel x else outsideLoop A X fuel x

/-- `for j in range(100): …` (test_discrete_time_systems.py:440-453) -/
noncomputable def mcaisPoints (A : Mat ℝ) (X O_inf : Poly) (fuel : ℕ) : List (Vec ℝ) → Py (Option Unit)
  | [] => .ok (some ())
  | x :: xs => do
    let r ← mcaisPoint A X O_inf fuel x
    match r with
    | none => .ok none
    | some _ => mcaisPoints A X O_inf fuel xs

/-- `for i in range(10): …` (test_discrete_time_systems.py:430-453); the matrices are the ones that pass the check of line 434 -/
noncomputable def mcaisDraws (L : Lib) (X : Poly) (fuel : ℕ) : List (Mat ℝ × List (Vec ℝ)) → Py (Option Unit)
  | [] => .ok (some ())
  | d :: ds => do
    let O ← mcais L d.1 X fuel
    match O with
    | none => .ok none
    | some O_inf => do
      let r ← mcaisPoints d.1 X O_inf fuel d.2
      match r with
      | none => .ok none
      | some _ => mcaisDraws L X fuel ds

/-- `TestMCAIS.test_mcais` (test_discrete_time_systems.py:420-453), where `nx = 2` -/
noncomputable def test_mcais (L : Lib) (nx fuel : ℕ) (draws : List (Mat ℝ × List (Vec ℝ))) : Py (Option Unit) := do
  let X ← Poly.from_bounds (fullB nx (-1)) (fullB nx 1)
  mcaisDraws L X fuel draws

end Verif.TestSuite
