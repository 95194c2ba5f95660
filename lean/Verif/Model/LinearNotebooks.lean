import Verif.Model.Notebooks
import Verif.Model.Controllers

/- Models of the notebooks `/repo/examples/linear_mpc.ipynb` and `/repo/examples/maximal_constraint_admissible_set.ipynb`, for all values of the
parameters that the notebooks set: `m`, `l`, `g`, `h`, the horizon, and the bounds `[-a, a]`, `[-b, b]` of the states and `[-c, c]` of the input
(`.5`, `.5`, `6` and `1`, `1`, `15` in the notebooks). -/
namespace Verif.Notebook
open Dyn

/-- the linear inverted pendulum (linear_mpc.ipynb:105-123, maximal_constraint_admissible_set.ipynb:76-78, 111-134) -/
noncomputable def linearPendulum (m l g h : ℝ) : Py LinearSystem :=
  LinearSystem.from_continuous (mat [[0, 1], [g / l, 0]]) (mat [[0], [1 / (m * l ^ 2)]]) h .zeroOrderHold

/-- `X`, `U` and `D = X.cartesian_product(U)` (linear_mpc.ipynb:190-196, maximal_constraint_admissible_set.ipynb:192-197, 231) -/
noncomputable def linearSets (a b c : ℝ) : Py (Poly × Poly × Poly) := do
  let U ← Poly.from_bounds (.arr (.d1 (vec [-c]))) (.arr (.d1 (vec [c])))
  let X ← Poly.from_bounds (.arr (.d1 (vec [-a, -b]))) (.arr (.d1 (vec [a, b])))
  let D ← X.cartesian_product U
  return (X, U, D)

/-- the cells of linear_mpc.ipynb up to the construction of the controller (105-232): the system, the gain, the terminal set and the controller.
`none` if the loop of `mcais` does not stop within `fuel` iterations. -/
noncomputable def linearMpc (L : Lib) (dare : Mat ℝ → Mat ℝ → Mat ℝ → Mat ℝ → Py (Mat ℝ)) (m l g h a b c : ℝ) (N fuel : ℕ) :
    Py (Option (LinearSystem × Mat ℝ × Poly × Poly × Control.MPC)) := do
  let S ← linearPendulum m l g h
  let Q := mat [[1, 0], [0, 1]]
  let R := mat [[1]]
  let (P, K) ← (LinearSystem.solve_dare dare Q R S).1
  let (_, _, D) ← linearSets a b c
  let X_N ← LinearSystem.mcais L S K D fuel
  match X_N with
  | none => return none
  | some X_N => do
    let controller ← Control.MPC.init S N Q R P D X_N
    return some (S, K, D, X_N, controller)

/-- `S.B.dot(u)` for the answer of the controller (linear_mpc.ipynb:256): a product with `None` raises `TypeError` -/
def dotAnswer (B : Mat ℝ) : Option (Vec ℝ) → Py (Vec ℝ × Vec ℝ)
  | none => .error .typeError
  | some u => do
    let Bu ← np.dotMV B u
    return (u, Bu)

/-- the simulation of the closed loop (linear_mpc.ipynb:250-256): the inputs and the states -/
noncomputable def mpcLoop (L : Lib) (c : Control.MPC) (S : LinearSystem) : ℕ → Vec ℝ → Py (List (Vec ℝ) × List (Vec ℝ))
  | 0, x => return ([], [x])
  | n + 1, x => do
    let a ← c.feedback L x
    let Ax ← np.dotMV S.A x
    let (u, Bu) ← dotAnswer S.B a
    let y ← np.addV Ax Bu
    let (us, xs) ← mpcLoop L c S n y
    return (u :: us, x :: xs)

/-- the cells of maximal_constraint_admissible_set.ipynb up to the definition of `X_cl` (76-251): the system, the gain, `X_cl` and `O_inf` -/
noncomputable def mcaisCells (L : Lib) (dare : Mat ℝ → Mat ℝ → Mat ℝ → Mat ℝ → Py (Mat ℝ)) (m l g h a b c : ℝ) (fuel : ℕ) :
    Py (Option (LinearSystem × Mat ℝ × Poly × Poly)) := do
  let S ← linearPendulum m l g h
  let (_, K) ← (LinearSystem.solve_dare dare (mat [[1, 0], [0, 1]]) (mat [[1]]) S).1
  let (X, U, D) ← linearSets a b c
  let O_inf ← LinearSystem.mcais L S K D fuel
  match O_inf with
  | none => return none
  | some O_inf => do
    let UK ← np.dotMM U.A K
    let U_cl ← Poly.init UK (.d1 U.b)
    let X_cl ← X.intersection U_cl
    return some (S, K, X_cl, O_inf)

end Verif.Notebook
