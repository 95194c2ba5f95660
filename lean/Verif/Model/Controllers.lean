import Verif.Model.MpQP
import Verif.Model.Pwa

/- Model of `ModelPredictiveController` and `condense_optimal_control_problem` of
`/repo/pympc/control/controllers.py`.  The plots (lines 188-250) are in
`Verif/Model/Plot.lean`. -/
namespace Verif
namespace Control
open Dyn

/-- the blocks of the quadratic and of the linear term of the objective, `(Huu, Hux, Hxx, fu, fx, g)`
(controllers.py:716-731) -/
noncomputable def condenseCost (Q R P : Mat ℝ) (N : ℕ) (A_bar B_bar : Mat ℝ) (c_bar : Vec ℝ) :
    Py (Mat ℝ × Mat ℝ × Mat ℝ × Vec ℝ × Vec ℝ × ℝ) := do
  let Q_bar := np.block_diag (List.replicate N Q ++ [P])
  let R_bar := np.block_diag (List.replicate N R)
  let BQ ← np.dotMM B_bar.T Q_bar
  let BQB ← np.dotMM BQ B_bar
  let Huu ← np.addM R_bar BQB
  let Hux ← np.dotMM BQ A_bar
  let AQ ← np.dotMM A_bar.T Q_bar
  let Hxx ← np.dotMM AQ A_bar
  let fu ← np.dotMV BQ c_bar
  let fx ← np.dotMV AQ c_bar
  let cQ ← np.dotVM c_bar Q_bar
  let cQc ← np.dotVV cQ c_bar
  return (Huu, Hux, Hxx, fu, fx, 1 / 2 * cQc)

/-- the constraints `(Au, Ax, b)` (controllers.py:733-747) -/
def condenseConstr (nx : ℕ) (Ds : List Poly) (X_N : Poly) (A_bar B_bar : Mat ℝ) (c_bar : Vec ℝ) :
    Py (Mat ℝ × Mat ℝ × Vec ℝ) := do
  let F_bar := np.block_diag (Ds.map (fun D => D.A.colsTo nx) ++ [X_N.A])
  let G := np.block_diag (Ds.map fun D => D.A.colsFrom nx)
  let G_bar ← np.vstack [G, Mat.zeros X_N.A.nr G.nc]
  let h_bar ← np.concatenate (Ds.map (·.b) ++ [X_N.b])
  let FB ← np.dotMM F_bar B_bar
  let Au ← np.addM G_bar FB
  let Ax ← np.dotMM F_bar A_bar
  let Fc ← np.dotMV F_bar c_bar
  let b ← np.subV h_bar Fc
  return (Au, Ax, b)

/-- `condense_optimal_control_problem(S, Q, R, P, X_N, mode_sequence)` (controllers.py:682-749).  Modes
are nonnegative here. -/
noncomputable def condense_optimal_control_problem (S : PWA) (Q R P : Mat ℝ) (X_N : Poly)
    (modes : List ℕ) : Py MpQP := do
  let (A_bar, B_bar, c_bar) ← S.condense modes
  let (Huu, Hux, Hxx, fu, fx, g) ← condenseCost Q R P modes.length A_bar B_bar c_bar
  let Ds ← modes.mapM (np.listGet S.domains)
  let (Au, Ax, b) ← condenseConstr S.nx Ds X_N A_bar B_bar c_bar
  MpQP.init Huu Hux Hxx fu fx g Au Ax b

/-- The attributes of a `ModelPredictiveController` (controllers.py:43-56) -/
structure MPC where
  S : LinearSystem
  N : ℕ
  Q : Mat ℝ
  R : Mat ℝ
  P : Mat ℝ
  D : Poly
  X_N : Poly
  explicit_solution : Option ExplicitSolution
  mpqp : MpQP

namespace MPC

/-- `_condense_program()` (controllers.py:58-74) -/
noncomputable def condense_program (S : LinearSystem) (N : ℕ) (Q R P : Mat ℝ) (D X_N : Poly) : Py MpQP := do
  let Sa ← AffineSystem.init S.A S.B (.d1 (Vec.zeros S.nx))
  let Sp ← PWA.init [.aff Sa] [D]
  condense_optimal_control_problem Sp Q R P X_N (List.replicate N 0)

/-- `__init__(S, N, Q, R, P, D, X_N)` (controllers.py:21-56) -/
noncomputable def init (S : LinearSystem) (N : ℕ) (Q R P : Mat ℝ) (D X_N : Poly) : Py MPC := do
  let mpqp ← condense_program S N Q R P D X_N
  return ⟨S, N, Q, R, P, D, X_N, none, mpqp⟩

/-- `[u[nu*i : nu*(i+1)] for i in range(N)]` (controllers.py:99, 162) -/
def slices (u : Vec ℝ) (nu N : ℕ) : List (Vec ℝ) :=
  (List.range N).map fun i => u.slice (nu * i) (nu * (i + 1))

/-- `feedforward(x)` (controllers.py:76-102): the inputs and the value, each of which can be `None` -/
noncomputable def feedforward (L : Lib) (c : MPC) (x : Vec ℝ) : Py (Option (List (Vec ℝ)) × Option ℝ) := do
  let sol ← c.mpqp.solve L x
  match sol.min with
  | none => return (none, none)
  | some V =>
    match sol.argmin with
    | none => .error .typeError
    | some u => return (some (slices u c.S.nu c.N), some V)

/-- the first input, `None` if there is none (controllers.py:119-124, 181-186) -/
def firstInput (u : Option (List (Vec ℝ))) : Py (Option (Vec ℝ)) :=
  match u with
  | none => .ok none
  | some l => do
    let u0 ← np.listGet l 0
    return some u0

/-- `feedback(x)` (controllers.py:104-124) -/
noncomputable def feedback (L : Lib) (c : MPC) (x : Vec ℝ) : Py (Option (Vec ℝ)) := do
  let (u, _) ← c.feedforward L x
  firstInput u

/-- `store_explicit_solution(step_size)` (controllers.py:126-136): the controller afterwards, `none` if
the search does not stop within `fuel` iterations -/
noncomputable def store_explicit_solution (L : Lib) (c : MPC) (fuel : ℕ) (step : ℝ := 1e-5) : Py (Option MPC) := do
  let s ← c.mpqp.explicit_solve L fuel step
  match s with
  | none => return none
  | some s => return some { c with explicit_solution := some s }

/-- `feedforward_explicit(x)` (controllers.py:138-164) -/
noncomputable def feedforward_explicit (c : MPC) (x : Vec ℝ) : Py (Option (List (Vec ℝ)) × Option ℝ) :=
  match c.explicit_solution with
  | none => .error .valueError
  | some s => do
    let u ← s.u x
    let V ← s.V x
    return (u.map fun u => slices u c.S.nu c.N, V)

/-- `feedback_explicit(x)` (controllers.py:166-186) -/
noncomputable def feedback_explicit (c : MPC) (x : Vec ℝ) : Py (Option (Vec ℝ)) := do
  let (u, _) ← c.feedforward_explicit x
  firstInput u

end MPC
end Control
end Verif
