import Verif.Model.Example
import Verif.Model.Plant
import Verif.Model.Plot
import Verif.Model.Notebooks

/- Model of the notebook `/repo/examples/pwa_from_urdf/cart_pole_from_urdf.ipynb`: the cells that build the piecewise affine system and the controller, for
all values of the parameters: the range `[a, b]` of the angle and the number `n` of linearizations, the bounds `p`, `v`, `w` of position and velocities
and `f` of the force (`3`, `10`, `10`, `100` in the notebook), the step `h` and the horizon `N`.  With `n = 1` the notebook divides by zero and raises
`ZeroDivisionError`; here the quotient is 0, and the theorem is about `n ≥ 2`. -/
namespace Verif.Notebook
open Dyn Voronoi Plant

/-- `linearization_points`: zero but for the angle (cart_pole_from_urdf.ipynb:74-81) -/
noncomputable def linearizationPoints (a b : ℝ) (n : ℕ) : List (Vec ℝ) :=
  (Plot.linspace a b n).map fun θ => vec [0, θ, 0, 0]

/-- `theta_step` (cart_pole_from_urdf.ipynb:93) -/
noncomputable def thetaStep (a b : ℝ) (n : ℕ) : ℝ := (b - a) / ((n : ℝ) - 1)

/-- the sets `X` and `U` (cart_pole_from_urdf.ipynb:93-106, 118-120) -/
noncomputable def urdfSets (a b : ℝ) (n : ℕ) (p v w f : ℝ) : Py (Poly × Poly) := do
  let X ← Poly.from_bounds (.arr (.d1 (vec [-p, a - thetaStep a b n, -v, -w]))) (.arr (.d1 (vec [p, b + thetaStep a b n, v, w])))
  let U ← Poly.from_bounds (.arr (.d1 (vec [-f]))) (.arr (.d1 (vec [f])))
  return (X, U)

/-- the piecewise affine system, the terminal set and the controller (cart_pole_from_urdf.ipynb:145-167) -/
noncomputable def urdfCells (L : Lib) (V : Vor) (T : Taylor) (a b : ℝ) (n : ℕ) (p v w f h : ℝ) (N : ℕ) : Py (PWA × Poly × Example.Ctrl) := do
  let (X, U) ← urdfSets a b n p v w f
  let pwa ← pwa_from_RigidBodyPlant V T (linearizationPoints a b n) (some X) U h
  let Q := Mat.smul (1 / 100) (Mat.eye pwa.nx)
  let R := Mat.smul (1 / 100) (Mat.eye pwa.nu)
  let X_N ← Poly.from_bounds (.arr (.d1 (Vec.zeros pwa.nx))) (.arr (.d1 (Vec.zeros pwa.nx)))
  let controller ← Example.Controller.init L pwa N Q R Q X_N
  return (pwa, X_N, controller)

/-- `plant_input[:] = u` for an array of `nu` floats (utils.py:237): `None` is stored as nan (`none`), an array of one entry is repeated -/
def assignInput (nu : ℕ) : Option (Vec ℝ) → Py (List (Option ℝ))
  | none => .ok (List.replicate nu none)
  | some u =>
    if u.n = nu then .ok ((List.range nu).map fun i => some (u.e i))
    else if u.n = 1 then .ok (List.replicate nu (some (u.e 0)))
    else .error .valueError

/-- `Controller._DoCalcVectorOutput(context, plant_state, unused, plant_input)` (utils.py:235-237): the entries of `plant_input` afterwards -/
noncomputable def calcOutput (D : Example.Solver) (nu : ℕ) (x : Vec ℝ) : PyM Example.Ctrl (List (Option ℝ)) := do
  let u ← Example.feedback D x
  PyM.lift (assignInput nu u)

end Verif.Notebook
