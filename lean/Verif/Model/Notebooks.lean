import Verif.Model.Hybrid

/- Models of the notebooks `/repo/examples/hybrid_mpc.ipynb` and `/repo/examples/hybrid_mpc_2.ipynb`: the piecewise affine systems built there,
for all values of the parameters that the notebooks set in their second cell.  The quotients are the ones of the reals; the notebooks divide by
masses and lengths, which are not zero. -/
namespace Verif.Notebook
open Dyn

/-- `np.array` of a list of rows of the same length -/
def mat (l : List (List ℝ)) : Mat ℝ := ⟨l.length, (l.headD []).length, fun i j => (l.getD i []).getD j 0⟩

/-- `np.array` of a list of numbers -/
def vec (l : List ℝ) : Vec ℝ := Vec.ofList l

/-- `assert X.bounded` (hybrid_mpc.ipynb:192, 198, 204, hybrid_mpc_2.ipynb:179, 186, 193), and the object afterwards -/
noncomputable def assertBounded (L : Lib) (X : Poly) : Py Poly :=
  match Poly.bounded L X with
  | (.error e, _) => .error e
  | (.ok false, _) => .error .assertionError
  | (.ok true, X') => .ok X'

/-- `X = Polyhedron.from_bounds(x_min, x_max); assert X.bounded` (hybrid_mpc.ipynb:191-192, 197-198, 203-204) -/
noncomputable def box (L : Lib) (x_min x_max : List ℝ) : Py Poly := do
  let X ← Poly.from_bounds (.arr (.d1 (vec x_min))) (.arr (.d1 (vec x_max)))
  assertBounded L X

/-- the dynamics without contact (hybrid_mpc.ipynb:159-161) -/
noncomputable def pendulumFree (m l g h : ℝ) : Py LinearSystem :=
  LinearSystem.from_continuous (mat [[0, 1], [g / l, 0]]) (mat [[0], [1 / (m * l ^ 2)]]) h .explicitEuler

/-- the dynamics in contact (hybrid_mpc.ipynb:164-167) -/
noncomputable def pendulumContact (m l g k d h : ℝ) : Py AffineSystem :=
  AffineSystem.from_continuous (mat [[0, 1], [g / l - k / m, 0]]) (mat [[0], [1 / (m * l ^ 2)]]) (.d1 (vec [0, k * d / (m * l)])) h .explicitEuler

/-- the dynamics without contact, its domain, and the piecewise affine system of the pendulum with a wall
(hybrid_mpc.ipynb:155-170, 188-209, 227) -/
noncomputable def pendulum (L : Lib) (m l g k d h : ℝ) : Py (LinearSystem × Poly × PWA) := do
  let S1 ← pendulumFree m l g h
  let S2 ← pendulumContact m l g k d h
  let X1 ← box L [-2 * d / l, -1.5] [d / l, 1.5]
  let X2 ← box L [d / l, -1.5] [2 * d / l, 1.5]
  let U ← box L [-4] [4]
  let D1 ← X1.cartesian_product U
  let D2 ← X2.cartesian_product U
  let S ← PWA.init [.lin S1, .aff S2] [D1, D2]
  return (S1, D1, S)

/-- the matrix `A` in contact with a wall (hybrid_mpc_2.ipynb:97-102, 133-138) -/
noncomputable def cartWallA (mc mp l k g : ℝ) : Mat ℝ :=
  mat [[0, 0, 1, 0], [0, 0, 0, 1], [0, (g * mp) / mc, 0, 0],
    [k / (l * mp), (g * mp ^ 2 + g * mc * mp - k * l * mc) / (l * mc * mp), 0, 0]]

/-- the matrix `A` between the walls (hybrid_mpc_2.ipynb:118-123) -/
noncomputable def cartFreeA (mc mp l g : ℝ) : Mat ℝ :=
  mat [[0, 0, 1, 0], [0, 0, 0, 1], [0, (g * mp) / mc, 0, 0], [0, g * (mc + mp) / (l * mc), 0, 0]]

/-- the matrix `B` (hybrid_mpc_2.ipynb:103-108, 124-129, 139-144) -/
noncomputable def cartB (mc l : ℝ) : Mat ℝ := mat [[0], [0], [1 / mc], [1 / (l * mc)]]

/-- the state domain `{-x_max <= x <= x_max, F x <= f}` (hybrid_mpc_2.ipynb:171-193) -/
noncomputable def cartDomain (L : Lib) (x_max : List ℝ) (F : Mat ℝ) (f : List ℝ) : Py Poly := do
  let X ← Poly.from_bounds (.arr (.d1 (vec x_max).neg)) (.arr (.d1 (vec x_max)))
  let X' ← Poly.runOn X (Poly.add_inequality F (.d1 (vec f)))
  assertBounded L X'

/-- the dynamics between the walls, its domain, and the piecewise affine system of the cart-pole between two walls
(hybrid_mpc_2.ipynb:94-154, 171-207, 225).  The bound of the angle, `np.pi/6.` in the notebook, is a parameter. -/
noncomputable def cartPole (L : Lib) (mc mp l d k g h angle : ℝ) : Py (LinearSystem × Poly × PWA) := do
  let S1 ← AffineSystem.from_continuous (cartWallA mc mp l k g) (cartB mc l) (.d1 (vec [0, 0, 0, (d * k) / (l * mp)])) h .explicitEuler
  let S2 ← LinearSystem.from_continuous (cartFreeA mc mp l g) (cartB mc l) h .explicitEuler
  let S3 ← AffineSystem.from_continuous (cartWallA mc mp l k g) (cartB mc l) (.d1 (vec [0, 0, 0, -(d * k) / (l * mp)])) h .explicitEuler
  let x_max := [1.5 * d, angle, 7, 5]
  let X1 ← cartDomain L x_max (mat [[1, -l, 0, 0]]) [-d]
  let X2 ← cartDomain L x_max (mat [[-1, l, 0, 0], [1, -l, 0, 0]]) [d, d]
  let X3 ← cartDomain L x_max (mat [[-1, l, 0, 0]]) [-d]
  let U ← Poly.from_bounds (.arr (.d1 (vec [-100]))) (.arr (.d1 (vec [100])))
  let D1 ← X1.cartesian_product U
  let D2 ← X2.cartesian_product U
  let D3 ← X3.cartesian_product U
  let S ← PWA.init [.aff S1, .lin S2, .aff S3] [D1, D2, D3]
  return (S2, D2, S)

/-- the design of the controller: `Q = np.eye(S.nx)`, `R = np.eye(S.nu)`, `P, K = S1.solve_dare(Q, R)`, `X_N = S1.mcais(K, D1)` and
`HybridModelPredictiveController(S, N, Q, R, P, X_N)` (hybrid_mpc.ipynb:246-256; hybrid_mpc_2.ipynb:249-260, where the system without contact is `S2` and
its domain `D2`).  `none` if the loop of `mcais` does not stop within `fuel` iterations.  `dare` is `scipy.linalg.solve_discrete_are`. -/
noncomputable def hybridDesign (L : Lib) (dare : Mat ℝ → Mat ℝ → Mat ℝ → Mat ℝ → Py (Mat ℝ)) (S1 : LinearSystem) (D1 : Poly) (S : PWA) (N fuel : ℕ) :
    Py (Option (Mat ℝ × Mat ℝ × Poly × Control.HMPC)) := do
  let (P, K) ← (LinearSystem.solve_dare dare (Mat.eye S.nx) (Mat.eye S.nu) S1).1
  let X_N ← LinearSystem.mcais L S1 K D1 fuel
  match X_N with
  | none => return none
  | some X_N => do
    let controller ← Control.HMPC.init L S N (Mat.eye S.nx) (Mat.eye S.nu) P X_N
    return some (P, K, X_N, controller)

end Verif.Notebook
