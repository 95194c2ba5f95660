import Verif.Model.Controllers
import Verif.Model.TestParametric

/- The test of the linear controller, /repo/pympc/test/test_control/test_controllers.py:13-101. -/
namespace Verif.TestSuite
open Dyn Control

/-- `C[:, -k:] = b` for a `b` with as many rows as `C`; `ValueError` if the shapes differ.  (With `k` larger than the number of columns the slice is all of
`C`.  A `b` with one row or one column would be broadcast; the test assigns no such `b` to a slice of another shape.) -/
def assignLast (C : Mat ℝ) (k : ℕ) (b : Mat ℝ) : Py (Mat ℝ) :=
  if b.nr = C.nr ∧ b.nc = min k C.nc then
    .ok ⟨C.nr, C.nc, fun i j => if C.nc - b.nc ≤ j then b.e i (j - (C.nc - b.nc)) else C.e i j⟩
  else .error .valueError

/-- the loop that appends the remaining steps to the constraints (test_controllers.py:67-72) -/
def appendSteps (S : LinearSystem) (D : Poly) : ℕ → Poly → Py Poly
  | 0, p => .ok p
  | k + 1, p => do
    let p ← p.cartesian_product D
    let b ← np.hstack [S.A, S.B, (Mat.eye S.nx).neg, Mat.zeros S.nx S.nu]
    let C ← assignLast (Mat.zeros S.nx p.A.nc) (2 * (S.nx + S.nu)) b
    let p ← Poly.runOn p (Poly.add_equality C (.d1 (Vec.zeros S.nx)))
    appendSteps S D k p

/-- the constraints on `(x(0), u(0), …, x(N-1), u(N-1), x(N))`, not condensed (test_controllers.py:64-73).  `copy(D)` is a shallow copy, whose
attributes `add_equality` replaces; `D` is not modified.  (`N` is at least 5 in the test.) -/
def uncondensed (S : LinearSystem) (N : ℕ) (D X_N : Poly) (x : Vec ℝ) : Py Poly := do
  let C ← np.hstack [Mat.eye S.nx, Mat.zeros S.nx S.nu]
  let p ← Poly.runOn D (Poly.add_equality C (.d1 x))
  let p ← appendSteps S D (N - 1) p
  p.cartesian_product X_N

/-- the inputs of the LQR from the state `x` (test_controllers.py:57-61) -/
def lqrInputs (S : LinearSystem) (K : Mat ℝ) : ℕ → Vec ℝ → Py (List (Vec ℝ))
  | 0, _ => .ok []
  | k + 1, x => do
    let u ← np.dotMV K x
    let BK ← np.dotMM S.B K
    let ABK ← np.addM S.A BK
    let y ← np.dotMV ABK x
    let us ← lqrInputs S K k y
    return u :: us

/-- `for i in range(n): m(i)` -/
def forRange (m : ℕ → Py Unit) : ℕ → Py Unit
  | 0 => .ok ()
  | n + 1 => do
    forRange m n
    m n

/-- `[np.concatenate((x[t], u[t])) for t in range(N)]` (test_controllers.py:94) -/
def stagePairs (xs us : List (Vec ℝ)) (N : ℕ) : Py (List (Vec ℝ)) :=
  (List.range N).mapM fun t => do
    let x ← np.listGet xs t
    let u ← np.listGet us t
    np.concatenate [x, u]

/-- the branch for a state outside of the terminal set with an answer of the controller (test_controllers.py:83-96) -/
noncomputable def checkOutside (L : Lib) (S : LinearSystem) (N : ℕ) (X U X_N constraints : Poly) (c : MPC) (x : Vec ℝ) (us : List (Vec ℝ)) (V V_lqr : ℝ) :
    Py Unit := do
  assertTrue (decide (V_lqr < V))
  let u0 ← np.listGet us 0
  let fb ← c.feedback L x
  assertArrayAlmostEqual (some u0) fb
  let xs ← S.simulate x us
  forRange (fun t => do
    let xt ← np.listGet xs t
    let a ← X.contains xt
    assertTrue a
    let ut ← np.listGet us t
    let b ← U.contains ut
    assertTrue b) N
  let xN ← np.listGet xs N
  let a ← X_N.contains xN
  assertTrue a
  let l ← stagePairs xs us N
  let xu ← np.concatenate l
  let xu ← np.concatenate [xu, xN]
  let b ← constraints.contains xu
  assertTrue b

/-- the branch for a state inside of the terminal set (test_controllers.py:77-79); `None` in place of the inputs or of the value is a `TypeError` -/
noncomputable def checkInside (N : ℕ) (us : Option (List (Vec ℝ))) (V : Option ℝ) (u_lqr : List (Vec ℝ)) (V_lqr : ℝ) : Py Unit := do
  assertAlmostEqualO V V_lqr
  match us with
  | none => .error .typeError
  | some us => forRange (fun t => do
      let a ← np.listGet us t
      let b ← np.listGet u_lqr t
      assertArrayAlmostEqual (some a) (some b)) N

/-- the body of the loop over the states (test_controllers.py:53-101), for a given system, terminal set, controller and state -/
noncomputable def checkState (L : Lib) (S : LinearSystem) (N : ℕ) (P K : Mat ℝ) (X U D X_N : Poly) (c : MPC) (x : Vec ℝ) : Py Unit := do
  let (us, V) ← c.feedforward L x
  let xP ← np.dotVM x P
  let xPx ← np.dotVV xP x
  let V_lqr := 0.5 * xPx
  let u_lqr ← lqrInputs S K N x
  let constraints ← uncondensed S N D X_N x
  let inside ← X_N.contains x
  if inside then checkInside N us V u_lqr V_lqr
  else match us, V with
    | some us, some V => checkOutside L S N X U X_N constraints c x us V V_lqr
    | none, some _ => .error .typeError
    | _, none => do
      let fb ← c.feedback L x
      assertTrue fb.isNone
      let (e, _) ← ask constraints (Poly.empty L)
      assertTrue e

end Verif.TestSuite
