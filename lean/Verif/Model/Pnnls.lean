import Verif.Model.Lib

/- Model of `/repo/pympc/optimization/solvers/pnnls.py`. -/
namespace Verif
open Classical

/-- Dictionary returned by the solvers (pnnls.py:127-134, 220-227; gurobi.py:236-241). -/
structure Sol where
  min : Option ℝ
  argmin : Option (Vec ℝ)
  active_set : Option (List ℕ)
  multiplier_inequality : Option (Vec ℝ)
  multiplier_equality : Option (Vec ℝ)

/-- `sol = {'min': None, ...}` (pnnls.py:127-134, 220-227) -/
def Sol.none : Sol := ⟨.none, .none, .none, .none, .none⟩

/-- `sorted(np.where(v > tol)[0])` -/
noncomputable def whereGt (v : Vec ℝ) (tol : ℝ) : List ℕ :=
  (List.range v.n).filter (fun i => decide (v.e i > tol))

namespace Pnnls

/-- `pnnls` (pnnls.py:5-39) -/
def pnnls (L : Lib) (A B : Mat ℝ) (c : Vec ℝ) : Py (Vec ℝ × Vec ℝ × ℝ) := do
  -- matrices for nnls solver (pnnls.py:29-33)
  let B_pinv := L.pinv B
  let BBp ← np.dotMM B B_pinv
  let B_bar ← np.subM (Mat.eye A.nr) BBp
  let A_bar ← np.dotMM B_bar A
  let b_bar ← np.dotMV B_bar c
  -- solve nnls (pnnls.py:36-37)
  let (v, r) ← np.nnls L A_bar b_bar
  let Av ← np.dotMV A v
  let res ← np.subV Av c
  let u ← np.dotMV B_pinv res
  return (v, u.neg, r)

/-- `if (C is None) != (d is None): raise ValueError`, then the equalities restated as
inequalities (pnnls.py:89-106 and 190-207).  Returns `(n_eq, AC, bd)`. -/
def stackEqualities (A : Mat ℝ) (b : Vec ℝ) (C : Option (Mat ℝ)) (d : Option (Vec ℝ)) :
    Py (ℕ × Mat ℝ × Vec ℝ) :=
  match C, d with
  | some C, some d =>
    if C.nr > 0 then do
      let AC ← np.vstack [A, C, C.neg]
      let bd ← np.concatenate [b, d, d.neg]
      return (C.nr, AC, bd)
    else return (0, A, b)
  | none, none => return (0, A, b)
  | _, _ => .error .valueError

/-- the matrices `A_pnnls`, `B_pnnls`, `c_pnnls` (pnnls.py:108-124); `N = n_ineq + 2*n_eq` -/
def lpData (N : ℕ) (f : Vec ℝ) (AC : Mat ℝ) (bd : Vec ℝ) : Py (Mat ℝ × Mat ℝ × Vec ℝ) := do
  let n_x := AC.nc
  let row0 ← np.concatenate [bd, Vec.zeros N]
  let blk1 ← np.hstack [Mat.zeros N N, Mat.eye N]
  let blk2 ← np.hstack [AC.T, Mat.zeros n_x N]
  let A_pnnls ← np.vstack [Mat.ofRow row0, blk1, blk2]
  let B_pnnls ← np.vstack [Mat.ofRow f, AC, Mat.zeros n_x n_x]
  let c_pnnls ← np.concatenate [Vec.zeros 1, bd, f.neg]
  return (A_pnnls, B_pnnls, c_pnnls)

/-- `linear_program` (pnnls.py:41-147).  The size `n_x` of the Python code is `A.shape[1]`, which is
the number of columns of `AC` as well. -/
noncomputable def linear_program (L : Lib) (f : Vec ℝ) (A : Mat ℝ) (b : Vec ℝ)
    (C : Option (Mat ℝ)) (d : Option (Vec ℝ)) (tol : ℝ := 1e-7) : Py Sol := do
  let (n_eq, AC, bd) ← stackEqualities A b C d
  let n_ineq := A.nr
  let N := n_ineq + 2 * n_eq
  let (A_pnnls, B_pnnls, c_pnnls) ← lpData N f AC bd
  let (ys, x, r) ← pnnls L A_pnnls B_pnnls c_pnnls
  -- fill solution if residual is almost zero (pnnls.py:136-145)
  if r < tol then do
    let m ← np.dotVV f x
    let mul := ys.slice 0 n_ineq
    let meq ←
      if n_eq > 0 then do
        let pos := ys.slice n_ineq (n_ineq + n_eq)
        let neg := (ys.slice (n_ineq + n_eq) (n_ineq + 2 * n_eq)).neg
        let s ← np.addV pos neg
        pure (some s)
      else pure none
    return ⟨some m, some x, some (whereGt mul tol), some mul, meq⟩
  else return Sol.none

/-- `quadratic_program` (pnnls.py:149-241) -/
noncomputable def quadratic_program (L : Lib) (H : Mat ℝ) (f : Vec ℝ) (A : Mat ℝ) (b : Vec ℝ)
    (C : Option (Mat ℝ)) (d : Option (Vec ℝ)) (tol : ℝ := 1e-7) : Py Sol := do
  let (n_eq, AC, bd) ← stackEqualities A b C d
  let n_ineq := A.nr
  let n_x := A.nc
  -- build and solve pnnls problem (pnnls.py:209-218)
  let F ← L.cholesky H
  let L_inv ← np.inv F
  let H_inv ← np.dotMM L_inv.T L_inv
  let M ← np.dotMM AC L_inv.T
  let ACH ← np.dotMM AC H_inv
  let ACHf ← np.dotMV ACH f
  let m ← np.addV bd ACHf
  let A_nnls ← np.vstack [M.T.neg, Mat.ofRow m.neg]
  let b_nnls ← np.concatenate [Vec.zeros n_x, Vec.ones 1]
  let (y, r) ← np.nnls L A_nnls b_nnls
  -- if feasible (pnnls.py:229-239)
  if r > tol then do
    let my ← np.dotVV m y
    let lam := y.divS (1 + my)
    let mul := lam.slice 0 n_ineq
    let ACl ← np.dotMV AC.T lam
    let g ← np.addV f ACl
    let Hg ← np.dotMV H_inv g
    let x := Hg.neg
    let xH ← np.dotVM x H
    let xHx ← np.dotVV xH x
    -- `.5 * argmin.dot(H).dot(argmin) + f.dot(argmin)`
    let fx ← np.dotVV f x
    let meq ←
      if n_eq > 0 then do
        let pos := lam.slice n_ineq (n_ineq + n_eq)
        let neg := (lam.slice (n_ineq + n_eq) (n_ineq + 2 * n_eq)).neg
        let s ← np.addV pos neg
        pure (some s)
      else pure none
    return ⟨some (1 / 2 * xHx + fx), some x, some (whereGt mul tol), some mul, meq⟩
  else return Sol.none

end Pnnls
end Verif
