import Mathlib.LinearAlgebra.Matrix.PosDef
import Mathlib.LinearAlgebra.Matrix.Rank
import Mathlib.LinearAlgebra.Matrix.NonsingularInverse
import Mathlib.Analysis.SpecialFunctions.Pow.Real
import Verif.Np.Lemmas

/-
Numerical routines of numpy and scipy.

* Routines with a unique exact result are defined (`np.linalg.norm`, `np.linalg.inv`,
  `np.linalg.solve`, `np.linalg.matrix_rank`).
* Routines whose result is not unique, or is computed by an iteration, are parameters (`Lib`) with a
  contract (`LibSpec`).  `Verif/Proofs/LibExists.lean` proves that the contract can be met.

The contract is that of exact real arithmetic.
-/
namespace Verif
open Finset Matrix

/-- `np.linalg.norm(v)` for a one dimensional array -/
noncomputable def vnorm (v : Vec ℝ) : ℝ := Real.sqrt (∑ i ∈ range v.n, v.e i ^ 2)

/-- `np.linalg.inv(A)`: raises `LinAlgError` if `A` is not square or is singular -/
noncomputable def np.inv (A : Mat ℝ) : Py (Mat ℝ) :=
  if A.nr ≠ A.nc then .error .linAlgError
  else if (A.asM A.nr A.nr).det = 0 then .error .linAlgError
  else .ok (Mat.ofM (A.asM A.nr A.nr)⁻¹)

/-- `np.linalg.solve(A, b)` for a one dimensional `b`: raises `LinAlgError` if `A` is not square or
is singular, `ValueError` if the sizes do not match -/
noncomputable def np.solve (A : Mat ℝ) (b : Vec ℝ) : Py (Vec ℝ) :=
  if A.nr ≠ A.nc then .error .linAlgError
  else if A.nr ≠ b.n then .error .valueError
  else if (A.asM A.nr A.nr).det = 0 then .error .linAlgError
  else .ok (Vec.ofFn ((A.asM A.nr A.nr)⁻¹ *ᵥ b.asV A.nr))

/-- the value of `np.linalg.matrix_rank(A)` (the exact rank; numpy uses a threshold on the singular values) -/
noncomputable def np.matrix_rank (A : Mat ℝ) : ℕ := (A.asM A.nr A.nc).rank

/-- `np.linalg.matrix_rank(A)` as called: numpy takes the maximum of the singular values, which raises `ValueError` if there are none -/
noncomputable def np.rank (A : Mat ℝ) : Py ℕ :=
  if A.nr = 0 ∨ A.nc = 0 then .error .valueError else .ok (np.matrix_rank A)

/-- `np.linalg.matrix_power(A, k)` for a square `A` -/
def np.matrix_power (A : Mat ℝ) : ℕ → Mat ℝ
  | 0 => Mat.eye A.nr
  | k + 1 => A.mul (np.matrix_power A k)

/-- numerical routines that enter as parameters -/
structure Lib where
  /-- `scipy.optimize.nnls(A, b)` -/
  nnls : Mat ℝ → Vec ℝ → Vec ℝ × ℝ
  /-- `np.linalg.pinv(A)` -/
  pinv : Mat ℝ → Mat ℝ
  /-- `np.linalg.cholesky(H)` -/
  cholesky : Mat ℝ → Py (Mat ℝ)
  /-- `np.linalg.svd(A)[2].T` -/
  svdV : Mat ℝ → Mat ℝ
  /-- `np.linalg.qr(A)[1]` -/
  qrR : Mat ℝ → Mat ℝ

/-- `scipy.optimize.nnls(A, b)`, raising `ValueError` on incompatible sizes and `RuntimeError` if there are no unknowns (the Fortran routine
called by scipy up to 1.11.4, the last version that setup.py:18 allows, refuses them) -/
def np.nnls (L : Lib) (A : Mat ℝ) (b : Vec ℝ) : Py (Vec ℝ × ℝ) :=
  if A.nr ≠ b.n then .error .valueError
  else if A.nc = 0 then .error .runtimeError
  else .ok (L.nnls A b)

/-- contracts of the routines in `Lib` -/
structure LibSpec (L : Lib) : Prop where
  /-- `nnls` returns a nonnegative vector ... -/
  nnls_n : ∀ (A : Mat ℝ) (b : Vec ℝ), A.nr = b.n → (L.nnls A b).1.n = A.nc
  nnls_nonneg : ∀ (A : Mat ℝ) (b : Vec ℝ), A.nr = b.n → ∀ i < A.nc, 0 ≤ (L.nnls A b).1.e i
  /-- ... that minimizes the norm of the residual ... -/
  nnls_min : ∀ (A : Mat ℝ) (b : Vec ℝ), A.nr = b.n → ∀ y : Vec ℝ, (∀ i < A.nc, 0 ≤ y.e i) →
    vnorm ((A.mulVec (L.nnls A b).1).sub b) ≤ vnorm ((A.mulVec y).sub b)
  /-- ... and this norm -/
  nnls_res : ∀ (A : Mat ℝ) (b : Vec ℝ), A.nr = b.n → (L.nnls A b).2 = vnorm ((A.mulVec (L.nnls A b).1).sub b)
  /-- `pinv` is the Moore-Penrose inverse -/
  pinv_nr : ∀ A : Mat ℝ, (L.pinv A).nr = A.nc
  pinv_nc : ∀ A : Mat ℝ, (L.pinv A).nc = A.nr
  pinv_1 : ∀ A : Mat ℝ, A.asM A.nr A.nc * (L.pinv A).asM A.nc A.nr * A.asM A.nr A.nc = A.asM A.nr A.nc
  pinv_2 : ∀ A : Mat ℝ, (L.pinv A).asM A.nc A.nr * A.asM A.nr A.nc * (L.pinv A).asM A.nc A.nr
    = (L.pinv A).asM A.nc A.nr
  pinv_3 : ∀ A : Mat ℝ, (A.asM A.nr A.nc * (L.pinv A).asM A.nc A.nr)ᵀ
    = A.asM A.nr A.nc * (L.pinv A).asM A.nc A.nr
  pinv_4 : ∀ A : Mat ℝ, ((L.pinv A).asM A.nc A.nr * A.asM A.nr A.nc)ᵀ
    = (L.pinv A).asM A.nc A.nr * A.asM A.nr A.nc
  /-- `cholesky` factors positive definite matrices and raises on the other symmetric ones -/
  chol_ok : ∀ H : Mat ℝ, H.nr = H.nc → (H.asM H.nr H.nr).PosDef → ∃ F, L.cholesky H = .ok F ∧
    F.nr = H.nr ∧ F.nc = H.nr ∧ F.asM H.nr H.nr * (F.asM H.nr H.nr)ᵀ = H.asM H.nr H.nr
  chol_err : ∀ H : Mat ℝ, H.nr = H.nc → (H.asM H.nr H.nr)ᵀ = H.asM H.nr H.nr →
    ¬ (H.asM H.nr H.nr).PosDef → L.cholesky H = .error .linAlgError
  /-- the right singular vectors are orthonormal and those beyond the rank are in the kernel -/
  svd_nr : ∀ A : Mat ℝ, (L.svdV A).nr = A.nc
  svd_nc : ∀ A : Mat ℝ, (L.svdV A).nc = A.nc
  svd_orth : ∀ A : Mat ℝ, ((L.svdV A).asM A.nc A.nc)ᵀ * (L.svdV A).asM A.nc A.nc = 1
  svd_ker : ∀ A : Mat ℝ, ∀ j < A.nc, np.matrix_rank A ≤ j → ∀ i < A.nr,
    (A.mul (L.svdV A)).e i j = 0
  /-- reduced QR factorization -/
  qr_nr : ∀ A : Mat ℝ, (L.qrR A).nr = min A.nr A.nc
  qr_nc : ∀ A : Mat ℝ, (L.qrR A).nc = A.nc
  qr_tri : ∀ (A : Mat ℝ) (i j : ℕ), j < i → i < min A.nr A.nc → (L.qrR A).e i j = 0
  qr_eq : ∀ A : Mat ℝ, ∃ Q : Matrix (Fin A.nr) (Fin (min A.nr A.nc)) ℝ,
    Qᵀ * Q = 1 ∧ Q * (L.qrR A).asM (min A.nr A.nc) A.nc = A.asM A.nr A.nc

end Verif
