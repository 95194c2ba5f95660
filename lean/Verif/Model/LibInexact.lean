import Verif.Model.Lib

/- Contracts of the routines called by `/repo/pympc/optimization/solvers/pnnls.py` that are weaker than
`LibSpec`: `scipy.optimize.nnls` (pnnls.py:36, 218) iterates until its stopping criterion holds, and need
not return an exact minimizer.  The other routines (`pinv`, `cholesky`) keep their contract. -/
namespace Verif
open Finset Matrix

/-- `nnls` returns some nonnegative vector and the norm of its residual, without any claim of optimality
(pnnls.py:36, 218); `pinv` and `cholesky` as in `LibSpec` -/
structure LibSound (L : Lib) : Prop where
  nnls_n : ∀ (A : Mat ℝ) (b : Vec ℝ), A.nr = b.n → (L.nnls A b).1.n = A.nc
  nnls_nonneg : ∀ (A : Mat ℝ) (b : Vec ℝ), A.nr = b.n → ∀ i < A.nc, 0 ≤ (L.nnls A b).1.e i
  nnls_res : ∀ (A : Mat ℝ) (b : Vec ℝ), A.nr = b.n →
    (L.nnls A b).2 = vnorm ((A.mulVec (L.nnls A b).1).sub b)
  pinv_nr : ∀ A : Mat ℝ, (L.pinv A).nr = A.nc
  pinv_nc : ∀ A : Mat ℝ, (L.pinv A).nc = A.nr
  pinv_1 : ∀ A : Mat ℝ, A.asM A.nr A.nc * (L.pinv A).asM A.nc A.nr * A.asM A.nr A.nc = A.asM A.nr A.nc
  pinv_3 : ∀ A : Mat ℝ, (A.asM A.nr A.nc * (L.pinv A).asM A.nc A.nr)ᵀ
    = A.asM A.nr A.nc * (L.pinv A).asM A.nc A.nr
  chol_ok : ∀ H : Mat ℝ, H.nr = H.nc → (H.asM H.nr H.nr).PosDef → ∃ F, L.cholesky H = .ok F ∧
    F.nr = H.nr ∧ F.nc = H.nr ∧ F.asM H.nr H.nr * (F.asM H.nr H.nr)ᵀ = H.asM H.nr H.nr

/-- the residual returned by `nnls` exceeds the smallest one by at most `δ` -/
def NnlsWithin (L : Lib) (δ : ℝ) : Prop :=
  ∀ (A : Mat ℝ) (b : Vec ℝ), A.nr = b.n → ∀ y : Vec ℝ, (∀ i < A.nc, 0 ≤ y.e i) →
    (L.nnls A b).2 ≤ vnorm ((A.mulVec y).sub b) + δ

/-- the vector `y` returned by `nnls` satisfies the conditions of optimality up to `δ` (sign of the
gradient `g = A'(A y - b)`) and `ε` (complementarity `y g`) -/
def NnlsStops (L : Lib) (δ ε : ℝ) : Prop :=
  ∀ (A : Mat ℝ) (b : Vec ℝ), A.nr = b.n →
    (∀ j < A.nc, -δ ≤ ∑ i ∈ range A.nr, A.e i j * ((A.mulVec (L.nnls A b).1).sub b).e i) ∧
    |∑ j ∈ range A.nc, (L.nnls A b).1.e j
      * ∑ i ∈ range A.nr, A.e i j * ((A.mulVec (L.nnls A b).1).sub b).e i| ≤ ε

theorem LibSpec.sound {L : Lib} (h : LibSpec L) : LibSound L :=
  ⟨h.nnls_n, h.nnls_nonneg, h.nnls_res, h.pinv_nr, h.pinv_nc, h.pinv_1, h.pinv_3, h.chol_ok⟩

theorem LibSpec.within {L : Lib} (h : LibSpec L) : NnlsWithin L 0 := fun A b hab y hy => by
  rw [h.nnls_res A b hab, add_zero]
  exact h.nnls_min A b hab y hy

end Verif
