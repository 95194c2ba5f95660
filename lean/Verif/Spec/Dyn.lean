import Mathlib.Data.Real.Basic
import Mathlib.Algebra.BigOperators.Group.Finset.Basic
import Verif.Np.Array

/- Specification of dynamical systems, independent of the model. -/
namespace Verif.Spec
open Finset

/-- `(A x + B u + c)_i` -/
def affine (A B : Mat ℝ) (c : Vec ℝ) (x u : ℕ → ℝ) (i : ℕ) : ℝ :=
  ∑ j ∈ range A.nc, A.e i j * x j + ∑ j ∈ range B.nc, B.e i j * u j + c.e i

/-- `A` is `nx` by `nx`, `B` has `nx` rows and `nu` columns, `c` has `nx` entries -/
def SystemShape (nx nu : ℕ) (A B : Mat ℝ) (c : Vec ℝ) : Prop :=
  A.nr = nx ∧ A.nc = nx ∧ B.nr = nx ∧ B.nc = nu ∧ c.n = nx

/-- the states of `x(t+1) = A_t x(t) + B_t u(t) + c_t`, `x(0) = x0` -/
def traj (A B : ℕ → Mat ℝ) (c : ℕ → Vec ℝ) (x0 : ℕ → ℝ) (u : ℕ → ℕ → ℝ) : ℕ → ℕ → ℝ
  | 0 => x0
  | t + 1 => affine (A t) (B t) (c t) (traj A B c x0 u t) (u t)

/-- `x M x` -/
def quad (M : Mat ℝ) (x : ℕ → ℝ) : ℝ := ∑ i ∈ range M.nr, ∑ j ∈ range M.nc, x i * M.e i j * x j

/-- `1/2 ∑_{t<N} (x(t) Q x(t) + u(t) R u(t)) + 1/2 x(N) P x(N)` -/
noncomputable def lqCost (Q R P : Mat ℝ) (x u : ℕ → ℕ → ℝ) (N : ℕ) : ℝ :=
  1 / 2 * ∑ t ∈ range N, (quad Q (x t) + quad R (u t)) + 1 / 2 * quad P (x N)

/-- `M` is a symmetric `n` by `n` matrix -/
def SymMat (n : ℕ) (M : Mat ℝ) : Prop := M.nr = n ∧ M.nc = n ∧ ∀ i < n, ∀ j < n, M.e i j = M.e j i

/-- the states `A^t x` of the system `x⁺ = A x` -/
def orbit (A : Mat ℝ) (x : ℕ → ℝ) : ℕ → ℕ → ℝ
  | 0 => x
  | t + 1 => fun i => ∑ j ∈ range A.nc, A.e i j * orbit A x t j

end Verif.Spec
