import Verif.Spec.Opt

/- Specification of multiparametric quadratic programs: plain sums, no reference to the model of the
code. -/
namespace Verif.Spec
open Finset

/-- data of `V(x) = min_u 1/2 (u,x)' [Huu Hux; Hux' Hxx] (u,x) + (fu,fx)' (u,x) + g
s.t. Au u + Ax x ≤ b` -/
structure ParamQP where
  Huu : Mat ℝ
  Hux : Mat ℝ
  Hxx : Mat ℝ
  fu : Vec ℝ
  fx : Vec ℝ
  g : ℝ
  Au : Mat ℝ
  Ax : Mat ℝ
  b : Vec ℝ

namespace ParamQP

/-- the sizes agree, for `nu` variables and `nx` parameters -/
structure Shape (nu nx : ℕ) (P : ParamQP) : Prop where
  Huu : SymPosDef nu P.Huu
  Hux_nr : P.Hux.nr = nu
  Hux_nc : P.Hux.nc = nx
  Hxx_nr : P.Hxx.nr = nx
  Hxx_nc : P.Hxx.nc = nx
  fu : P.fu.n = nu
  fx : P.fx.n = nx
  Au : P.Au.nc = nu
  Ax : P.Ax.nc = nx
  rows : P.Ax.nr = P.Au.nr
  b : P.b.n = P.Au.nr

/-- `1/2 (u,x)' [Huu Hux; Hux' Hxx] (u,x) + (fu,fx)' (u,x) + g` -/
noncomputable def cost (nu nx : ℕ) (P : ParamQP) (u x : ℕ → ℝ) : ℝ :=
  1 / 2 * (∑ i ∈ range nu, ∑ j ∈ range nu, u i * P.Huu.e i j * u j
    + ∑ i ∈ range nu, ∑ j ∈ range nx, u i * P.Hux.e i j * x j
    + ∑ i ∈ range nx, ∑ j ∈ range nu, x i * P.Hux.e j i * u j
    + ∑ i ∈ range nx, ∑ j ∈ range nx, x i * P.Hxx.e i j * x j)
  + ∑ j ∈ range nu, P.fu.e j * u j + ∑ j ∈ range nx, P.fx.e j * x j + P.g

/-- `Au[i] u + Ax[i] x` -/
def lhs (nu nx : ℕ) (P : ParamQP) (i : ℕ) (u x : ℕ → ℝ) : ℝ :=
  ∑ j ∈ range nu, P.Au.e i j * u j + ∑ j ∈ range nx, P.Ax.e i j * x j

/-- `Au u + Ax x ≤ b` -/
def Feas (nu nx : ℕ) (P : ParamQP) (u x : ℕ → ℝ) : Prop :=
  ∀ i < P.Au.nr, P.lhs nu nx i u x ≤ P.b.e i

/-- `u` is an optimizer at the parameter `x` -/
def Opt (nu nx : ℕ) (P : ParamQP) (u x : ℕ → ℝ) : Prop :=
  P.Feas nu nx u x ∧ ∀ u', P.Feas nu nx u' x → P.cost nu nx u x ≤ P.cost nu nx u' x

/-- derivative with respect to `u_j` of the Lagrangian with multipliers `p` -/
def lagrangian (nu nx : ℕ) (P : ParamQP) (u x p : ℕ → ℝ) (j : ℕ) : ℝ :=
  ∑ k ∈ range nu, P.Huu.e j k * u k + ∑ k ∈ range nx, P.Hux.e j k * x k + P.fu.e j
    + ∑ i ∈ range P.Au.nr, p i * P.Au.e i j

/-- the KKT conditions at the parameter `x` -/
structure KKT (nu nx : ℕ) (P : ParamQP) (u p x : ℕ → ℝ) : Prop where
  feas : P.Feas nu nx u x
  stat : ∀ j < nu, P.lagrangian nu nx u x p j = 0
  nonneg : ∀ i < P.Au.nr, 0 ≤ p i
  compl : ∀ i < P.Au.nr, p i * (P.b.e i - P.lhs nu nx i u x) = 0

/-- the gradients with respect to `u` of the constraints in the list are independent -/
def Licq (nu : ℕ) (P : ParamQP) (a : List ℕ) : Prop :=
  ∀ w : ℕ → ℝ, (∀ j < nu, ∑ k ∈ range a.length, w k * P.Au.e (a.getD k 0) j = 0) →
    ∀ k < a.length, w k = 0

end ParamQP

/-- how much an inequality with gradient `v` may be violated, if the inequality is scaled to have unit
gradient (unless the gradient is tiny) and tested with the tolerance `1e-7` -/
noncomputable def gradTol (n : ℕ) (v : ℕ → ℝ) : ℝ :=
  if 1e-7 < Real.sqrt (∑ j ∈ range n, v j ^ 2) then 1e-7 * Real.sqrt (∑ j ∈ range n, v j ^ 2) else 1e-7

end Verif.Spec
