import Verif.Spec.Dyn
import Verif.Spec.Geom

/- Specification of optimal control problems, independent of the model. -/
namespace Verif.Spec
open Finset

/-- the pair `(x, u)` as a vector, the first `nx` entries are `x` -/
def pair (nx : ℕ) (x u : ℕ → ℝ) : ℕ → ℝ := fun j => if j < nx then x j else u (j - nx)

/-- `A x ≤ b` -/
def IneqHold (A : Mat ℝ) (b : Vec ℝ) (x : ℕ → ℝ) : Prop := ∀ i < A.nr, rowVal A i x ≤ b.e i

/-- the inputs `u(0), ..., u(N-1)` in one vector -/
def flat (nu : ℕ) (u : ℕ → ℕ → ℝ) : ℕ → ℝ := fun k => u (k / nu) (k % nu)

/-- the inputs in a vector that contains `u(0), ..., u(N-1)` -/
def unflat (nu : ℕ) (v : ℕ → ℝ) : ℕ → ℕ → ℝ := fun t s => v (nu * t + s)

/-- the inputs in a list -/
def inputsOf (us : List (Vec ℝ)) : ℕ → ℕ → ℝ := fun t => (us.getD t ⟨0, fun _ => 0⟩).e

/-- the weights of the stage and terminal costs are symmetric and positive (semi)definite -/
structure Weights (nx nu : ℕ) (Q R P : Mat ℝ) : Prop where
  symQ : SymMat nx Q
  symP : SymMat nx P
  symR : SymMat nu R
  Q0 : ∀ x, 0 ≤ quad Q x
  P0 : ∀ x, 0 ≤ quad P x
  Rpos : ∀ u, (∃ s < nu, u s ≠ 0) → 0 < quad R u

/-- data of the linear optimal control problem: minimize the sum of the stage costs and the terminal cost subject to
`x(t+1) = A x(t) + B u(t)`, `DA (x(t), u(t)) ≤ Db` and `XA x(N) ≤ Xb` -/
structure LinOcp where
  nx : ℕ
  nu : ℕ
  N : ℕ
  A : Mat ℝ
  B : Mat ℝ
  Q : Mat ℝ
  R : Mat ℝ
  P : Mat ℝ
  DA : Mat ℝ
  Db : Vec ℝ
  XA : Mat ℝ
  Xb : Vec ℝ

namespace LinOcp

/-- the state at time `t` -/
def x (p : LinOcp) (x0 : ℕ → ℝ) (u : ℕ → ℕ → ℝ) : ℕ → ℕ → ℝ :=
  traj (fun _ => p.A) (fun _ => p.B) (fun _ => ⟨p.nx, fun _ => 0⟩) x0 u

/-- the next state -/
def next (p : LinOcp) (x u : ℕ → ℝ) : ℕ → ℝ := affine p.A p.B ⟨p.nx, fun _ => 0⟩ x u

/-- state and input satisfy the inequalities of the stage -/
def Stage (p : LinOcp) (x u : ℕ → ℝ) : Prop := IneqHold p.DA p.Db (pair p.nx x u)

/-- the input sequence is feasible -/
def Feas (p : LinOcp) (x0 : ℕ → ℝ) (u : ℕ → ℕ → ℝ) : Prop :=
  (∀ t < p.N, p.Stage (p.x x0 u t) (u t)) ∧ IneqHold p.XA p.Xb (p.x x0 u p.N)

/-- the cost of the input sequence -/
noncomputable def cost (p : LinOcp) (x0 : ℕ → ℝ) (u : ℕ → ℕ → ℝ) : ℝ := lqCost p.Q p.R p.P (p.x x0 u) u p.N

/-- the input sequence is optimal -/
def Opt (p : LinOcp) (x0 : ℕ → ℝ) (u : ℕ → ℕ → ℝ) : Prop :=
  p.Feas x0 u ∧ ∀ u', p.Feas x0 u' → p.cost x0 u ≤ p.cost x0 u'

/-- the stage cost -/
noncomputable def stageCost (p : LinOcp) (x u : ℕ → ℝ) : ℝ := 1 / 2 * (quad p.Q x + quad p.R u)

/-- `u = K x` -/
def gain (K : Mat ℝ) (x : ℕ → ℝ) : ℕ → ℝ := fun s => rowVal K s x

/-- with `u = K x` the terminal set is invariant and the stage constraints hold there -/
def TerminalInvariant (p : LinOcp) (K : Mat ℝ) : Prop :=
  ∀ x, IneqHold p.XA p.Xb x → p.Stage x (gain K x) ∧ IneqHold p.XA p.Xb (p.next x (gain K x))

/-- on the terminal set, with `u = K x`, the terminal cost decreases by at least the stage cost -/
def TerminalDecrease (p : LinOcp) (K : Mat ℝ) : Prop :=
  ∀ x, IneqHold p.XA p.Xb x → 1 / 2 * quad p.P (p.next x (gain K x)) + p.stageCost x (gain K x) ≤ 1 / 2 * quad p.P x

end LinOcp

end Verif.Spec
