import Verif.Spec.Control

/- Specification of the optimal control of piecewise affine systems and of the mixed-integer programs, independent
of the model. -/
namespace Verif.Spec
open Finset

/-- `Au u + Az z + Ad d + Ax x ≤ b` -/
def MiFeas (Au Az Ad Ax : Mat ℝ) (b : Vec ℝ) (u z d x : ℕ → ℝ) : Prop :=
  ∀ r < b.n, rowVal Au r u + rowVal Az r z + rowVal Ad r d + rowVal Ax r x ≤ b.e r

/-- `1/2 u Huu u + 1/2 z Hzz z + z Hzx x + 1/2 x Hxx x` -/
noncomputable def miCost (Huu Hzz Hzx Hxx : Mat ℝ) (u z x : ℕ → ℝ) : ℝ :=
  1 / 2 * quad Huu u + 1 / 2 * quad Hzz z + ∑ i ∈ range Hzx.nr, ∑ j ∈ range Hzx.nc, z i * Hzx.e i j * x j + 1 / 2 * quad Hxx x

/-- the first `n` entries are zero or one -/
def Binary (n : ℕ) (d : ℕ → ℝ) : Prop := ∀ i < n, d i = 0 ∨ d i = 1

/-- `u`, `z`, `d` minimize the cost over the feasible points with binary `d` -/
def MiOpt (Huu Hzz Hzx Hxx Au Az Ad Ax : Mat ℝ) (b : Vec ℝ) (nd : ℕ) (x u z d : ℕ → ℝ) : Prop :=
  (Binary nd d ∧ MiFeas Au Az Ad Ax b u z d x) ∧
  ∀ u' z' d', Binary nd d' → MiFeas Au Az Ad Ax b u' z' d' x → miCost Huu Hzz Hzx Hxx u z x ≤ miCost Huu Hzz Hzx Hxx u' z' x

/-- data of the optimal control problem of a piecewise affine system with `s` modes: in mode `i` the state becomes
`A i x + B i u + c i`, subject to `DA i (x, u) ≤ Db i`, `DC i (x, u) = Dd i`; at the end `XA x ≤ Xb`, `XC x = Xd` -/
structure HybOcp where
  nx : ℕ
  nu : ℕ
  s : ℕ
  N : ℕ
  A : ℕ → Mat ℝ
  B : ℕ → Mat ℝ
  c : ℕ → Vec ℝ
  Q : Mat ℝ
  R : Mat ℝ
  P : Mat ℝ
  DA : ℕ → Mat ℝ
  Db : ℕ → Vec ℝ
  DC : ℕ → Mat ℝ
  Dd : ℕ → Vec ℝ
  XA : Mat ℝ
  Xb : Vec ℝ
  XC : Mat ℝ
  Xd : Vec ℝ

namespace HybOcp

/-- the state at time `t` under the modes `m` -/
def x (p : HybOcp) (x0 : ℕ → ℝ) (m : ℕ → ℕ) (u : ℕ → ℕ → ℝ) : ℕ → ℕ → ℝ :=
  traj (fun t => p.A (m t)) (fun t => p.B (m t)) (fun t => p.c (m t)) x0 u

/-- the modes exist and the inequalities of the domains and of the terminal set hold -/
def IneqFeas (p : HybOcp) (x0 : ℕ → ℝ) (m : ℕ → ℕ) (u : ℕ → ℕ → ℝ) : Prop :=
  (∀ t < p.N, m t < p.s) ∧
  (∀ t < p.N, IneqHold (p.DA (m t)) (p.Db (m t)) (pair p.nx (p.x x0 m u t) (u t))) ∧
  IneqHold p.XA p.Xb (p.x x0 m u p.N)

/-- the equalities of the domains and of the terminal set hold -/
def EqFeas (p : HybOcp) (x0 : ℕ → ℝ) (m : ℕ → ℕ) (u : ℕ → ℕ → ℝ) : Prop :=
  (∀ t < p.N, EqHold (p.DC (m t)) (p.Dd (m t)) (pair p.nx (p.x x0 m u t) (u t))) ∧
  EqHold p.XC p.Xd (p.x x0 m u p.N)

/-- the trajectory stays in the domains of its modes and ends in the terminal set -/
def Feas (p : HybOcp) (x0 : ℕ → ℝ) (m : ℕ → ℕ) (u : ℕ → ℕ → ℝ) : Prop := p.IneqFeas x0 m u ∧ p.EqFeas x0 m u

/-- the cost of the trajectory -/
noncomputable def cost (p : HybOcp) (x0 : ℕ → ℝ) (m : ℕ → ℕ) (u : ℕ → ℕ → ℝ) : ℝ :=
  lqCost p.Q p.R p.P (p.x x0 m u) u p.N

/-- optimal among all the modes and inputs -/
def Opt (p : HybOcp) (x0 : ℕ → ℝ) (m : ℕ → ℕ) (u : ℕ → ℕ → ℝ) : Prop :=
  p.Feas x0 m u ∧ ∀ m' u', p.Feas x0 m' u' → p.cost x0 m u ≤ p.cost x0 m' u'

/-- there are no equalities -/
def NoEq (p : HybOcp) : Prop := (∀ i < p.s, (p.DC i).nr = 0) ∧ p.XC.nr = 0

end HybOcp
end Verif.Spec
