import Verif.Spec.Hybrid

/- Specification of terminal sets and costs for the optimal control of piecewise affine systems, independent of the model. -/
namespace Verif.Spec.HybOcp
open Finset

/-- the next state in mode `i` -/
def next (p : HybOcp) (i : ℕ) (x u : ℕ → ℝ) : ℕ → ℝ := affine (p.A i) (p.B i) (p.c i) x u

/-- `1/2 (x Q x + u R u)` -/
noncomputable def stageCost (p : HybOcp) (x u : ℕ → ℝ) : ℝ := 1 / 2 * (quad p.Q x + quad p.R u)

/-- state and input are in the domain of mode `i` -/
def Stage (p : HybOcp) (i : ℕ) (x u : ℕ → ℝ) : Prop :=
  IneqHold (p.DA i) (p.Db i) (pair p.nx x u) ∧ EqHold (p.DC i) (p.Dd i) (pair p.nx x u)

/-- the terminal set -/
def Term (p : HybOcp) (x : ℕ → ℝ) : Prop := IneqHold p.XA p.Xb x ∧ EqHold p.XC p.Xd x

/-- each state of the terminal set can be kept in it, in some mode -/
def TerminalInvariant (p : HybOcp) : Prop :=
  ∀ x, p.Term x → ∃ i < p.s, ∃ v, p.Stage i x v ∧ p.Term (p.next i x v)

/-- each state of the terminal set can be kept in it such that the terminal cost decreases by at least the stage cost -/
def TerminalDecrease (p : HybOcp) : Prop :=
  ∀ x, p.Term x → ∃ i < p.s, ∃ v, p.Stage i x v ∧ p.Term (p.next i x v) ∧
    1 / 2 * quad p.P (p.next i x v) + p.stageCost x v ≤ 1 / 2 * quad p.P x

end Verif.Spec.HybOcp
