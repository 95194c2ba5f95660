import Verif.Spec.Geom
import Mathlib.Analysis.Convex.Hull

/- Specification of the two formulations of a disjunction, as described in the text of
`/repo/examples/disjunctive_inequalities.ipynb`. -/
namespace Verif.Spec
open Finset

/-- `P = {x | A x ≤ b}` -/
def halfspaces (A : Mat ℝ) (b : Vec ℝ) : Set (ℕ → ℝ) := {x | ∀ i < A.nr, rowVal A i x ≤ b.e i}

/-- the documented big-M formulation: `A1 x ≤ b1 + M δ` and `A2 x ≤ b2 + M (1 - δ)` -/
def BigM (A1 : Mat ℝ) (b1 : Vec ℝ) (A2 : Mat ℝ) (b2 M : Vec ℝ) (x : ℕ → ℝ) (δ : ℝ) : Prop :=
  (∀ i < A1.nr, rowVal A1 i x ≤ b1.e i + M.e i * δ) ∧ ∀ i < A2.nr, rowVal A2 i x ≤ b2.e i + M.e i * (1 - δ)

/-- all the coordinates below `n` of the points of `S` are bounded -/
def BoundedSet (n : ℕ) (S : Set (ℕ → ℝ)) : Prop := ∃ R, ∀ x ∈ S, ∀ j < n, |x j| ≤ R

end Verif.Spec
