import Verif.Spec.Opt

/- Independence of the constraints that are active up to a tolerance. -/
namespace Verif.Spec
open Finset

/-- linear independence of the equalities and of the inequalities that `x` satisfies with less than `tol` to spare -/
def NearIndep (tol : ℝ) (n : ℕ) (A : Mat ℝ) (b : Vec ℝ) (C : Option (Mat ℝ)) (x : Vec ℝ) : Prop :=
  ∀ lam mu : Vec ℝ, (∀ i < A.nr, lam.e i ≠ 0 → b.e i - tol < ∑ j ∈ range A.nc, A.e i j * x.e j) →
    (∀ j < n, ∑ i ∈ range A.nr, lam.e i * A.e i j + eqGrad C (some mu) j = 0) →
    (∀ i < A.nr, lam.e i = 0) ∧ ∀ C', C = some C' → ∀ i < C'.nr, mu.e i = 0

end Verif.Spec
