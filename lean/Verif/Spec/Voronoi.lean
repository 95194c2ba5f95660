import Verif.Np.Array
import Mathlib.Data.Real.Basic

/- Specification of Voronoi cells: plain sums, no reference to the model of the code. -/
namespace Verif.Spec
open Finset

/-- squared distance in `R^n` -/
def sqDist (n : ℕ) (x y : ℕ → ℝ) : ℝ := ∑ j ∈ range n, (x j - y j) ^ 2

/-- `x` is at least as close to the point `i` as to the others -/
def Closest (n : ℕ) (points : List (Vec ℝ)) (i : ℕ) (x : ℕ → ℝ) : Prop :=
  ∀ p ∈ points, sqDist n x (points.getD i ⟨0, fun _ => 0⟩).e ≤ sqDist n x p.e

/-- the points are pairwise different -/
def Distinct (n : ℕ) (points : List (Vec ℝ)) : Prop :=
  ∀ i < points.length, ∀ j < points.length, i ≠ j → ∃ c < n, (points.getD i ⟨0, fun _ => 0⟩).e c ≠ (points.getD j ⟨0, fun _ => 0⟩).e c

/-- some point is as close to the points `i` and `j` and farther from all others: the cells of `i` and `j` share a facet -/
def ShareFacet (n : ℕ) (points : List (Vec ℝ)) (i j : ℕ) : Prop :=
  ∃ z : ℕ → ℝ, sqDist n z (points.getD i ⟨0, fun _ => 0⟩).e = sqDist n z (points.getD j ⟨0, fun _ => 0⟩).e ∧
    ∀ k < points.length, k ≠ i → k ≠ j → sqDist n z (points.getD i ⟨0, fun _ => 0⟩).e < sqDist n z (points.getD k ⟨0, fun _ => 0⟩).e

/-- no hyperplane contains all the points -/
def Spread (n : ℕ) (points : List (Vec ℝ)) : Prop :=
  ∀ (a : ℕ → ℝ) (d : ℝ), (∀ v ∈ points, ∑ j ∈ range n, a j * v.e j = d) → ∀ j < n, a j = 0

end Verif.Spec
