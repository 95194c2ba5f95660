import Verif.Spec.Hull

/- Lists of points that contain the vertices of a set. -/
namespace Verif.Spec
open Finset

/-- the points of the list are in the set, and every vertex of the set is one of them -/
def Corners (n : ℕ) (S : (ℕ → ℝ) → Prop) (vs : List (Vec ℝ)) : Prop :=
  (∀ w ∈ vs, w.n = n ∧ S w.e) ∧ ∀ x, IsVertex n S x → ∃ w ∈ vs, ∀ k < n, x k = w.e k

/-- no hyperplane contains the set -/
def Thick (n : ℕ) (S : (ℕ → ℝ) → Prop) : Prop :=
  ∀ (a : ℕ → ℝ) (c : ℝ), (∀ x, S x → ∑ j ∈ range n, a j * x j = c) → ∀ j < n, a j = 0

end Verif.Spec
