import Verif.Spec.Geom

/- Specification of convex hulls, vertices and projections: plain sums, no reference to the model of the code. -/
namespace Verif.Spec
open Finset

/-- the first `P.nc` coordinates of `x` are a convex combination of the rows of `P` -/
def InHull (P : Mat ℝ) (x : ℕ → ℝ) : Prop :=
  ∃ w : ℕ → ℝ, (∀ k < P.nr, 0 ≤ w k) ∧ ∑ k ∈ range P.nr, w k = 1 ∧ ∀ j < P.nc, x j = ∑ k ∈ range P.nr, w k * P.e k j

/-- no hyperplane contains all the rows of `P` -/
def FullDim (P : Mat ℝ) : Prop :=
  ∀ (a : ℕ → ℝ) (d : ℝ), (∀ k < P.nr, ∑ j ∈ range P.nc, a j * P.e k j = d) → ∀ j < P.nc, a j = 0

/-- `x` satisfies the inequalities `E[i,:n] x + E[i,n] ≤ 0` -/
def InHalfspaces (n : ℕ) (E : Mat ℝ) (x : ℕ → ℝ) : Prop :=
  ∀ i < E.nr, ∑ j ∈ range n, E.e i j * x j + E.e i n ≤ 0

/-- the rows of `P` on the hyperplane `a x + c = 0` determine it up to a factor -/
def IsFacet (P : Mat ℝ) (a : ℕ → ℝ) (c : ℝ) : Prop :=
  ∀ (a' : ℕ → ℝ) (c' : ℝ),
    (∀ k < P.nr, ∑ j ∈ range P.nc, a j * P.e k j + c = 0 → ∑ j ∈ range P.nc, a' j * P.e k j + c' = 0) →
    ∃ t : ℝ, c' = t * c ∧ ∀ j < P.nc, a' j = t * a j

/-- `x` is an extreme point of the set `S` of points of `R^n` -/
def IsVertex (n : ℕ) (S : (ℕ → ℝ) → Prop) (x : ℕ → ℝ) : Prop :=
  S x ∧ ∀ v : ℕ → ℝ, S (fun j => x j + v j) → S (fun j => x j - v j) → ∀ j < n, v j = 0

/-- the rows of the list are affinely independent as points of `R^n` -/
def AffIndep (n : ℕ) (l : List (Vec ℝ)) : Prop :=
  ∀ c : Fin l.length → ℝ, ∑ k, c k = 0 → (∀ j < n, ∑ k, c k * (l[k]).e j = 0) → c = 0

/-- the box of half width `ε` about `x0` is in the polyhedron -/
def BoxIn (n : ℕ) (A : Mat ℝ) (b : Vec ℝ) (C : Mat ℝ) (d : Vec ℝ) (x0 : ℕ → ℝ) (ε : ℝ) : Prop :=
  ∀ x : ℕ → ℝ, (∀ j < n, |x j - x0 j| ≤ ε) → InPoly A b C d x

/-- `y` is the projection of a point of the polyhedron on the coordinates `dims` -/
def InProj (A : Mat ℝ) (b : Vec ℝ) (C : Mat ℝ) (d : Vec ℝ) (dims : List ℕ) (y : ℕ → ℝ) : Prop :=
  ∃ x, InPoly A b C d x ∧ ∀ k < dims.length, y k = x (dims.getD k 0)

end Verif.Spec
