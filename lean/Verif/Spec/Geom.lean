import Verif.Np.Array
import Mathlib.Analysis.SpecialFunctions.Pow.Real

/- Specification of polyhedra: plain sums, no reference to the model of the code. -/
namespace Verif.Spec
open Finset

/-- `x ∈ {x | A x ≤ b, C x = d}` -/
def InPoly (A : Mat ℝ) (b : Vec ℝ) (C : Mat ℝ) (d : Vec ℝ) (x : ℕ → ℝ) : Prop :=
  (∀ i < A.nr, ∑ j ∈ range A.nc, A.e i j * x j ≤ b.e i) ∧
  ∀ i < C.nr, ∑ j ∈ range C.nc, C.e i j * x j = d.e i

/-- the sizes of the data of a polyhedron in `R^n` agree -/
def PolyShape (n : ℕ) (A : Mat ℝ) (b : Vec ℝ) (C : Mat ℝ) (d : Vec ℝ) : Prop :=
  A.nc = n ∧ b.n = A.nr ∧ C.nc = n ∧ d.n = C.nr

/-- `A x[idx] ≤ b` -/
def IneqAt (A : Mat ℝ) (b : ℕ → ℝ) (idx : List ℕ) (x : ℕ → ℝ) : Prop :=
  ∀ i < A.nr, ∑ k ∈ range A.nc, A.e i k * x (idx.getD k 0) ≤ b i

/-- `C x[idx] = d` -/
def EqAt (C : Mat ℝ) (d : ℕ → ℝ) (idx : List ℕ) (x : ℕ → ℝ) : Prop :=
  ∀ i < C.nr, ∑ k ∈ range C.nc, C.e i k * x (idx.getD k 0) = d i

/-- an index list that selects coordinates of `R^n`, in increasing order -/
def Increasing (n : ℕ) (idx : List ℕ) : Prop := idx.Pairwise (· < ·) ∧ ∀ i ∈ idx, i < n

/-- `A[i] x` -/
def rowVal (A : Mat ℝ) (i : ℕ) (x : ℕ → ℝ) : ℝ := ∑ j ∈ range A.nc, A.e i j * x j

/-- `C x = d` -/
def EqHold (C : Mat ℝ) (d : Vec ℝ) (x : ℕ → ℝ) : Prop := ∀ i < C.nr, rowVal C i x = d.e i

/-- the rows of `C` are independent and fewer than `n` -/
def EqIndep (n : ℕ) (C : Mat ℝ) : Prop :=
  C.nr < n ∧ ∀ w : ℕ → ℝ, (∀ j < n, ∑ i ∈ range C.nr, w i * C.e i j = 0) → ∀ i < C.nr, w i = 0

/-- the polyhedron has a point whose norm is below `sqrt (1 / tol ^ 2 - 1)`, with `tol = 1e-7` -/
def NearPoint (n : ℕ) (A : Mat ℝ) (b : Vec ℝ) (C : Mat ℝ) (d : Vec ℝ) : Prop :=
  ∃ x, InPoly A b C d x ∧ ∑ i ∈ range n, x i ^ 2 < 1 / (1e-7 : ℝ) ^ 2 - 1

/-- Subject to the inequalities in `S` and to the equalities, inequality `i` is either satisfied or
violated by at least `tol` somewhere. -/
def GapAt (A : Mat ℝ) (b : Vec ℝ) (C : Mat ℝ) (d : Vec ℝ) (tol : ℝ) (S : Set ℕ) (i : ℕ) : Prop :=
  (∃ x, EqHold C d x ∧ (∀ j < A.nr, j ∈ S → rowVal A j x ≤ b.e j) ∧ b.e i < rowVal A i x) →
  ∃ x, EqHold C d x ∧ (∀ j < A.nr, j ∈ S → rowVal A j x ≤ b.e j) ∧ b.e i + tol ≤ rowVal A i x

/-- every coordinate of the points of the polyhedron is bounded -/
def IsBounded (n : ℕ) (A : Mat ℝ) (b : Vec ℝ) (C : Mat ℝ) (d : Vec ℝ) : Prop :=
  ∃ R, ∀ x, InPoly A b C d x → ∀ j < n, |x j| ≤ R

/-- a direction in which one can go for ever from any point of the polyhedron -/
def Recession (A C : Mat ℝ) (v : ℕ → ℝ) : Prop :=
  (∀ i < A.nr, rowVal A i v ≤ 0) ∧ ∀ i < C.nr, rowVal C i v = 0

/-- If there are recession directions, then one of them is parallel to all the inequalities or recedes from them by
more than `ε` times its length. -/
def WellScaled (ε : ℝ) (n : ℕ) (A C : Mat ℝ) : Prop :=
  (∃ v, Recession A C v ∧ ∃ j < n, v j ≠ 0) → ∃ v, Recession A C v ∧ (∃ j < n, v j ≠ 0) ∧
    ((∀ i < A.nr, rowVal A i v = 0) ∨ ε * ∑ j ∈ range n, |v j| < ∑ i ∈ range A.nr, |rowVal A i v|)

/-- it is enough that every recession direction is parallel to all the inequalities or recedes from them -/
theorem wellScaled_of {ε : ℝ} {n : ℕ} {A C : Mat ℝ} (h : ∀ v, Recession A C v → (∃ i < A.nr, rowVal A i v ≠ 0) →
    ε * ∑ j ∈ range n, |v j| < ∑ i ∈ range A.nr, |rowVal A i v|) : WellScaled ε n A C := by
  rintro ⟨v, hv, hj⟩
  refine ⟨v, hv, hj, ?_⟩
  by_cases h0 : ∀ i < A.nr, rowVal A i v = 0
  · exact .inl h0
  · push Not at h0
    exact .inr (h v hv h0)

/-- the part of the ball of radius `r` about `c` that is on the same affine subspace as `c`, is in the
polyhedron -/
def BallIn (n : ℕ) (A : Mat ℝ) (b : Vec ℝ) (C : Mat ℝ) (d : Vec ℝ) (c : ℕ → ℝ) (r : ℝ) : Prop :=
  ∀ v : ℕ → ℝ, (∀ i < C.nr, rowVal C i v = 0) → Real.sqrt (∑ j ∈ range n, v j ^ 2) ≤ r →
    InPoly A b C d (fun j => c j + v j)

end Verif.Spec
