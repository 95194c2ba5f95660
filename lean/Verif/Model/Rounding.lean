import Verif.Model.Polyhedron
import Verif.Model.Systems
import Verif.Model.MpQP

/- Some functions in floating point arithmetic.  `fl` rounds a real number to a floating point number; each operation of the code is exact but for a rounding at its end.  The
order in which `np.dot` sums, and whether it fuses products with sums, is left open (it differs between BLAS libraries): the computed values are given by a relation. -/
namespace Verif.Fl
open Finset Dyn

/-- `v` is a computed value of the sum of `a i * x i` over `s`: the products are summed in any order, pairwise or not, with or without fused multiplications -/
inductive DotVal (fl : ℝ → ℝ) (a x : ℕ → ℝ) : Finset ℕ → ℝ → Prop
  | empty : DotVal fl a x ∅ 0
  | single (i : ℕ) : DotVal fl a x {i} (fl (a i * x i))
  | fused {s : Finset ℕ} {v : ℝ} (i : ℕ) (hi : i ∉ s) (h : DotVal fl a x s v) : DotVal fl a x (insert i s) (fl (v + a i * x i))
  | add {s t : Finset ℕ} {v w : ℝ} (hst : Disjoint s t) (hs : s.Nonempty) (ht : t.Nonempty) (h : DotVal fl a x s v) (h' : DotVal fl a x t w) :
      DotVal fl a x (s ∪ t) (fl (v + w))

/-- `y` is a computed value of `A.dot(x)` -/
def Mul (fl : ℝ → ℝ) (A : Mat ℝ) (x y : ℕ → ℝ) : Prop := ∀ i < A.nr, DotVal fl (A.e i) x (range A.nc) (y i)

/-- `contains(x, tol)` (geometry/polyhedron.py:578-604) may answer `ans` on a polyhedron with at least one inequality (`np.max` of an empty array raises); maxima, absolute values and comparisons
are exact -/
def Contains (fl : ℝ → ℝ) (p : Poly) (x : Vec ℝ) (tol : ℝ) (ans : Prop) : Prop :=
  ∃ y z : ℕ → ℝ, Mul fl p.A x.e y ∧ Mul fl p.C x.e z ∧
    (ans ↔ (∀ i < p.A.nr, fl (y i - p.b.e i) ≤ tol) ∧
      (p.C.nr = 0 ∨ ∃ k < p.C.nr, (∀ i < p.C.nr, fl (z i - p.d.e i) ≤ fl (z k - p.d.e k)) ∧ |fl (z k - p.d.e k)| ≤ tol))

/-- one step of `LinearSystem.simulate` (dynamics/discrete_time_systems.py:64): `x'` is a computed value of `A.dot(x) + B.dot(v)` -/
def Step (fl : ℝ → ℝ) (S : LinearSystem) (x v x' : ℕ → ℝ) : Prop :=
  ∃ y z : ℕ → ℝ, Mul fl S.A x y ∧ Mul fl S.B v z ∧ ∀ i < S.nx, x' i = fl (y i + z i)

/-- the rows of `A` and `b` after the loops of `normalize` (geometry/polyhedron.py:390-394, 397-401): each row is left as it is, or divided by `r`, whatever number larger than `tol` was computed as its
norm -/
def NormalizeRows (fl : ℝ → ℝ) (tol : ℝ) (A : Mat ℝ) (b : Vec ℝ) (A' : Mat ℝ) (b' : Vec ℝ) : Prop :=
  A'.nr = A.nr ∧ A'.nc = A.nc ∧ b'.n = b.n ∧ ∀ i < A.nr,
    ((∀ j < A.nc, A'.e i j = A.e i j) ∧ b'.e i = b.e i) ∨ ∃ r > tol, (∀ j < A.nc, A'.e i j = fl (A.e i j / r)) ∧ b'.e i = fl (b.e i / r)

/-- `CriticalRegion.u(x)` (optimization/parametric_programs.py:349-364): `v` is a computed value of `self._u['x'].dot(x) + self._u['0']` -/
def Law (fl : ℝ → ℝ) (cr : CritReg) (x : Vec ℝ) (v : ℕ → ℝ) : Prop :=
  ∃ y : ℕ → ℝ, Mul fl cr.ux x.e y ∧ ∀ i < cr.ux.nr, v i = fl (y i + cr.u0.e i)

end Verif.Fl
