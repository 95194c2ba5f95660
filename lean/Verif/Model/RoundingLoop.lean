import Verif.Model.Rounding

/- `simulate_closed_loop` in floating point arithmetic; see `Model/Rounding`. -/
namespace Verif.Fl
open Finset Dyn

/-- `G` is a computed value of `self.A + self.B.dot(K)` (dynamics/discrete_time_systems.py:90) -/
def LoopMat (fl : ℝ → ℝ) (S : LinearSystem) (K G : Mat ℝ) : Prop :=
  G.nr = S.A.nr ∧ G.nc = S.A.nc ∧ ∃ W : ℕ → ℕ → ℝ, ∀ i < S.A.nr, ∀ j < S.A.nc,
    DotVal fl (S.B.e i) (fun k => K.e k j) (range S.B.nc) (W i j) ∧ G.e i j = fl (S.A.e i j + W i j)

/-- one pass of the loop (dynamics/discrete_time_systems.py:90): `x'` is a computed value of `(self.A + self.B.dot(K)).dot(x)`.  The code computes the matrix anew in each pass; two
passes need not find the same one -/
def LoopStep (fl : ℝ → ℝ) (S : LinearSystem) (K : Mat ℝ) (x x' : ℕ → ℝ) : Prop := ∃ G, LoopMat fl S K G ∧ Mul fl G x x'

end Verif.Fl
