import Verif.Model.Projection

/- Model of the notebook `/repo/examples/disjunctive_inequalities.ipynb`: two formulations of `x ∈ P1 ∪ P2`, with
`P1 = {A1 x ≤ b1}` and `P2 = {A2 x ≤ b2}`.  The notebook has polytopes in the plane, so the index of the binary
is 2 and 4 and the projection is on `[0, 1]`; here `n = A1.shape[1]`, the indices are `n` and `2 n` and the
projection is on `range(n)`. -/
namespace Verif.Disjunctive

/-- `P = Polyhedron(A, b); P.add_bounds(0., 1., [k])` (disjunctive_inequalities.ipynb:142-143, 147-148, 219-220, 225-226) -/
def relaxed (A : Mat ℝ) (b : Vec ℝ) (k : ℕ) : Py Poly := do
  let p ← Poly.init A (.d1 b)
  Poly.runOn p (Poly.add_bounds (.flt 0) (.flt 1) (some [k]))

/-- the constraint set of the big-M formulation (disjunctive_inequalities.ipynb:140-151) -/
def bigM (A1 : Mat ℝ) (b1 : Vec ℝ) (A2 : Mat ℝ) (b2 M : Vec ℝ) : Py Poly := do
  let A1r ← np.hstack [A1, Mat.ofCol M.neg]
  let P1 ← relaxed A1r b1 A1.nc
  let A2r ← np.hstack [A2, Mat.ofCol M.neg]
  let P2 ← relaxed A2r b2 A1.nc
  P1.intersection P2

/-- the constraint set of the convex hull formulation (disjunctive_inequalities.ipynb:217-229) -/
def hull (A1 : Mat ℝ) (b1 : Vec ℝ) (A2 : Mat ℝ) (b2 : Vec ℝ) : Py Poly := do
  let A1r ← np.hstack [Mat.zeros A1.nr A1.nc, A1, Mat.ofCol b1]
  let P1 ← relaxed A1r b1 (2 * A1.nc)
  let A2r ← np.hstack [A2, A2.neg, Mat.ofCol b2.neg]
  let P2 ← relaxed A2r (Vec.zeros b2.n) (2 * A1.nc)
  P1.intersection P2

/-- `fs = cs.project_to([0,1])` (disjunctive_inequalities.ipynb:152, 230), with a bound on the steps of the loop -/
noncomputable def feasibleSet (L : Lib) (Q : Qhull) (rand : List (Vec ℝ) → Vec ℝ) (fuel n : ℕ) (cs : Py Poly) : Py (Option Poly) := do
  let p ← cs
  (Poly.project_to L Q rand fuel (List.range n) p).1

/-- the data of the notebook: `A1` (disjunctive_inequalities.ipynb:78) -/
def A1 : Mat ℝ := ⟨3, 2, fun i j => if i = 2 then 1 else if i = j then -1 else 0⟩

/-- `b1` (disjunctive_inequalities.ipynb:79) -/
noncomputable def b1 : Vec ℝ := ⟨3, fun i => if i = 2 then 1 else -1 / 10⟩

/-- `A2 = - A1` (disjunctive_inequalities.ipynb:83) -/
def A2 : Mat ℝ := A1.neg

/-- `b2 = b1/2.` (disjunctive_inequalities.ipynb:84) -/
noncomputable def b2 : Vec ℝ := ⟨3, fun i => b1.e i / 2⟩

/-- `M` (disjunctive_inequalities.ipynb:138) -/
noncomputable def M : Vec ℝ := ⟨3, fun i => if i = 2 then 0 else 95 / 100⟩

end Verif.Disjunctive
