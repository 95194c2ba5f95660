import Verif.Model.Projection

/- The methods of `/repo/pympc/geometry/polyhedron.py` that take lists of indices, for lists of integers: Python accepts negative indices. -/
namespace Verif
open Classical

/-- the position that the index `i` selects along an axis of length `n`: negative indices count from the end, and `IndexError` is raised out of range -/
def np.position (n : ℕ) (i : ℤ) : Py ℕ :=
  if 0 ≤ i ∧ i < n then .ok i.toNat
  else if i < 0 ∧ 0 ≤ n + i then .ok (n + i).toNat
  else .error .indexError

namespace Poly

/-- `_selection_matrix(indices)` (polyhedron.py:213-237): the rows of the identity whose number is `in indices` -/
def selectionMatrixZ (n : ℕ) (indices : Option (List ℤ)) : Mat ℝ :=
  let indices := indices.getD ((List.range n).map fun i : ℕ => (i : ℤ))
  (Mat.eye n).rows ((List.range n).filter fun i : ℕ => (i : ℤ) ∈ indices)

/-- `add_inequality(A, b, indices)` (polyhedron.py:63-86) -/
def add_inequalityZ (A : Mat ℝ) (b : NDArr ℝ) (indices : Option (List ℤ)) : PyM Poly Unit := do
  PyM.lift (sameNumberRows A b)
  PyM.modify deleteAttributes
  let p ← PyM.get
  let S := selectionMatrixZ p.A.nc indices
  let AS ← PyM.lift (np.dotMM A S)
  let A' ← PyM.lift (np.vstack [p.A, AS])
  PyM.modify fun p => { p with A := A' }
  let b' ← PyM.lift (np.concatenateND p.b b)
  PyM.modify fun p => { p with b := b' }

/-- `add_lower_bound(x_min, indices)` (polyhedron.py:141-160) -/
def add_lower_boundZ (x_min : Bound) (indices : Option (List ℤ)) : PyM Poly Unit := do
  let x := Bound.toArr x_min
  let p ← PyM.get
  let S := selectionMatrixZ p.A.nc indices
  add_inequalityZ S.neg x.neg none

/-- `add_upper_bound(x_max, indices)` (polyhedron.py:162-181) -/
def add_upper_boundZ (x_max : Bound) (indices : Option (List ℤ)) : PyM Poly Unit := do
  let x := Bound.toArr x_max
  let p ← PyM.get
  let S := selectionMatrixZ p.A.nc indices
  add_inequalityZ S x none

/-- `add_bounds(x_min, x_max, indices)` (polyhedron.py:183-199) -/
def add_boundsZ (x_min x_max : Bound) (indices : Option (List ℤ)) : PyM Poly Unit := do
  add_lower_boundZ x_min indices
  add_upper_boundZ x_max indices

end Poly

namespace Geom

/-- `A[:, idx]` -/
def colsAtZ (A : Mat ℝ) (idx : List ℤ) : Py (Mat ℝ) := do
  let l ← idx.mapM (np.position A.nc)
  return A.cols l

/-- `convex_hull_method(A, b, residual_dimensions)` (polyhedron.py:940-998): a dimension is dropped if its number is `not in residual_dimensions` -/
noncomputable def convex_hull_methodZ (L : Lib) (Q : Qhull) (rand : List (Vec ℝ) → Vec ℝ) (fuel : ℕ) (A : Mat ℝ) (b : Vec ℝ) (dims : List ℤ) :
    Py (Option Projected) := do
  let Ay ← colsAtZ A dims
  let Az ← colsAt A ((List.range A.nc).filter fun i : ℕ => (i : ℤ) ∉ dims)
  let A ← np.hstack [Ay, Az]
  hullMethod L Q rand fuel dims.length A b

end Geom

/-- `project_to(residual_dimensions)` (polyhedron.py:826-857) -/
noncomputable def Poly.project_toZ (L : Lib) (Q : Qhull) (rand : List (Vec ℝ) → Vec ℝ) (fuel : ℕ) (dims : List ℤ) : PyM Poly (Option Poly) :=
  Poly.projectWith L fun A b => Geom.convex_hull_methodZ L Q rand fuel A b dims

end Verif
