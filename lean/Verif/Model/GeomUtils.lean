import Verif.Model.Lib

/- Model of `/repo/pympc/geometry/utils.py`. -/
namespace Verif.Geom
open Classical

/-- `V[:,rank:]` (geometry/utils.py:24) -/
def colsFromRank (V : Mat ℝ) (rank : ℕ) : Mat ℝ := ⟨V.nr, V.nc - rank, fun i j => V.e i (rank + j)⟩

/-- `nullspace_basis(A)` (geometry/utils.py:4-26) -/
noncomputable def nullspace_basis (L : Lib) (A : Mat ℝ) : Py (Mat ℝ) := do
  let V := L.svdV A
  let rank ← np.rank A
  return colsFromRank V rank

/-- `linearly_independent_rows(A, tol=1.e-6)` (geometry/utils.py:28-52).  The list is built in
increasing order, so `sorted` does nothing. -/
noncomputable def linearly_independent_rows (L : Lib) (A : Mat ℝ) (tol : ℝ := 1e-6) : List ℕ :=
  let R := L.qrR A.T
  (List.range (min R.nr R.nc)).filter fun i => decide (|R.e i i| > tol)

/-- `p + offset` for all the points (geometry/utils.py:76) -/
def shiftPoints (points : List (Vec ℝ)) (offset : Vec ℝ) : Py (List (Vec ℝ)) :=
  points.mapM fun p => np.addV p offset

/-- `d_sign = np.sign(d); if d_sign == 0.: d_sign = 1.` (geometry/utils.py:87-89) -/
noncomputable def signOf (d : ℝ) : ℝ := if d < 0 then -1 else 1

/-- `plane_through_points(points)` (geometry/utils.py:54-92) once the random offset is drawn (line 76-92) -/
noncomputable def planeOffset (offset : Vec ℝ) (points : List (Vec ℝ)) : Py (Vec ℝ × ℝ) := do
  let pts ← shiftPoints points offset
  let p0 ← np.listGet pts 0
  let P ← np.vstack (pts.map Mat.ofRow)
  let a ← np.solve P (Vec.ones p0.n)
  let ao ← np.dotVV a offset
  let d := 1 - ao
  let s := vnorm a * signOf d
  return (a.divS s, d / s)

/-- `plane_through_points(points)` (geometry/utils.py:54-92), the random numbers drawn in line 75 being
a parameter; as many are drawn as the first point has coordinates.  `points[0]` raises `IndexError` on the empty list. -/
noncomputable def plane_through_points (offset : Vec ℝ) (points : List (Vec ℝ)) : Py (Vec ℝ × ℝ) := do
  let p ← np.listGet points 0
  planeOffset ⟨p.n, offset.e⟩ points

/-- `np.allclose(a, b)` with the default tolerances, on one dimensional arrays of the same size.
`none` is an array with `nan`, which is close to nothing. -/
noncomputable def allclose : Option (Vec ℝ) → Option (Vec ℝ) → Bool
  | some a, some b => decide (∀ i < a.n, |a.e i - b.e i| ≤ 1e-8 + 1e-5 * |b.e i|)
  | _, _ => false

/-- the loop over the rows (geometry/utils.py:125-129): `i` are the positions of the rows of `B` close to
`a`; there has to be one, and it is deleted -/
noncomputable def matchRows {α : Type} (close : α → α → Bool) : List α → List α → Bool
  | [], _ => true
  | a :: as, B =>
    match (List.range B.length).filter fun i => (B[i]?).any (close a) with
    | [i] => matchRows close as (B.eraseIdx i)
    | _ => false

/-- the rows of a matrix, as iterated by `for a in A` -/
def rowList (A : Mat ℝ) : List (Vec ℝ) := (List.range A.nr).map A.row

/-- `A[i] / np.linalg.norm(A[i])`, in place (geometry/utils.py:119-122); a zero row becomes `nan` (unless it
has no entries) -/
noncomputable def normRow (v : Vec ℝ) : Option (Vec ℝ) :=
  if v.n ≠ 0 ∧ vnorm v = 0 then none else some (v.divS (vnorm v))

/-- a row as `np.allclose` broadcasts it to the size `w`: a row of size one is repeated (and leaves nothing if `w` is zero, be it `nan` or not) -/
def stretchRow (w : ℕ) : Option (Vec ℝ) → Option (Vec ℝ)
  | some v => some (if v.n = 1 then ⟨w, fun _ => v.e 0⟩ else v)
  | none => if w = 0 then some ⟨0, fun _ => 0⟩ else none

/-- the loop over the rows (geometry/utils.py:124-131) on as many rows of `m` and `n` entries: `np.allclose` broadcasts rows of size one and raises
`ValueError` on other different sizes; it is not called if there are no rows -/
noncomputable def compareRows (m n : ℕ) (A B : List (Option (Vec ℝ))) : Py Bool :=
  if A = [] ∨ m = n then .ok (matchRows allclose A B)
  else match np.axisSize m n with
    | none => .error .valueError
    | some w => .ok (matchRows allclose (A.map (stretchRow w)) (B.map (stretchRow w)))

/-- `same_rows(A, B, normalize=True)` (geometry/utils.py:94-131).  The rows of the arguments after the
call are `A.map normRow` when `normalize` is true (the arguments are modified in place). -/
noncomputable def same_rows (A B : Mat ℝ) (normalize : Bool := true) : Py Bool :=
  if A.nr ≠ B.nr then .ok false
  else
    let rows := fun A => (rowList A).map fun v => if normalize then normRow v else some v
    compareRows A.nc B.nc (rows A) (rows B)

/-- `any(len(z.shape) >= 2 for z in z_list)` (geometry/utils.py:151-153); all the entries as vectors
otherwise -/
def as1d (l : List (NDArr ℝ)) : Py (List (Vec ℝ)) :=
  l.mapM fun z => match z with
    | .d1 v => .ok v
    | .d2 _ => .error .valueError

/-- `same_vectors(v_list, u_list)` (geometry/utils.py:133-159) -/
noncomputable def same_vectors (v_list u_list : List (NDArr ℝ)) : Py Bool := do
  let v ← as1d v_list
  let u ← as1d u_list
  let V ← np.vstack (v.map Mat.ofRow)
  let U ← np.vstack (u.map Mat.ofRow)
  same_rows V U false

end Verif.Geom
