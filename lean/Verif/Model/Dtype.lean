import Verif.Model.Heap
import Verif.Model.GeomUtils

/- Arrays with an element type: an assignment into an array of integers truncates. Model of the two functions that assign quotients to the arrays
of the caller: `Polyhedron.normalize` (/repo/pympc/geometry/polyhedron.py:379-401) and `same_rows` (/repo/pympc/geometry/utils.py:94-131).
The integers are unbounded. -/
namespace Verif

/-- the element type of an array -/
inductive Dtype
  | int64
  | float64
deriving DecidableEq

namespace Dtype

/-- `a[i] = x`: what the array holds afterwards (conversion to an integer drops the fractional part) -/
noncomputable def store : Dtype → ℝ → ℝ
  | .float64, x => x
  | .int64, x => if 0 ≤ x then (⌊x⌋ : ℝ) else (⌈x⌉ : ℝ)

/-- one iteration of the loops of `normalize` (polyhedron.py:390-394, 397-401) on arrays of types `dA`, `db` -/
noncomputable def normalizeRow (dA db : Dtype) (tol : ℝ) (Ab : Mat ℝ × Vec ℝ) (i : ℕ) : Mat ℝ × Vec ℝ :=
  let r := vnorm (Ab.1.row i)
  if r > tol then
    (⟨Ab.1.nr, Ab.1.nc, fun k j => if k = i then dA.store (Ab.1.e i j / r) else Ab.1.e k j⟩,
     ⟨Ab.2.n, fun k => if k = i then db.store (Ab.2.e i / r) else Ab.2.e k⟩)
  else Ab

/-- the types of the four arrays of a polyhedron -/
structure Four where
  A : Dtype
  b : Dtype
  C : Dtype
  d : Dtype

/-- `p.normalize(tol)` (polyhedron.py:379-401) for a polyhedron with arrays of the given types, all different -/
noncomputable def normalize (t : Four) (p : Poly) (tol : ℝ := 1e-7) : Poly :=
  let Ab := (List.range p.A.nr).foldl (normalizeRow t.A t.b tol) (p.A, p.b)
  let Cd := (List.range p.C.nr).foldl (normalizeRow t.C t.d tol) (p.C, p.d)
  { p with A := Ab.1, b := Ab.2, C := Cd.1, d := Cd.2 }

/-- a two dimensional array in memory; `none` is `nan` -/
structure Arr where
  dt : Dtype
  nr : ℕ
  nc : ℕ
  e : ℕ → ℕ → Option ℝ

/-- the array of type `dt` with the entries of `A` -/
def Arr.of (dt : Dtype) (A : Mat ℝ) : Arr := ⟨dt, A.nr, A.nc, fun i j => some (A.e i j)⟩

/-- the entries of an array of integers are integers -/
def Arr.Valid (A : Arr) : Prop := A.dt = .int64 → ∀ i < A.nr, ∀ j < A.nc, ∃ z : ℤ, A.e i j = some (z : ℝ)

open Classical in
/-- `np.linalg.norm(A[i])` -/
noncomputable def Arr.norm (A : Arr) (i : ℕ) : Option ℝ :=
  if ∀ j < A.nc, (A.e i j).isSome then some (vnorm ⟨A.nc, fun j => (A.e i j).getD 0⟩) else none

/-- an entry divided by the norm of its row; `0/0` is `nan` -/
noncomputable def quot : Option ℝ → Option ℝ → Option ℝ
  | some x, some r => if r = 0 then none else some (x / r)
  | _, _ => none

/-- assignment of a number or `nan`; the integer that `nan` is converted to depends on the machine -/
noncomputable def storeNan (nanInt : ℝ) : Dtype → Option ℝ → Option ℝ
  | .float64, x => x
  | .int64, some x => some (Dtype.int64.store x)
  | .int64, none => some nanInt

/-- `A[i] = A[i] / np.linalg.norm(A[i])` (geometry/utils.py:121, 122) -/
noncomputable def Arr.normRow (nanInt : ℝ) (A : Arr) (i : ℕ) : Arr :=
  { A with e := fun k j => if k = i then storeNan nanInt A.dt (quot (A.e i j) (A.norm i)) else A.e k j }

/-- the rows, as iterated by `for a in A` -/
noncomputable def Arr.rows (A : Arr) : List (Option (Vec ℝ)) :=
  (List.range A.nr).map fun i => (A.norm i).map fun _ => ⟨A.nc, fun j => (A.e i j).getD 0⟩

/-- the two dimensional arrays in memory, by address -/
abbrev Mem := ℕ → Arr

/-- the body of the loop (geometry/utils.py:120-122) on the arrays at `a` and `b` -/
noncomputable def Mem.normRows (nanInt : ℝ) (a b : ℕ) (m : Mem) (i : ℕ) : Mem :=
  let m1 := Function.update m a ((m a).normRow nanInt i)
  Function.update m1 b ((m1 b).normRow nanInt i)

/-- `same_rows(A, B, normalize)` (geometry/utils.py:94-131) on the arrays at `a` and `b` (possibly the same): the answer and the memory after the
call. `np.delete` (line 129) makes a new array. -/
noncomputable def same_rows (nanInt : ℝ) (m : Mem) (a b : ℕ) (normalize : Bool := true) : Py Bool × Mem :=
  if (m a).nr ≠ (m b).nr then (.ok false, m)
  else
    let m' := if normalize then (List.range (m a).nr).foldl (Mem.normRows nanInt a b) m else m
    (Geom.compareRows (m a).nc (m b).nc (m' a).rows (m' b).rows, m')

end Dtype
end Verif
