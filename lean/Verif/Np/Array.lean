import Mathlib.Algebra.BigOperators.Group.Finset.Basic
import Mathlib.Algebra.BigOperators.Ring.Finset
import Mathlib.Data.Matrix.Mul
import Verif.Np.Py

/-
numpy arrays.  A one dimensional array is its size together with an entry function, a two
dimensional array is its shape together with an entry function.  Only entries inside the shape are
meaningful; no operation below reads an entry outside of the shape of its operands.
The pure operations (`Vec.add`, `Mat.mul`, ...) are total; the operations of the namespace `np`
check the shapes and raise as numpy does.
-/
namespace Verif
open Finset

/-- one dimensional `numpy.ndarray` of size `n` -/
structure Vec (K : Type) where
  n : ℕ
  e : ℕ → K

/-- two dimensional `numpy.ndarray` of shape `(nr, nc)` -/
structure Mat (K : Type) where
  nr : ℕ
  nc : ℕ
  e : ℕ → ℕ → K

/-- an argument that may be a one or a two dimensional array -/
inductive NDArr (K : Type) where
  | d1 (v : Vec K)
  | d2 (m : Mat K)

namespace NDArr
variable {K : Type}
/-- `len(a.shape)` (`a.ndim`) -/
def ndim : NDArr K → ℕ
  | d1 _ => 1
  | d2 _ => 2
/-- `a.size` -/
def size : NDArr K → ℕ
  | d1 v => v.n
  | d2 m => m.nr * m.nc
/-- `-a` -/
def neg [Neg K] : NDArr K → NDArr K
  | d1 v => d1 ⟨v.n, fun i => - v.e i⟩
  | d2 m => d2 ⟨m.nr, m.nc, fun i j => - m.e i j⟩
end NDArr

variable {K : Type}

namespace Vec

/-- the same vector: same size, same entries inside the size -/
def Same (u v : Vec K) : Prop := u.n = v.n ∧ ∀ i < u.n, u.e i = v.e i

/-- `np.zeros(n)` -/
def zeros [Zero K] (n : ℕ) : Vec K := ⟨n, fun _ => 0⟩
/-- `np.ones(n)` -/
def ones [One K] (n : ℕ) : Vec K := ⟨n, fun _ => 1⟩
/-- `np.array([a])` -/
def single (a : K) : Vec K := ⟨1, fun _ => a⟩
/-- `np.array(l)` for a list of numbers -/
def ofList [Zero K] (l : List K) : Vec K := ⟨l.length, fun i => l.getD i 0⟩
/-- `- v` -/
def neg [Neg K] (v : Vec K) : Vec K := ⟨v.n, fun i => - v.e i⟩
/-- `u + v` (equal sizes) -/
def add [Add K] (u v : Vec K) : Vec K := ⟨u.n, fun i => u.e i + v.e i⟩
/-- `u - v` (equal sizes) -/
def sub [Sub K] (u v : Vec K) : Vec K := ⟨u.n, fun i => u.e i - v.e i⟩
/-- `a * v` -/
def smul [Mul K] (a : K) (v : Vec K) : Vec K := ⟨v.n, fun i => a * v.e i⟩
/-- `v / a` -/
def divS [Div K] (v : Vec K) (a : K) : Vec K := ⟨v.n, fun i => v.e i / a⟩
/-- `u.dot(v)` (equal sizes) -/
def dot [AddCommMonoid K] [Mul K] (u v : Vec K) : K := ∑ i ∈ range u.n, u.e i * v.e i
/-- `np.concatenate((u, v))` -/
def append (u v : Vec K) : Vec K :=
  ⟨u.n + v.n, fun i => if i < u.n then u.e i else v.e (i - u.n)⟩
/-- `np.concatenate(l)` for a non-empty list; the empty list gives the empty array
(numpy raises, see `np.concatenate`) -/
def concat [Zero K] : List (Vec K) → Vec K
  | [] => ⟨0, fun _ => 0⟩
  | [v] => v
  | v :: w :: vs => append v (concat (w :: vs))
/-- `v[a:b]` for `0 ≤ a`, `0 ≤ b` (Python truncates slices) -/
def slice (v : Vec K) (a b : ℕ) : Vec K := ⟨min b v.n - a, fun i => v.e (a + i)⟩
/-- `v[a:]` -/
def dropN (v : Vec K) (a : ℕ) : Vec K := ⟨v.n - a, fun i => v.e (a + i)⟩
/-- `v[idx]` with a list of (valid) indices -/
def take (v : Vec K) (idx : List ℕ) : Vec K := ⟨idx.length, fun i => v.e (idx.getD i 0)⟩
/-- the entries as a function on `Fin n` -/
def asV (v : Vec K) (n : ℕ) : Fin n → K := fun i => v.e i
/-- from a function on `Fin n` -/
def ofFn [Zero K] {n : ℕ} (f : Fin n → K) : Vec K := ⟨n, fun i => if h : i < n then f ⟨i, h⟩ else 0⟩

end Vec

namespace Mat

/-- the same matrix: same shape, same entries inside the shape -/
def Same (A B : Mat K) : Prop :=
  A.nr = B.nr ∧ A.nc = B.nc ∧ ∀ i < A.nr, ∀ j < A.nc, A.e i j = B.e i j

/-- `np.zeros((m, n))` -/
def zeros [Zero K] (m n : ℕ) : Mat K := ⟨m, n, fun _ _ => 0⟩
/-- `np.ones((m, n))` -/
def ones [One K] (m n : ℕ) : Mat K := ⟨m, n, fun _ _ => 1⟩
/-- `np.eye(n)` -/
def eye [Zero K] [One K] (n : ℕ) : Mat K := ⟨n, n, fun i j => if i = j then 1 else 0⟩
/-- `A.T` -/
def T (A : Mat K) : Mat K := ⟨A.nc, A.nr, fun i j => A.e j i⟩
/-- `- A` -/
def neg [Neg K] (A : Mat K) : Mat K := ⟨A.nr, A.nc, fun i j => - A.e i j⟩
/-- `A + B` (equal shapes) -/
def add [Add K] (A B : Mat K) : Mat K := ⟨A.nr, A.nc, fun i j => A.e i j + B.e i j⟩
/-- `A - B` (equal shapes) -/
def sub [Sub K] (A B : Mat K) : Mat K := ⟨A.nr, A.nc, fun i j => A.e i j - B.e i j⟩
/-- `a * A` -/
def smul [Mul K] (a : K) (A : Mat K) : Mat K := ⟨A.nr, A.nc, fun i j => a * A.e i j⟩
/-- `A.dot(B)` (`A.shape[1] == B.shape[0]`) -/
def mul [AddCommMonoid K] [Mul K] (A B : Mat K) : Mat K :=
  ⟨A.nr, B.nc, fun i j => ∑ k ∈ range A.nc, A.e i k * B.e k j⟩
/-- `A.dot(x)` (`A.shape[1] == x.size`) -/
def mulVec [AddCommMonoid K] [Mul K] (A : Mat K) (x : Vec K) : Vec K :=
  ⟨A.nr, fun i => ∑ j ∈ range A.nc, A.e i j * x.e j⟩
/-- `x.dot(A)` (`x.size == A.shape[0]`) -/
def vecMul [AddCommMonoid K] [Mul K] (x : Vec K) (A : Mat K) : Vec K :=
  ⟨A.nc, fun j => ∑ i ∈ range x.n, x.e i * A.e i j⟩
/-- `A[i]` -/
def row (A : Mat K) (i : ℕ) : Vec K := ⟨A.nc, fun j => A.e i j⟩
/-- `A[:, j]` -/
def col (A : Mat K) (j : ℕ) : Vec K := ⟨A.nr, fun i => A.e i j⟩
/-- `A[idx]` with a list of (valid) row indices -/
def rows (A : Mat K) (idx : List ℕ) : Mat K := ⟨idx.length, A.nc, fun i j => A.e (idx.getD i 0) j⟩
/-- `A[:, idx]` with a list of (valid) column indices -/
def cols (A : Mat K) (idx : List ℕ) : Mat K := ⟨A.nr, idx.length, fun i j => A.e i (idx.getD j 0)⟩
/-- `A[:, :k]` -/
def colsTo (A : Mat K) (k : ℕ) : Mat K := ⟨A.nr, min k A.nc, A.e⟩
/-- `A[:, k:]` -/
def colsFrom (A : Mat K) (k : ℕ) : Mat K := ⟨A.nr, A.nc - k, fun i j => A.e i (k + j)⟩
/-- `A[r0:r1, c0:c1]` -/
def block (A : Mat K) (r0 r1 c0 c1 : ℕ) : Mat K :=
  ⟨min r1 A.nr - r0, min c1 A.nc - c0, fun i j => A.e (r0 + i) (c0 + j)⟩
/-- a one dimensional array seen as a matrix with one row (`np.vstack` does this) -/
def ofRow (v : Vec K) : Mat K := ⟨1, v.n, fun _ j => v.e j⟩
/-- a one dimensional array seen as a matrix with one column (`np.column_stack` does this) -/
def ofCol (v : Vec K) : Mat K := ⟨v.n, 1, fun i _ => v.e i⟩
/-- `np.vstack((A, B))` (equal numbers of columns) -/
def vapp (A B : Mat K) : Mat K :=
  ⟨A.nr + B.nr, A.nc, fun i j => if i < A.nr then A.e i j else B.e (i - A.nr) j⟩
/-- `np.hstack((A, B))` (equal numbers of rows) -/
def happ (A B : Mat K) : Mat K :=
  ⟨A.nr, A.nc + B.nc, fun i j => if j < A.nc then A.e i j else B.e i (j - A.nc)⟩
/-- `block_diag(A, B)` -/
def bdiag2 [Zero K] (A B : Mat K) : Mat K :=
  ⟨A.nr + B.nr, A.nc + B.nc, fun i j =>
    if i < A.nr then (if j < A.nc then A.e i j else 0)
    else (if j < A.nc then 0 else B.e (i - A.nr) (j - A.nc))⟩
/-- `block_diag(*l)`; for the empty list scipy returns an array of shape `(1, 0)`, see
`np.block_diag` -/
def bdiag [Zero K] : List (Mat K) → Mat K
  | [] => ⟨0, 0, fun _ _ => 0⟩
  | A :: l => bdiag2 A (bdiag l)
/-- `A[r0:r0+B.nr, c0:c0+B.nc] = B` -/
def setBlock (A : Mat K) (r0 c0 : ℕ) (B : Mat K) : Mat K :=
  ⟨A.nr, A.nc, fun i j =>
    if r0 ≤ i ∧ i < r0 + B.nr ∧ c0 ≤ j ∧ j < c0 + B.nc then B.e (i - r0) (j - c0) else A.e i j⟩
/-- the entries as a Mathlib matrix -/
def asM (A : Mat K) (m n : ℕ) : Matrix (Fin m) (Fin n) K := fun i j => A.e i j
/-- from a Mathlib matrix -/
def ofM [Zero K] {m n : ℕ} (M : Matrix (Fin m) (Fin n) K) : Mat K :=
  ⟨m, n, fun i j => if h : i < m ∧ j < n then M ⟨i, h.1⟩ ⟨j, h.2⟩ else 0⟩

end Mat

/-! ### checked operations -/
namespace np

/-- `u ∘ v` entry by entry on one dimensional arrays of different sizes: numpy combines an array of size one with each entry of the other one and raises `ValueError` on other sizes -/
def broadcastV (op : K → K → K) (u v : Vec K) : Py (Vec K) :=
  if v.n = 1 then .ok ⟨u.n, fun i => op (u.e i) (v.e 0)⟩
  else if u.n = 1 then .ok ⟨v.n, fun i => op (u.e 0) (v.e i)⟩
  else .error .valueError
/-- the size of the result along an axis, if the sizes of the two arrays can be broadcast -/
def axisSize (m n : ℕ) : Option ℕ := if m = n ∨ n = 1 then some m else if m = 1 then some n else none
/-- the index used in an array with `m` entries along an axis -/
def axisIndex (m i : ℕ) : ℕ := if m = 1 then 0 else i
/-- `A ∘ B` entry by entry on two dimensional arrays of different shapes, with the broadcasting of numpy along both axes -/
def broadcastM (op : K → K → K) (A B : Mat K) : Py (Mat K) :=
  match axisSize A.nr B.nr, axisSize A.nc B.nc with
  | some m, some n => .ok ⟨m, n, fun i j => op (A.e (axisIndex A.nr i) (axisIndex A.nc j)) (B.e (axisIndex B.nr i) (axisIndex B.nc j))⟩
  | _, _ => .error .valueError
/-- `u + v` on one dimensional arrays -/
def addV [Add K] (u v : Vec K) : Py (Vec K) := if u.n = v.n then .ok (u.add v) else broadcastV (· + ·) u v
/-- `u - v` on one dimensional arrays -/
def subV [Sub K] (u v : Vec K) : Py (Vec K) := if u.n = v.n then .ok (u.sub v) else broadcastV (· - ·) u v
/-- `A + B` on two dimensional arrays -/
def addM [Add K] (A B : Mat K) : Py (Mat K) := if A.nr = B.nr ∧ A.nc = B.nc then .ok (A.add B) else broadcastM (· + ·) A B
/-- `A - B` on two dimensional arrays -/
def subM [Sub K] (A B : Mat K) : Py (Mat K) := if A.nr = B.nr ∧ A.nc = B.nc then .ok (A.sub B) else broadcastM (· - ·) A B
/-- `u.dot(v)` -/
def dotVV [AddCommMonoid K] [Mul K] (u v : Vec K) : Py K :=
  if u.n = v.n then .ok (u.dot v) else .error .valueError
/-- `A.dot(x)` -/
def dotMV [AddCommMonoid K] [Mul K] (A : Mat K) (x : Vec K) : Py (Vec K) :=
  if A.nc = x.n then .ok (A.mulVec x) else .error .valueError
/-- `x.dot(A)` -/
def dotVM [AddCommMonoid K] [Mul K] (x : Vec K) (A : Mat K) : Py (Vec K) :=
  if x.n = A.nr then .ok (Mat.vecMul x A) else .error .valueError
/-- `A.dot(B)` -/
def dotMM [AddCommMonoid K] [Mul K] (A B : Mat K) : Py (Mat K) :=
  if A.nc = B.nr then .ok (A.mul B) else .error .valueError
/-- `np.vstack((A, B))` -/
def vstack2 (A B : Mat K) : Py (Mat K) := if A.nc = B.nc then .ok (A.vapp B) else .error .valueError
/-- `np.hstack((A, B))` -/
def hstack2 (A B : Mat K) : Py (Mat K) := if A.nr = B.nr then .ok (A.happ B) else .error .valueError
/-- `np.vstack(l)`; raises on the empty list -/
def vstack : List (Mat K) → Py (Mat K)
  | [] => .error .valueError
  | [A] => .ok A
  | A :: B :: l => do
      let C ← vstack (B :: l)
      vstack2 A C
/-- `np.hstack(l)`; raises on the empty list -/
def hstack : List (Mat K) → Py (Mat K)
  | [] => .error .valueError
  | [A] => .ok A
  | A :: B :: l => do
      let C ← hstack (B :: l)
      hstack2 A C
/-- `np.concatenate(l)` for one dimensional arrays; raises on the empty list -/
def concatenate [Zero K] (l : List (Vec K)) : Py (Vec K) :=
  if l = [] then .error .valueError else .ok (Vec.concat l)
/-- `np.concatenate((u, v))` when the second argument may be two dimensional: numpy raises
`ValueError` if the numbers of dimensions differ -/
def concatenateND (u : Vec K) : NDArr K → Py (Vec K)
  | .d1 v => .ok (u.append v)
  | .d2 _ => .error .valueError
/-- `scipy.linalg.block_diag(*l)` -/
def block_diag [Zero K] (l : List (Mat K)) : Mat K :=
  if l = [] then ⟨1, 0, fun _ _ => 0⟩ else Mat.bdiag l
/-- `np.max(v)`; raises on an empty array -/
def max [LinearOrder K] (v : Vec K) : Py K :=
  if h : v.n = 0 then .error .valueError
  else .ok ((range v.n).sup' ⟨0, by simp; omega⟩ v.e)
/-- `l[i]` on a Python list, `i ≥ 0` -/
def listGet {α : Type} (l : List α) (i : ℕ) : Py α :=
  match l[i]? with
  | some a => .ok a
  | none => .error .indexError
/-- `A[idx]`: fancy indexing of rows, raises `IndexError` when an index is out of range -/
def rows (A : Mat K) (idx : List ℕ) : Py (Mat K) :=
  if ∀ i ∈ idx, i < A.nr then .ok (A.rows idx) else .error .indexError
/-- `v[idx]`: fancy indexing, raises `IndexError` when an index is out of range -/
def take (v : Vec K) (idx : List ℕ) : Py (Vec K) :=
  if ∀ i ∈ idx, i < v.n then .ok (v.take idx) else .error .indexError

end np
end Verif
