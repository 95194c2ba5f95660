import Verif.Model.Polyhedron

/- Model of the arrays that polyhedra share: /repo/pympc/geometry/polyhedron.py (20-60, 379-401) and `copy` (copy.copy, a shallow copy).
Other arrays share memory in numpy only through views; these are not modelled here. -/
namespace Verif

/-- the arrays in memory: matrices and vectors by address; addresses from `nextM`, `nextV` on are free -/
structure Heap where
  mat : ℕ → Mat ℝ
  vec : ℕ → Vec ℝ
  nextM : ℕ
  nextV : ℕ

namespace Heap

/-- the four arrays of a `Polyhedron` -/
structure Obj where
  A : ℕ
  b : ℕ
  C : ℕ
  d : ℕ
deriving DecidableEq

/-- the polyhedron that an object holds now (its caches are not modelled here) -/
def poly (h : Heap) (o : Obj) : Poly := ⟨h.mat o.A, h.vec o.b, h.mat o.C, h.vec o.d, none, none, none, none, none⟩

/-- `Polyhedron(A, b, C, d)` (polyhedron.py:20-60) on arrays at given addresses: the addresses are stored; `C` and `d` are new arrays if they are not
given. The right-hand sides are one dimensional arrays here (others raise, see `Poly.init`). -/
noncomputable def init (h : Heap) (A b : ℕ) (Cd : Option (ℕ × ℕ) := none) : Py (Obj × Heap) :=
  match Poly.init (h.mat A) (.d1 (h.vec b)) (Cd.map fun p => h.mat p.1) (Cd.map fun p => .d1 (h.vec p.2)) with
  | .error e => .error e
  | .ok _ =>
    match Cd with
    | some (C, d) => .ok (⟨A, b, C, d⟩, h)
    | none => .ok (⟨A, b, h.nextM, h.nextV⟩,
      { mat := fun k => if k = h.nextM then Mat.zeros 0 (h.mat A).nc else h.mat k
        vec := fun k => if k = h.nextV then Vec.zeros 0 else h.vec k
        nextM := h.nextM + 1
        nextV := h.nextV + 1 })

/-- `copy(p)`: a new object with the same arrays -/
def copy (o : Obj) : Obj := o

/-- one iteration of a loop of `normalize` (polyhedron.py:390-394, 397-401): both arrays are written in place -/
noncomputable def normalizeRow (tol : ℝ) (A b : ℕ) (h : Heap) (i : ℕ) : Heap :=
  let Ab := Poly.normalizeRow tol (h.mat A, h.vec b) i
  { h with mat := fun k => if k = A then Ab.1 else h.mat k
           vec := fun k => if k = b then Ab.2 else h.vec k }

/-- `p.normalize(tol)` (polyhedron.py:379-401) -/
noncomputable def normalize (h : Heap) (o : Obj) (tol : ℝ := 1e-7) : Heap :=
  let h1 := (List.range (h.mat o.A).nr).foldl (normalizeRow tol o.A o.b) h
  (List.range (h1.mat o.C).nr).foldl (normalizeRow tol o.C o.d) h1

end Heap
end Verif
