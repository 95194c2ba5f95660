import Verif.Model.Programs
import Verif.Model.GeomUtils

/- Model of `/repo/pympc/geometry/polyhedron.py`, class `Polyhedron` (vertices, projections and the
symbolic constructors are in other files). -/
namespace Verif
open Classical

/-- `linear_program(f, A, b, C, d)` with the default solver (programs.py:9-55), as called by the rest
of the code -/
noncomputable def lpDefault (L : Lib) (f : Vec ℝ) (A : Mat ℝ) (b : Vec ℝ) (C : Option (Mat ℝ) := none)
    (d : Option (Vec ℝ) := none) : Py Sol := Pnnls.linear_program L f A b C d

/-- `quadratic_program(H, f, A, b, C, d)` with the default solver (programs.py:57-105) -/
noncomputable def qpDefault (L : Lib) (H : Mat ℝ) (f : Vec ℝ) (A : Mat ℝ) (b : Vec ℝ)
    (C : Option (Mat ℝ) := none) (d : Option (Vec ℝ) := none) : Py Sol :=
  Pnnls.quadratic_program L H f A b C d

theorem lpDefault_eq (L : Lib) (G : Gurobi) (f : Vec ℝ) (A : Mat ℝ) (b : Vec ℝ) (C : Option (Mat ℝ))
    (d : Option (Vec ℝ)) : Programs.linear_program L G f A b C d = lpDefault L f A b C d := by
  simp [Programs.linear_program, lpDefault]

theorem qpDefault_eq (L : Lib) (G : Gurobi) (H : Mat ℝ) (f : Vec ℝ) (A : Mat ℝ) (b : Vec ℝ)
    (C : Option (Mat ℝ)) (d : Option (Vec ℝ)) :
    Programs.quadratic_program L G H f A b C d = qpDefault L H f A b C d := by
  simp [Programs.quadratic_program, qpDefault]

/-- The attributes of a `Polyhedron` (polyhedron.py:36-61). -/
structure Poly where
  A : Mat ℝ
  b : Vec ℝ
  C : Mat ℝ
  d : Vec ℝ
  _empty : Option Bool
  _bounded : Option Bool
  _radius : Option ℝ
  _center : Option (Vec ℝ)
  _vertices : Option (List (Vec ℝ))

/-- A bound: a Python float or an array (polyhedron.py:155, 176). -/
inductive Bound where
  | flt (a : ℝ)
  | arr (v : NDArr ℝ)

namespace Poly

/-- `_same_number_rows(E, f)` (polyhedron.py:362-377) -/
def sameNumberRows (E : Mat ℝ) (f : NDArr ℝ) : Py Unit :=
  if E.nr ≠ f.size then .error .valueError else .ok ()

/-- `if len(b.shape) > 1: raise ValueError`; the array otherwise (polyhedron.py:37-38, 50-51) -/
def oneDim : NDArr ℝ → Py (Vec ℝ)
  | .d1 v => .ok v
  | .d2 _ => .error .valueError

/-- a polyhedron with the caches set to `None` (polyhedron.py:40-41, 47-48, 53-61) -/
def fresh (A : Mat ℝ) (b : Vec ℝ) (C : Mat ℝ) (d : Vec ℝ) : Poly :=
  ⟨A, b, C, d, none, none, none, none, none⟩

/-- `__init__` (polyhedron.py:20-61).  `A` and `C` are two dimensional arrays. -/
def init (A : Mat ℝ) (b : NDArr ℝ) (C : Option (Mat ℝ) := none) (d : Option (NDArr ℝ) := none) :
    Py Poly := do
  -- check and store inequalities (36-41)
  let b1 ← oneDim b
  sameNumberRows A b
  -- check and store equalities (43-54)
  match C, d with
  | none, none => return fresh A b1 (Mat.zeros 0 A.nc) (Vec.zeros 0)
  | some C, some d => do
    let d1 ← oneDim d
    sameNumberRows C d
    return fresh A b1 C d1
  | _, _ => .error .valueError

/-- `_delete_attributes` (polyhedron.py:201-211) -/
def deleteAttributes (p : Poly) : Poly :=
  { p with _empty := none, _bounded := none, _radius := none, _center := none, _vertices := none }

/-- `_selection_matrix(indices)` for a polyhedron in `R^n` (polyhedron.py:213-237).  The entries of
`indices` are nonnegative here; the code ignores negative entries, like the ones not smaller than `n`. -/
def selectionMatrix (n : ℕ) (indices : Option (List ℕ)) : Mat ℝ :=
  let indices := indices.getD (List.range n)
  (Mat.eye n).rows ((List.range n).filter (· ∈ indices))

/-- `add_inequality(A, b, indices)` (polyhedron.py:63-86) -/
def add_inequality (A : Mat ℝ) (b : NDArr ℝ) (indices : Option (List ℕ) := none) : PyM Poly Unit := do
  PyM.lift (sameNumberRows A b)
  PyM.modify deleteAttributes
  let p ← PyM.get
  let S := selectionMatrix p.A.nc indices
  let AS ← PyM.lift (np.dotMM A S)
  let A' ← PyM.lift (np.vstack [p.A, AS])
  PyM.modify fun p => { p with A := A' }
  let b' ← PyM.lift (np.concatenateND p.b b)
  PyM.modify fun p => { p with b := b' }

/-- `add_equality(C, d, indices)` (polyhedron.py:102-125) -/
def add_equality (C : Mat ℝ) (d : NDArr ℝ) (indices : Option (List ℕ) := none) : PyM Poly Unit := do
  PyM.lift (sameNumberRows C d)
  PyM.modify deleteAttributes
  let p ← PyM.get
  let S := selectionMatrix p.A.nc indices
  let CS ← PyM.lift (np.dotMM C S)
  let C' ← PyM.lift (np.vstack [p.C, CS])
  PyM.modify fun p => { p with C := C' }
  let d' ← PyM.lift (np.concatenateND p.d d)
  PyM.modify fun p => { p with d := d' }

/-- `if isinstance(x_min, float): x_min = np.array([x_min])` (polyhedron.py:154-156, 175-177) -/
def Bound.toArr : Bound → NDArr ℝ
  | .flt a => .d1 (Vec.single a)
  | .arr v => v

/-- `x_min.size`; a float has no attribute `size` -/
def Bound.size : Bound → Py ℕ
  | .flt _ => .error .attributeError
  | .arr v => .ok v.size

/-- `add_lower_bound(x_min, indices)` (polyhedron.py:141-160) -/
def add_lower_bound (x_min : Bound) (indices : Option (List ℕ) := none) : PyM Poly Unit := do
  let x := Bound.toArr x_min
  let p ← PyM.get
  let S := selectionMatrix p.A.nc indices
  add_inequality S.neg x.neg

/-- `add_upper_bound(x_max, indices)` (polyhedron.py:162-181) -/
def add_upper_bound (x_max : Bound) (indices : Option (List ℕ) := none) : PyM Poly Unit := do
  let x := Bound.toArr x_max
  let p ← PyM.get
  let S := selectionMatrix p.A.nc indices
  add_inequality S x

/-- `add_bounds(x_min, x_max, indices)` (polyhedron.py:183-199) -/
def add_bounds (x_min x_max : Bound) (indices : Option (List ℕ) := none) : PyM Poly Unit := do
  add_lower_bound x_min indices
  add_upper_bound x_max indices

/-- run a method on an object and return the object -/
def runOn (p : Poly) (m : PyM Poly Unit) : Py Poly :=
  match m p with
  | (.ok _, p') => .ok p'
  | (.error e, _) => .error e

/-- `if indices is not None and n is None: raise ValueError` (polyhedron.py:257-258, 288-289, 321-322) -/
def checkN (indices : Option (List ℕ)) (n : Option ℕ) : Py Unit :=
  if indices.isSome ∧ n.isNone then .error .valueError else .ok ()

/-- `if n is None: n = x_min.size` -/
def dimOf (x : Bound) : Option ℕ → Py ℕ
  | none => Bound.size x
  | some n => .ok n

/-- `from_lower_bound(x_min, indices, n)` (polyhedron.py:239-268) -/
def from_lower_bound (x_min : Bound) (indices : Option (List ℕ) := none) (n : Option ℕ := none) :
    Py Poly := do
  checkN indices n
  let n ← dimOf x_min n
  let p ← init (Mat.zeros 0 n) (.d1 (Vec.zeros 0))
  runOn p (add_lower_bound x_min indices)

/-- `from_upper_bound(x_max, indices, n)` (polyhedron.py:270-299) -/
def from_upper_bound (x_max : Bound) (indices : Option (List ℕ) := none) (n : Option ℕ := none) :
    Py Poly := do
  checkN indices n
  let n ← dimOf x_max n
  let p ← init (Mat.zeros 0 n) (.d1 (Vec.zeros 0))
  runOn p (add_upper_bound x_max indices)

/-- `from_bounds(x_min, x_max, indices, n)` (polyhedron.py:301-336) -/
def from_bounds (x_min x_max : Bound) (indices : Option (List ℕ) := none) (n : Option ℕ := none) :
    Py Poly := do
  checkN indices n
  let s1 ← Bound.size x_min
  let s2 ← Bound.size x_max
  if s1 ≠ s2 then .error .valueError else do
  let n ← dimOf x_min n
  let p ← init (Mat.zeros 0 n) (.d1 (Vec.zeros 0))
  runOn p (add_bounds x_min x_max indices)

/-- one iteration of the loops of `normalize` (polyhedron.py:390-394, 397-401): the row `A[i]` and
`b[i]` are divided by the norm `r` of the row, if `r > tol` -/
noncomputable def normalizeRow (tol : ℝ) (Ab : Mat ℝ × Vec ℝ) (i : ℕ) : Mat ℝ × Vec ℝ :=
  let r := vnorm (Ab.1.row i)
  if r > tol then
    (⟨Ab.1.nr, Ab.1.nc, fun k j => if k = i then Ab.1.e i j / r else Ab.1.e k j⟩,
     ⟨Ab.2.n, fun k => if k = i then Ab.2.e i / r else Ab.2.e k⟩)
  else Ab

/-- `normalize(tol)` (polyhedron.py:379-401), for objects that have as many right-hand sides as rows
(otherwise the access to `b[i]` raises).  The caches are left as they are. -/
noncomputable def normalize (tol : ℝ := 1e-7) (p : Poly) : Poly :=
  let Ab := (List.range p.A.nr).foldl (normalizeRow tol) (p.A, p.b)
  let Cd := (List.range p.C.nr).foldl (normalizeRow tol) (p.C, p.d)
  { p with A := Ab.1, b := Ab.2, C := Cd.1, d := Cd.2 }

/-- `_remove_equalities` (polyhedron.py:468-503): `(E, f, N, R)` -/
noncomputable def removeEqualities (L : Lib) (p : Poly) : Py (Mat ℝ × Vec ℝ × Mat ℝ × Mat ℝ) := do
  let N ← Geom.nullspace_basis L p.C
  if N.nc = 0 then .error .valueError
  -- `N.shape[1] != C.shape[1] - C.shape[0]`, where the difference may be negative
  else if N.nc + p.C.nr ≠ p.C.nc then .error .valueError
  else do
    let R ← Geom.nullspace_basis L N.T
    let E ← np.dotMM p.A N
    let CR ← np.dotMM p.C R
    let CRi ← np.inv CR
    let r ← np.dotMV CRi p.d
    let Rr ← np.dotMV R r
    let ARr ← np.dotMV p.A Rr
    let f ← np.subV p.b ARr
    return (E, f, N, R)

/-- the answer of the quadratic program in `empty` (polyhedron.py:520-524) -/
noncomputable def computeEmpty (L : Lib) (A : Mat ℝ) (b : Vec ℝ) (C : Mat ℝ) (d : Vec ℝ) : Py Bool := do
  let sol ← qpDefault L (Mat.eye A.nc) (Vec.zeros A.nc) A b (some C) (some d)
  return sol.min.isNone

/-- `empty` (polyhedron.py:505-526) -/
noncomputable def empty (L : Lib) : PyM Poly Bool := do
  let p ← PyM.get
  match p._empty with
  | some e => return e
  | none => do
    let e ← PyM.lift (computeEmpty L p.A p.b p.C p.d)
    PyM.modify fun p => { p with _empty := some e }
    return e

/-- the linear program in `bounded` (polyhedron.py:565-574) -/
noncomputable def computeBounded (L : Lib) (A : Mat ℝ) : Py Bool := do
  let sol ← lpDefault L (Vec.ones A.nr) (Mat.eye A.nr).neg (Vec.ones A.nr).neg (some A.T)
    (some (Vec.zeros A.nc))
  return sol.min.isSome

/-- `bounded` (polyhedron.py:528-576) -/
noncomputable def bounded (L : Lib) : PyM Poly Bool := do
  let p ← PyM.get
  match p._bounded with
  | some e => return e
  | none => do
    let e ← empty L
    if e then return true
    else do
      let A ← PyM.lift (np.vstack [p.A, p.C, p.C.neg])
      let Z ← PyM.lift (Geom.nullspace_basis L A)
      if 0 < Z.nc then return false
      else do
        let r ← PyM.lift (computeBounded L A)
        PyM.modify fun p => { p with _bounded := some r }
        return r

/-- `in_eq` (polyhedron.py:598-601) -/
noncomputable def eqResidualOk (C : Mat ℝ) (d x : Vec ℝ) (tol : ℝ) : Py Bool :=
  if 0 < C.nr then do
    let Cx ← np.dotMV C x
    let e ← np.subV Cx d
    let m ← np.max e
    return decide (|m| ≤ tol)
  else return true

/-- `contains(x, tol)` (polyhedron.py:578-604) -/
noncomputable def contains (p : Poly) (x : Vec ℝ) (tol : ℝ := 1e-7) : Py Bool := do
  let Ax ← np.dotMV p.A x
  let e ← np.subV Ax p.b
  let m ← np.max e
  let in_ineq := decide (m ≤ tol)
  let in_eq ← eqResidualOk p.C p.d x tol
  return in_ineq && in_eq

/-- the vector that is zero but for a one in position `i` (polyhedron.py:439-440) -/
def oneHot (n i : ℕ) : Vec ℝ := ⟨n, fun k => if k = i then 1 else 0⟩

/-- `- sol['min']`: `TypeError` if it is `None` -/
def negMin (s : Sol) : Py ℝ :=
  match s.min with
  | some m => .ok (-m)
  | none => .error .typeError

/-- the maximum of `E[i] x` over the other facets and the relaxed `i`-th one (polyhedron.py:437-444) -/
noncomputable def relaxedMax (L : Lib) (E : Mat ℝ) (f : Vec ℝ) (i : ℕ) (mf : List ℕ) : Py ℝ := do
  let E_minimal ← np.rows E mf
  let fr ← np.addV f (oneHot f.n i)
  let f_relaxed ← np.take fr mf
  let sol ← lpDefault L (E.row i).neg E_minimal f_relaxed
  negMin sol

/-- the loop over the facets (polyhedron.py:435-448) -/
noncomputable def sweep (L : Lib) (E : Mat ℝ) (f : Vec ℝ) (tol : ℝ) : List ℕ → List ℕ → Py (List ℕ)
  | [], mf => .ok mf
  | i :: is, mf => do
    let m ← relaxedMax L E f i mf
    sweep L E f tol is (if m - f.e i < tol then mf.erase i else mf)

/-- the inequalities in which redundancy is looked for (polyhedron.py:424-429) -/
noncomputable def reduced (L : Lib) (p : Poly) : Py (Mat ℝ × Vec ℝ) :=
  if p.C.nr ≠ 0 then do
    let (E, f, _, _) ← removeEqualities L p
    return (E, f)
  else return (p.A, p.b)

/-- `minimal_facets(tol)` (polyhedron.py:403-450) -/
noncomputable def minimal_facets (L : Lib) (tol : ℝ := 1e-7) : PyM Poly (Option (List ℕ)) := do
  let e ← empty L
  if e then return none
  else do
    let p ← PyM.get
    let (E, f) ← PyM.lift (reduced L p)
    let mf ← PyM.lift (sweep L E f tol (List.range E.nr) (List.range E.nr))
    return some mf

/-- `remove_redundant_inequalities()` (polyhedron.py:452-466) -/
noncomputable def remove_redundant_inequalities (L : Lib) : PyM Poly Unit := do
  let mf ← minimal_facets L
  match mf with
  | none => PyM.raise .valueError
  | some mf => do
    let p ← PyM.get
    let A' ← PyM.lift (np.rows p.A mf)
    PyM.modify fun p => { p with A := A' }
    let b' ← PyM.lift (np.take p.b mf)
    PyM.modify fun p => { p with b := b' }

/-- the loop of `is_included_in` (polyhedron.py:633-641) -/
noncomputable def includedLoop (L : Lib) (A1 : Mat ℝ) (b1 : Vec ℝ) (A2 : Mat ℝ) (b2 : Vec ℝ) (tol : ℝ) :
    List ℕ → Py Bool
  | [] => .ok true
  | i :: is => do
    let sol ← lpDefault L (A2.row i).neg A1 b1
    let m ← negMin sol
    if m - b2.e i > tol then return false
    else includedLoop L A1 b1 A2 b2 tol is

/-- `is_included_in(P2, tol)` (polyhedron.py:606-641) -/
noncomputable def is_included_in (L : Lib) (p q : Poly) (tol : ℝ := 1e-7) : Py Bool := do
  let A1 ← np.vstack [p.A, p.C, p.C.neg]
  let b1 ← np.concatenate [p.b, p.d, p.d.neg]
  let P1 ← init A1 (.d1 b1)
  let A2 ← np.vstack [q.A, q.C, q.C.neg]
  let b2 ← np.concatenate [q.b, q.d, q.d.neg]
  includedLoop L P1.A P1.b A2 b2 tol (List.range A2.nr)

/-- `intersection(P2)` (polyhedron.py:643-663).  `copy` is shallow; the attributes of the copy are
reassigned by the additions, so `P2` is not modified. -/
def intersection (p q : Poly) : Py Poly :=
  runOn q (do
    add_inequality p.A (.d1 p.b)
    add_equality p.C (.d1 p.d))

/-- `cartesian_product(P2)` (polyhedron.py:665-685) -/
def cartesian_product (p q : Poly) : Py Poly := do
  let b ← np.concatenate [p.b, q.b]
  let d ← np.concatenate [p.d, q.d]
  init (np.block_diag [p.A, q.A]) (.d1 b) (some (np.block_diag [p.C, q.C])) (some (.d1 d))

/-- `np.linalg.norm(A, axis=1)` as a column (polyhedron.py:752) -/
noncomputable def rowNorms (A : Mat ℝ) : Mat ℝ := ⟨A.nr, 1, fun i _ => vnorm (A.row i)⟩

/-- the linear program of the Chebyshev ball (polyhedron.py:750-761): radius and center, both `None`
if there is no solution -/
noncomputable def chebyshevLP (L : Lib) (A : Mat ℝ) (b : Vec ℝ) : Py (Option (ℝ × Vec ℝ)) := do
  let f_lp ← np.concatenate [Vec.zeros A.nc, Vec.ones 1]
  let A_lp ← np.hstack [A, (rowNorms A).neg]
  let sol ← lpDefault L f_lp A_lp b
  match sol.min, sol.argmin with
  | some m, some x => return some (-m, x.slice 0 (x.n - 1))
  | _, _ => return none

/-- `np.hstack((N, R)).dot(np.concatenate((center, r)))` with `r = inv(C.dot(R)).dot(d)`
(polyhedron.py:764-766) -/
noncomputable def backToOriginal (C : Mat ℝ) (d : Vec ℝ) (N R : Mat ℝ) (z : Vec ℝ) : Py (Vec ℝ) := do
  let CR ← np.dotMM C R
  let CRi ← np.inv CR
  let r ← np.dotMV CRi d
  let NR ← np.hstack [N, R]
  let zr ← np.concatenate [z, r]
  np.dotMV NR zr

/-- `_chebyshev()` (polyhedron.py:727-768) -/
noncomputable def chebyshev (L : Lib) (A : Mat ℝ) (b : Vec ℝ) (C : Mat ℝ) (d : Vec ℝ) :
    Py (Option (ℝ × Vec ℝ)) :=
  if 0 < C.nr then do
    let (E, f, N, R) ← removeEqualities L (fresh A b C d)
    let s ← chebyshevLP L E f
    match s with
    | some (r, c) => do
      let x ← backToOriginal C d N R c
      return some (r, x)
    -- `np.concatenate((None, r))` raises
    | none => .error .valueError
  else chebyshevLP L A b

/-- `radius` (polyhedron.py:687-705) -/
noncomputable def radius (L : Lib) : PyM Poly (Option ℝ) := do
  let p ← PyM.get
  match p._radius with
  | some r => return some r
  | none => do
    let s ← PyM.lift (chebyshev L p.A p.b p.C p.d)
    PyM.modify fun p => { p with _radius := s.map (·.1), _center := s.map (·.2) }
    return s.map (·.1)

/-- `center` (polyhedron.py:707-725) -/
noncomputable def center (L : Lib) : PyM Poly (Option (Vec ℝ)) := do
  let p ← PyM.get
  match p._center with
  | some c => return some c
  | none => do
    let s ← PyM.lift (chebyshev L p.A p.b p.C p.d)
    PyM.modify fun p => { p with _radius := s.map (·.1), _center := s.map (·.2) }
    return s.map (·.2)

end Poly
end Verif
