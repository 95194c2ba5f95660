import Verif.Model.Polyhedron
import Verif.Spec.Hull

/- Model of the parts of `/repo/pympc/geometry/polyhedron.py` that use qhull: vertices, convex hulls and orthogonal projections. -/
namespace Verif
open Classical

/-- The routines of qhull, called through `scipy.spatial` (polyhedron.py:4). -/
structure Qhull where
  /-- `ConvexHull(points).equations`, one row `[a, c]` for every facet `a x + c ≤ 0` -/
  convexHull : Mat ℝ → Py (Mat ℝ)
  /-- `HalfspaceIntersection(halfspaces, center).intersections`, one row for every vertex -/
  halfspaces : Mat ℝ → Vec ℝ → Py (Mat ℝ)

/-- contracts of the routines in `Qhull` -/
structure QhullSpec (Q : Qhull) : Prop where
  /-- the equations of the convex hull of points that are not on a hyperplane: the normals have norm one, the inequalities describe the hull, and
  they are its facets; qhull works in dimension two or more -/
  hull : ∀ P : Mat ℝ, 2 ≤ P.nc → Spec.FullDim P → ∃ E, Q.convexHull P = .ok E ∧ E.nc = P.nc + 1 ∧
    (∀ i < E.nr, ∑ j ∈ Finset.range P.nc, E.e i j ^ 2 = 1) ∧
    (∀ x, Spec.InHalfspaces P.nc E x ↔ Spec.InHull P x) ∧
    ∀ i < E.nr, Spec.IsFacet P (E.e i) (E.e i P.nc)
  /-- it raises on points of a hyperplane -/
  hull_flat : ∀ P : Mat ℝ, ¬ Spec.FullDim P → ∃ e, Q.convexHull P = .error e
  /-- `Need at least 2-D data` -/
  hull_line : ∀ P : Mat ℝ, P.nc < 2 → Q.convexHull P = .error .valueError
  /-- the vertices of a bounded polyhedron with an interior point, in dimension two or more -/
  half : ∀ (H : Mat ℝ) (c : Vec ℝ), 2 ≤ c.n → H.nc = c.n + 1 → (∀ i < H.nr, ∑ j ∈ Finset.range c.n, H.e i j * c.e j + H.e i c.n < 0) →
    (∃ R, ∀ x, Spec.InHalfspaces c.n H x → ∀ j < c.n, |x j| ≤ R) → ∃ V, Q.halfspaces H c = .ok V ∧ V.nc = c.n ∧
      ∀ x, (∃ k < V.nr, ∀ j < c.n, x j = V.e k j) ↔ Spec.IsVertex c.n (Spec.InHalfspaces c.n H) x
  /-- it raises if the point is not in the interior -/
  half_point : ∀ (H : Mat ℝ) (c : Vec ℝ), (∃ i < H.nr, 0 ≤ ∑ j ∈ Finset.range c.n, H.e i j * c.e j + H.e i c.n) → ∃ e, Q.halfspaces H c = .error e

/-- Contract of `np.random.rand` in `plane_through_points` (geometry/utils.py:75): numbers in `[0, 1)`.  With probability one the shifted points
are not on a hyperplane through the origin; the model depends on the drawn offsets as a function of the points, and only runs with this property are
considered. -/
structure RandSpec (rand : List (Vec ℝ) → Vec ℝ) : Prop where
  range : ∀ l j, 0 ≤ (rand l).e j ∧ (rand l).e j < 1
  generic : ∀ l n, l.length = n → (∀ v ∈ l, v.n = n) → Spec.AffIndep n l →
    ∀ c : Fin l.length → ℝ, (∀ j < n, ∑ k, c k * ((l[k]).e j + (rand l).e j) = 0) → c = 0

namespace Geom

/-- `A[:, idx]`: raises `IndexError` when an index is out of range -/
def colsAt (A : Mat ℝ) (idx : List ℕ) : Py (Mat ℝ) :=
  if ∀ i ∈ idx, i < A.nc then .ok (A.cols idx) else .error .indexError

/-- `sol['argmin'][:n]`; `None[:n]` raises `TypeError` -/
def argminTo (s : Sol) (n : ℕ) : Py (Vec ℝ) :=
  match s.argmin with
  | some x => .ok (x.slice 0 n)
  | none => .error .typeError

/-- `_get_two_vertices(A, b, n)` (polyhedron.py:1000-1034).  `np.zeros(-1)` raises `ValueError`. -/
noncomputable def getTwoVertices (L : Lib) (A : Mat ℝ) (b : Vec ℝ) (n : ℕ) : Py (List (Vec ℝ)) :=
  if A.nc = 0 then .error .valueError
  else do
    let a ← np.concatenate [Vec.ones 1, Vec.zeros (A.nc - 1)]
    let s1 ← lpDefault L a A b
    let v1 ← argminTo s1 n
    let s2 ← lpDefault L a.neg A b
    let v2 ← argminTo s2 n
    return [v1, v2]

/-- the body of the loop of `_get_inner_simplex` (polyhedron.py:1062-1071): the vertex found in dimension `i` -/
noncomputable def simplexStep (L : Lib) (rand : List (Vec ℝ) → Vec ℝ) (A : Mat ℝ) (b : Vec ℝ) (n : ℕ) (tol : ℝ) (vertices : List (Vec ℝ)) (i : ℕ) :
    Py (List (Vec ℝ)) := do
  let pts := vertices.map fun v => v.slice 0 i
  let ad ← plane_through_points (rand pts) pts
  -- `np.zeros` raises on a negative size
  if A.nc < i then .error .valueError
  let f ← np.concatenate [ad.1, Vec.zeros (A.nc - i)]
  let sol ← lpDefault L f A b
  let x ← argminTo sol i
  let ax ← np.dotVV ad.1 x
  if |ax - ad.2| < tol then do
    let sol' ← lpDefault L f.neg A b
    let v ← argminTo sol' n
    return vertices ++ [v]
  else do
    let v ← argminTo sol n
    return vertices ++ [v]

/-- `_get_inner_simplex(A, b, vertices, tol)` (polyhedron.py:1036-1073) -/
noncomputable def getInnerSimplex (L : Lib) (rand : List (Vec ℝ) → Vec ℝ) (A : Mat ℝ) (b : Vec ℝ) (vertices : List (Vec ℝ)) (tol : ℝ := 1e-7) :
    Py (List (Vec ℝ)) := do
  let v0 ← np.listGet vertices 0
  (List.range' 2 (v0.n - 1)).foldlM (simplexStep L rand A b v0.n tol) vertices

/-- the variables of `_expand_simplex`: `hull.points`, `hull.equations`, `b` (divided in place) and `a_explored` -/
structure Expansion where
  points : Mat ℝ
  eqs : Mat ℝ
  b : Vec ℝ
  explored : List (Vec ℝ)

/-- `a /= a_norm`, where `a` is a view of row `i` of the equations (polyhedron.py:1114) -/
noncomputable def scaleRow (E : Mat ℝ) (n i : ℕ) (s : ℝ) : Mat ℝ :=
  ⟨E.nr, E.nc, fun k j => if k = i ∧ j < n then E.e k j / s else E.e k j⟩

/-- the `for` loop of `_expand_simplex` over the remaining facets (polyhedron.py:1105-1136); the flag is `convergence` -/
noncomputable def expandFor (L : Lib) (Q : Qhull) (A : Mat ℝ) (tol : ℝ) : List ℕ → Expansion → Py (Expansion × Bool)
  | [], s => .ok (s, true)
  | i :: is, s => do
    let n := s.points.nc
    let a0 : Vec ℝ := ⟨n, s.eqs.e i⟩
    let d := - s.eqs.e i n
    let a_norm := vnorm a0
    let a := a0.divS a_norm
    -- the views of the rows explored before belong to other arrays or to other rows
    let s1 : Expansion := { s with eqs := scaleRow s.eqs n i a_norm, b := s.b.divS a_norm }
    if s1.explored.any fun a2 => allclose (some a) (some a2) then expandFor L Q A tol is s1
    else do
      let s2 : Expansion := { s1 with explored := s1.explored ++ [a] }
      if A.nc < n then .error .valueError
      let f ← np.concatenate [a.neg, Vec.zeros (A.nc - n)]
      let sol ← lpDefault L f A s2.b
      let m ← Poly.negMin sol
      if m - d > tol then do
        let x ← argminTo sol n
        let points := s2.points.vapp (Mat.ofRow x)
        let eqs ← Q.convexHull points
        return ({ s2 with points := points, eqs := eqs }, false)
      else expandFor L Q A tol is s2

/-- the `while` loop of `_expand_simplex` (polyhedron.py:1101-1138); `none` if the fuel, which bounds the number of iterations, is used up -/
noncomputable def expandLoop (L : Lib) (Q : Qhull) (A : Mat ℝ) (tol : ℝ) : ℕ → Expansion → Py (Option Expansion)
  | 0, _ => .ok none
  | fuel + 1, s => do
    let r ← expandFor L Q A tol (List.range s.eqs.nr) s
    if r.2 then return some r.1 else expandLoop L Q A tol fuel r.1

/-- the result of `convex_hull_method`: `E`, `f`, `vertices`, and the array `b` that may have been changed in place -/
structure Projected where
  E : Mat ℝ
  f : Vec ℝ
  vertices : List (Vec ℝ)
  b : Vec ℝ

/-- `convex_hull_method` after the columns are reordered (polyhedron.py:975-998): the projection on the first `n` coordinates -/
noncomputable def hullMethod (L : Lib) (Q : Qhull) (rand : List (Vec ℝ) → Vec ℝ) (fuel : ℕ) (n : ℕ) (A : Mat ℝ) (b : Vec ℝ) : Py (Option Projected) := do
  let vertices ← getTwoVertices L A b n
  if n = 1 then do
    let v0 ← np.listGet vertices 0
    let v1 ← np.listGet vertices 1
    return some ⟨⟨2, 1, fun i _ => if i = 0 then 1 else -1⟩, ⟨2, fun i => if i = 0 then max (v0.e 0) (v1.e 0) else -min (v0.e 0) (v1.e 0)⟩, vertices, b⟩
  else do
    let vertices ← getInnerSimplex L rand A b vertices
    let P ← np.vstack (vertices.map Mat.ofRow)
    let eqs ← Q.convexHull P
    let r ← expandLoop L Q A 1e-7 fuel ⟨P, eqs, b, []⟩
    match r with
    | none => return none
    | some s => return some ⟨s.eqs.colsTo (s.eqs.nc - 1), ⟨s.eqs.nr, fun i => - s.eqs.e i (s.eqs.nc - 1)⟩, rowList s.points, s.b⟩

/-- `convex_hull_method(A, b, residual_dimensions)` (polyhedron.py:940-998); `none` if the expansion does not stop within `fuel` iterations.
`max` and `min` are taken over two vertices.  The dimensions are nonnegative here; negative ones are in `Model/NegIndex`. -/
noncomputable def convex_hull_method (L : Lib) (Q : Qhull) (rand : List (Vec ℝ) → Vec ℝ) (fuel : ℕ) (A : Mat ℝ) (b : Vec ℝ) (dims : List ℕ) :
    Py (Option Projected) := do
  let Ay ← colsAt A dims
  let Az ← colsAt A ((List.range A.nc).filter fun i => i ∉ dims)
  let A ← np.hstack [Ay, Az]
  hullMethod L Q rand fuel dims.length A b

end Geom

namespace Poly

/-- `project_to` (polyhedron.py:826-857) with the call of `convex_hull_method` as a parameter; `self.b` is passed by reference to it -/
noncomputable def projectWith (L : Lib) (method : Mat ℝ → Vec ℝ → Py (Option Geom.Projected)) : PyM Poly (Option Poly) := do
  let e ← empty L
  if e then PyM.raise .valueError
  else do
    let bd ← bounded L
    if bd then do
      let p ← PyM.get
      if 0 < p.C.nr then PyM.raise .valueError
      else do
        let r ← PyM.lift (method p.A p.b)
        match r with
        | none => return none
        | some s => do
          PyM.modify fun p => { p with b := s.b }
          let proj ← PyM.lift (init s.E (.d1 s.f))
          return some { proj with _vertices := some s.vertices }
    else PyM.raise .valueError

/-- `project_to(residual_dimensions)` (polyhedron.py:826-857) -/
noncomputable def project_to (L : Lib) (Q : Qhull) (rand : List (Vec ℝ) → Vec ℝ) (fuel : ℕ) (dims : List ℕ) : PyM Poly (Option Poly) :=
  projectWith L fun A b => Geom.convex_hull_method L Q rand fuel A b dims

/-- `from_convex_hull(points)` (polyhedron.py:859-880) -/
noncomputable def from_convex_hull (Q : Qhull) (points : List (Vec ℝ)) : Py Poly := do
  let P ← np.vstack (points.map Mat.ofRow)
  let E ← Q.convexHull P
  init (E.colsTo (E.nc - 1)) (.d1 ⟨E.nr, fun i => - E.e i (E.nc - 1)⟩)

/-- `radius < tol`: comparing `None` raises `TypeError` -/
noncomputable def radiusBelow (tol : ℝ) : Option ℝ → Py Bool
  | some r => .ok (decide (r < tol))
  | none => .error .typeError

/-- the vertices of an interval (polyhedron.py:808-811).  Division by zero gives `inf` in numpy, `0` here. -/
noncomputable def intervalVertices (L : Lib) (A : Mat ℝ) (b : Vec ℝ) : Py (List (Vec ℝ)) := do
  let p0 ← init A (.d1 b)
  let p ← runOn p0 (remove_redundant_inequalities L)
  if p.A.nr < 2 then .error .indexError
  return [⟨1, fun _ => p.b.e 0 / p.A.e 0 0⟩, ⟨1, fun _ => p.b.e 1 / p.A.e 1 0⟩]

/-- the vertices in the coordinates without equalities (polyhedron.py:807-818) -/
noncomputable def innerVertices (L : Lib) (Q : Qhull) (A : Mat ℝ) (b c : Vec ℝ) : Py (List (Vec ℝ)) :=
  if A.nc = 1 then intervalVertices L A b
  else do
    let H ← np.hstack [A, ⟨b.n, 1, fun i _ => - b.e i⟩]
    let V ← Q.halfspaces H c
    return Geom.rowList V

/-- the vertices of a bounded full dimensional polyhedron with center `c` (polyhedron.py:797-822); with an empty array of equalities the conversions
are skipped -/
noncomputable def computeVertices (L : Lib) (Q : Qhull) (p : Poly) (c : Vec ℝ) : Py (List (Vec ℝ)) :=
  if 0 < p.C.nr then do
    let r ← removeEqualities L p
    let T ← np.hstack [r.2.2.1, r.2.2.2]
    let Ti ← np.inv T
    let z ← np.dotMV Ti c
    let vs ← innerVertices L Q r.1 r.2.1 (z.slice 0 r.2.2.1.nc)
    vs.mapM (backToOriginal p.C p.d r.2.2.1 r.2.2.2)
  else innerVertices L Q p.A p.b c

/-- `vertices` (polyhedron.py:770-824).  The center is computed together with the radius. -/
noncomputable def vertices (L : Lib) (Q : Qhull) : PyM Poly (Option (List (Vec ℝ))) := do
  let p ← PyM.get
  match p._vertices with
  | some vs => return some vs
  | none => do
    let bd ← bounded L
    if bd then do
      let r ← radius L
      let flat ← PyM.lift (radiusBelow 1e-7 r)
      if flat then return none
      else do
        let c ← center L
        match c with
        -- not reached if the radius is a number
        | none => PyM.raise .typeError
        | some c => do
          let vs ← PyM.lift (computeVertices L Q p c)
          PyM.modify fun p => { p with _vertices := some vs }
          return some vs
    else return none

end Poly
end Verif
