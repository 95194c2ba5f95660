import Verif.Spec.Voronoi
import Verif.Model.Polyhedron
import Mathlib.Data.List.Sort

/- Model of the Voronoi partition of the example: /repo/examples/pwa_from_urdf/utils.py (19-157). -/
namespace Verif
namespace Voronoi

/-- `scipy.spatial.Voronoi(points).ridge_points` -/
structure Vor where
  ridges : List (Vec ℝ) → Py (List (ℕ × ℕ))

/-- Contract: the ridges are pairs of different indices; all pairs of cells with a common facet are among them; it answers for points of the plane (or
more dimensions) that are not on a hyperplane. -/
structure VorSpec (V : Vor) : Prop where
  range : ∀ n points rs, (∀ p ∈ points, p.n = n) → V.ridges points = .ok rs →
    ∀ r ∈ rs, r.1 < points.length ∧ r.2 < points.length ∧ r.1 ≠ r.2
  complete : ∀ n points rs, (∀ p ∈ points, p.n = n) → Spec.Distinct n points → V.ridges points = .ok rs →
    ∀ i < points.length, ∀ j < points.length, i ≠ j → Spec.ShareFacet n points i j → (i, j) ∈ rs ∨ (j, i) ∈ rs
  answers : ∀ n points, 2 ≤ n → (∀ p ∈ points, p.n = n) → Spec.Distinct n points → Spec.Spread n points → ∃ rs, V.ridges points = .ok rs

/-- the hyperplane between `point` and `tip` (utils.py:48-57, 101-109) -/
noncomputable def bisector (point tip : Vec ℝ) : Py (Vec ℝ × ℝ) := do
  let Ai ← np.subV tip point
  let center ← np.addV point (Ai.divS 2)
  let bi ← np.dotVV Ai center
  return (Ai, bi)

/-- the cell of `point` with the given neighbours (utils.py:40-62, 88-114): `np.vstack([])` raises if there are none -/
noncomputable def cell (point : Vec ℝ) (tips : List (Vec ℝ)) : Py Poly := do
  let rows ← tips.mapM (bisector point)
  let A ← np.vstack ((rows.map Prod.fst).map Mat.ofRow)
  let p ← Poly.init A (.d1 ⟨rows.length, fun i => (rows.map Prod.snd).getD i 0⟩)
  return p.normalize

/-- `_voronoi_nd(points)` (utils.py:19-64) -/
noncomputable def voronoi_nd (V : Vor) (points : List (Vec ℝ)) : Py (List Poly) :=
  (List.range points.length).mapM fun i => do
    let point ← np.listGet points i
    let ridges ← V.ridges points
    -- `ridge[1 - ridge.tolist().index(i)]`
    let tips ← (ridges.filter fun r => r.1 = i ∨ r.2 = i).mapM fun r => np.listGet points (if r.1 = i then r.2 else r.1)
    cell point tips

/-- `_voronoi_1d(points)` (utils.py:66-116), on arrays of one entry -/
noncomputable def voronoi_1d (points : List (Vec ℝ)) : Py (List Poly) :=
  let points := points.insertionSort fun p q => p.e 0 ≤ q.e 0
  (List.range points.length).mapM fun i => do
    let point ← np.listGet points i
    let tips ← ((if 0 < i then [i - 1] else []) ++ if i + 1 < points.length then [i + 1] else []).mapM (np.listGet points)
    cell point tips

/-- `np.isclose(a, b)` with the default tolerances -/
noncomputable def isclose (a b : ℝ) : Bool := decide (|a - b| ≤ 1e-8 + 1e-5 * |b|)

/-- `min(l)` of a non-empty list given as first entry and rest -/
noncomputable def minL (a : ℝ) (l : List ℝ) : ℝ := l.foldl min a
/-- `max(l)` of a non-empty list given as first entry and rest -/
noncomputable def maxL (a : ℝ) (l : List ℝ) : ℝ := l.foldl max a

/-- coordinates in which the points differ (utils.py:139) -/
noncomputable def coordinates (p : Vec ℝ) (ps : List (Vec ℝ)) : List ℕ :=
  (List.range p.n).filter fun i => ¬ isclose (minL (p.e i) (ps.map fun q => q.e i)) (maxL (p.e i) (ps.map fun q => q.e i))

/-- the partition without boundaries (utils.py:143-146) -/
noncomputable def partition (V : Vor) (indices : List ℕ) (low : List (Vec ℝ)) : Py (List Poly) :=
  if indices.length = 1 then voronoi_1d low else voronoi_nd V low

/-- one cell in the original space (utils.py:149-155) -/
noncomputable def lift (nx : ℕ) (indices : List ℕ) (X : Option Poly) (c : Poly) : Py Poly := do
  let p ← Poly.init (Mat.zeros 0 nx) (.d1 (Vec.zeros 0))
  let p ← Poly.runOn p (Poly.add_inequality c.A (.d1 c.b) (some indices))
  match X with
  | none => return p
  | some X => Poly.runOn p (Poly.add_inequality X.A (.d1 X.b))

/-- `constrained_voronoi(points, X)` (utils.py:118-157).  The equalities of `X` are not used. -/
noncomputable def constrained_voronoi (V : Vor) (points : List (Vec ℝ)) (X : Option Poly := none) : Py (List Poly) :=
  match points with
  | [] => .error .valueError
  | p :: ps =>
    if ∀ q ∈ ps, q.n = p.n then do
      let indices := coordinates p ps
      let low ← (p :: ps).mapM fun q => np.take q indices
      let vor ← partition V indices low
      vor.mapM (lift p.n indices X)
    else .error .assertionError

end Voronoi
end Verif
