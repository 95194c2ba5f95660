import Verif.Model.Plot
import Mathlib.Analysis.Convex.Hull

/- What the commands of a plot draw. -/
namespace Verif.Spec
open Plot

/-- the points of the plane covered by a line -/
def ink : Cmd → Set (ℝ × ℝ)
  -- a straight line from each point to the next one
  | .plot xs ys _ _ => {p | ∃ (k : ℕ) (x y x' y' : ℝ), xs[k]? = some x ∧ ys[k]? = some y ∧ xs[k + 1]? = some x' ∧ ys[k + 1]? = some y' ∧
      p ∈ segment ℝ (x, y) (x', y')}
  -- from each point up or down to the value of the next one, then to the next one
  | .step xs ys _ => {p | ∃ (k : ℕ) (x y x' y' : ℝ), xs[k]? = some x ∧ ys[k]? = some y ∧ xs[k + 1]? = some x' ∧ ys[k + 1]? = some y' ∧
      (p ∈ segment ℝ (x, y) (x, y') ∨ p ∈ segment ℝ (x, y') (x', y'))}
  | _ => ∅

/-- the style (here the color) of a line -/
def style : Cmd → Option String
  | .plot _ _ s _ => some s
  | .step _ _ s => some s
  | _ => none

/-- the points covered by the lines of style `s` -/
def inkOf (s : String) (cmds : List Cmd) : Set (ℝ × ℝ) := {p | ∃ c ∈ cmds, style c = some s ∧ p ∈ ink c}

/-- the commands that draw in the panel `k`; the first argument is the panel that is selected before -/
def onPanel (k : ℕ) : Option ℕ → List Cmd → List Cmd
  | _, [] => []
  | _, .subplot _ i :: cs => onPanel k (some i) cs
  | cur, c :: cs => if cur = some k then c :: onPanel k cur cs else onPanel k cur cs

/-- twice the area of the triangle `a b c`, positive if it is traversed counterclockwise -/
def orient (a b c : ℝ × ℝ) : ℝ := (b.1 - a.1) * (c.2 - a.2) - (b.2 - a.2) * (c.1 - a.1)

/-- the points to the left of (or on) all the edges of a path: for a convex polygon traversed counterclockwise, those it encloses -/
def enclosed (path : List (ℝ × ℝ)) : Set (ℝ × ℝ) :=
  {y | ∀ (k : ℕ) (a b : ℝ × ℝ), path[k]? = some a → path[k + 1]? = some b → 0 ≤ orient a b y}

/-- the row `k` of `P` as a point of the plane -/
def pt (P : Mat ℝ) (k : ℕ) : ℝ × ℝ := (P.e k 0, P.e k 1)

/-- `l` lists the rows of `P` at the corners of the convex hull of the rows, counterclockwise: any three of them in the order of the list make a left
turn, and the hull of the listed rows has all the rows -/
structure CcwHull (P : Mat ℝ) (l : List ℕ) : Prop where
  range : ∀ k ∈ l, k < P.nr
  three : 3 ≤ l.length
  turn : ∀ (a b c i j k : ℕ), a < b → b < c → l[a]? = some i → l[b]? = some j → l[c]? = some k → 0 < orient (pt P i) (pt P j) (pt P k)
  hull : ∀ k < P.nr, pt P k ∈ convexHull ℝ {q | ∃ i ∈ l, q = pt P i}

end Verif.Spec

/-- Contract of `ConvexHull(points).vertices` for points of the plane that are not on a line: "for 2-D convex hulls, the vertices are in
counterclockwise order" (documentation of scipy). -/
def Verif.Plot.HullVerticesSpec (hv : Verif.Plot.HullVertices) : Prop := ∀ P : Verif.Mat ℝ, P.nc = 2 → Verif.Spec.FullDim P → Verif.Spec.CcwHull P (hv P)
