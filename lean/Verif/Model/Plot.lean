import Verif.Model.FeasibleSet
import Verif.Model.Controllers

/- Model of the plots: /repo/pympc/plot.py, `Polyhedron.plot` (/repo/pympc/geometry/polyhedron.py:879-919) and the plots of the controller
(/repo/pympc/control/controllers.py:188-250).  A function returns the list of the commands sent to matplotlib; what has been drawn before an
exception is not kept.  Further keyword arguments (colors, ..) are not modelled. -/
namespace Verif
namespace Plot

/-- the commands of `matplotlib` that are used -/
inductive Cmd
  /-- `plt.plot(xs, ys, style, label=label)`: a line through the points -/
  | plot (xs ys : List ℝ) (style : String) (label : Option String)
  /-- `plt.step(xs, ys, style)`: a line that takes the value `ys[k]` to the left of `xs[k]` -/
  | step (xs ys : List ℝ) (style : String)
  | text (x y : ℝ) (s : String)
  | scatter (x y : ℝ)
  /-- `plt.subplot(n, 1, i+1)`: the next commands draw in the panel `i` of `n` -/
  | subplot (n i : ℕ)
  | xlabel (s : String)
  | ylabel (s : String)
  | xlim (a b : ℝ)
  | legend (names : List String)
  /-- `ax.add_patch(PathPatch(Path(vs, codes)))` with the codes of one closed polygon -/
  | patch (vs : List (ℝ × ℝ))
  /-- `plt.contour(X, Y, Z)`; `none` is `nan` -/
  | contour (X Y : Mat ℝ) (Z : ℕ → ℕ → Option ℝ)
  | colorbar
  | title (s : String)

/-- `np.linspace(a, b, n)` -/
noncomputable def linspace (a b : ℝ) (n : ℕ) : List ℝ := (List.range n).map fun (i : ℕ) => a + (i : ℝ) * ((b - a) / ((n : ℝ) - 1))

/-- `v[i]` -/
def coord (v : Vec ℝ) (i : ℕ) : Py ℝ := if i < v.n then .ok (v.e i) else .error .indexError

/-- `plt.plot`: raises on lists of different lengths -/
def plotCmd (xs ys : List ℝ) (style : String) : Py Cmd := if xs.length = ys.length then .ok (.plot xs ys style none) else .error .valueError

/-- `plt.step`: raises on lists of different lengths -/
def stepCmd (xs ys : List ℝ) (style : String) : Py Cmd := if xs.length = ys.length then .ok (.step xs ys style) else .error .valueError

/-- `r'$x_{' + str(i) + '}$'` -/
def axis (x : String) (i : ℕ) : String := "$" ++ x ++ "_{" ++ toString i ++ "}$"

/-- the segment from `x[t]` to `x[t+1]` (plot.py:24-29, 30-34) -/
def segmentOf (x : List (Vec ℝ)) (i j t : ℕ) (label : Option String) : Py Cmd := do
  let a ← np.listGet x t
  let b ← np.listGet x (t + 1)
  let a1 ← coord a i
  let b1 ← coord b i
  let a2 ← coord a j
  let b2 ← coord b j
  return .plot [a1, b1] [a2, b2] "" label

/-- the body of the loop over the segments (plot.py:22-34): the first segment is drawn twice, once with the label -/
def segmentCmds (x : List (Vec ℝ)) (i j : ℕ) (label : Option String) (t : ℕ) : Py (List Cmd) := do
  let s ← segmentOf x i j t none
  if t = 0 then do
    let s' ← segmentOf x i j 0 label
    return [s', s]
  else return [s]

/-- the text at time `t` (plot.py:39): the coordinates are the first two, not `dim` -/
def textCmd (x : List (Vec ℝ)) (t : ℕ) : Py Cmd := do
  let a ← np.listGet x t
  let a1 ← coord a 0
  let a2 ← coord a 1
  return .text a1 a2 ("$x(" ++ toString t ++ ")$")

/-- all the texts, if they are wanted (plot.py:37-39) -/
def textCmds (x : List (Vec ℝ)) (text : Bool) : Py (List Cmd) :=
  if text then (List.range x.length).mapM (textCmd x) else .ok []

/-- `plot_state_space_trajectory(x, dim, text, label)` (plot.py:5-52) -/
def plot_state_space_trajectory (x : List (Vec ℝ)) (dim : List ℕ := [0, 1]) (text : Bool := false) (label : Option String := none) : Py (List Cmd) :=
  match dim with
  | [i, j] => do
    let segs ← (List.range (x.length - 1)).mapM (segmentCmds x i j label)
    let texts ← textCmds x text
    let x0 ← np.listGet x 0
    let a ← coord x0 i
    let b ← coord x0 j
    return segs.flatten ++ texts ++ [.scatter a b, .xlabel (axis "x" (i + 1)), .ylabel (axis "x" (j + 1))]
  | _ => .error .valueError

/-- the lines of the bounds (plot.py:84-86, 136-138, 193-195) -/
def boundCmds (t : List ℝ) (i : ℕ) (bounds : Option (List (Vec ℝ))) : Py (List Cmd) :=
  (bounds.getD []).mapM fun b => do
    let v ← coord b i
    stepCmd t (List.replicate t.length v) "r"

/-- the legend of the first panel (plot.py:91-103, 143-155, 200-212); without any bound in the list, `bound_plot` has not been assigned -/
def legendCmds (i : ℕ) (bounds : Option (List (Vec ℝ))) (name bound : String) : Py (List Cmd) :=
  if i = 0 then
    match bounds with
    | none => .ok [.legend [name]]
    | some [] => .error .nameError
    | some (_ :: _) => .ok [.legend [name, bound]]
  else .ok []

/-- one panel of `plot_input_sequence` (plot.py:77-103) -/
noncomputable def inputPanel (u : List (Vec ℝ)) (h : ℝ) (u_bounds : Option (List (Vec ℝ))) (nu i : ℕ) : Py (List Cmd) := do
  let N := u.length
  let t := linspace 0 (N * h) (N + 1)
  let u_i ← u.mapM fun v => coord v i
  let first ← np.listGet u_i 0
  let line ← stepCmd t (first :: u_i) "b"
  let bounds ← boundCmds t i u_bounds
  let legend ← legendCmds i u_bounds "Optimal control" "Control bounds"
  return [.subplot nu i, line] ++ bounds ++ [.ylabel (axis "u" (i + 1)), .xlim 0 (N * h)] ++ legend

/-- `plot_input_sequence(u, h, u_bounds)` (plot.py:54-104) -/
noncomputable def plot_input_sequence (u : List (Vec ℝ)) (h : ℝ) (u_bounds : Option (List (Vec ℝ)) := none) : Py (List Cmd) := do
  let u0 ← np.listGet u 0
  let panels ← (List.range u0.n).mapM (inputPanel u h u_bounds u0.n)
  return panels.flatten ++ [.xlabel "$t$"]

/-- one panel of `plot_state_trajectory` (plot.py:129-155) and of `plot_output_trajectory` (plot.py:186-212).  For the empty list the code computes
`np.linspace(0, -h, 0)`, which is empty too. -/
noncomputable def statePanel (x : List (Vec ℝ)) (h : ℝ) (bounds : Option (List (Vec ℝ))) (name legendBound : String) (nx i : ℕ) : Py (List Cmd) := do
  let T : ℝ := ((x.length : ℝ) - 1) * h
  let t := linspace 0 T x.length
  let x_i ← x.mapM fun v => coord v i
  let line ← plotCmd t x_i "b"
  let bs ← boundCmds t i bounds
  let legend ← legendCmds i bounds "Optimal trajectory" legendBound
  return [.subplot nx i, line] ++ bs ++ [.ylabel (axis name (i + 1)), .xlim 0 T] ++ legend

/-- `plot_state_trajectory(x, h, x_bounds)` (plot.py:106-156) -/
noncomputable def plot_state_trajectory (x : List (Vec ℝ)) (h : ℝ) (x_bounds : Option (List (Vec ℝ)) := none) : Py (List Cmd) := do
  let x0 ← np.listGet x 0
  let panels ← (List.range x0.n).mapM (statePanel x h x_bounds "x" "State bounds" x0.n)
  return panels.flatten ++ [.xlabel "$t$"]

/-- `plot_output_trajectory(C, x, h, y_bounds)` (plot.py:158-213) -/
noncomputable def plot_output_trajectory (C : Mat ℝ) (x : List (Vec ℝ)) (h : ℝ) (y_bounds : Option (List (Vec ℝ)) := none) : Py (List Cmd) := do
  let y ← x.mapM fun v => np.dotMV C v
  let panels ← (List.range C.nr).mapM (statePanel y h y_bounds "y" "Output bounds" C.nr)
  return panels.flatten ++ [.xlabel "$t$"]

/-- the indices `ConvexHull(points).vertices` for points of the plane -/
abbrev HullVertices := Mat ℝ → List ℕ

/-- the commands of `Polyhedron.plot` once the vertices are known (polyhedron.py:902-916).  `ConvexHull` raises on points of a line. -/
noncomputable def patchCmds (Q : Qhull) (hv : HullVertices) (vs : List (Vec ℝ)) (i j : ℕ) : Py (List Cmd) := do
  let V ← np.vstack (vs.map Mat.ofRow)
  let P ← Geom.colsAt V [i, j]
  let _ ← Q.convexHull P
  let pts := (hv P).map fun k => (P.e k 0, P.e k 1)
  let first ← np.listGet pts 0
  -- `r'$x_' + str(i+1) + '$'`
  return [.patch (pts ++ [first]), .xlabel ("$x_" ++ toString (i + 1) ++ "$"), .ylabel ("$x_" ++ toString (j + 1) ++ "$")]

/-- `p.plot(residual_dimensions)` (polyhedron.py:879-919); nothing is drawn for polyhedra without vertices (unbounded or empty) -/
noncomputable def plotPolyhedron (L : Lib) (Q : Qhull) (hv : HullVertices) (dims : List ℕ := [0, 1]) : PyM Poly (List Cmd) :=
  match dims with
  | [i, j] => do
    let v ← Poly.vertices L Q
    match v with
    | none => return []
    | some vs => PyM.lift (patchCmds Q hv vs i j)
  | _ => PyM.raise .valueError

/-- `cr.polyhedron.center[i]`; `None[i]` raises `TypeError` -/
def centerCoord (c : Option (Vec ℝ)) (i : ℕ) : Py ℝ :=
  match c with
  | some c => coord c i
  | none => .error .typeError

/-- the text in the center of a region (controllers.py:209-210); `s` is `str(cr.active_set)` -/
noncomputable def centerText (L : Lib) (s : String) : PyM Poly (List Cmd) := do
  let c ← Poly.center L
  let a ← PyM.lift (centerCoord c 0)
  let b ← PyM.lift (centerCoord c 1)
  return [.text a b s]

/-- the body of the loop over the regions (controllers.py:205-210) -/
noncomputable def plotRegion (L : Lib) (Q : Qhull) (hv : HullVertices) (printActive : Bool) (s : String) : PyM Poly (List Cmd) := do
  let a ← plotPolyhedron L Q hv
  if printActive then do
    let b ← centerText L s
    return a ++ b
  else return a

/-- `plot_state_space_partition(print_active_set)` (controllers.py:188-210).  The caches filled by the plots of the regions are not kept. -/
noncomputable def plot_state_space_partition (L : Lib) (Q : Qhull) (hv : HullVertices) (c : Control.MPC) (printActive : Bool := false) : Py (List Cmd) :=
  if c.S.nx ≠ 2 then .error .valueError
  else match c.explicit_solution with
    | none => .error .valueError
    | some s => do
      let cmds ← s.mapM fun cr => (plotRegion L Q hv printActive (toString cr.active_set) cr.polyhedron).1
      return cmds.flatten

/-- `max` of a list of numbers; raises on the empty list -/
noncomputable def pyMax : List ℝ → Py ℝ
  | [] => .error .valueError
  | a :: l => .ok (l.foldl max a)

/-- `min` of a list of numbers; raises on the empty list -/
noncomputable def pyMin : List ℝ → Py ℝ
  | [] => .error .valueError
  | a :: l => .ok (l.foldl min a)

/-- `for v in feasible_set.vertices`: iterating over `None` raises `TypeError` -/
def verticesOf (v : Option (List (Vec ℝ))) : Py (List (Vec ℝ)) :=
  match v with
  | some l => .ok l
  | none => .error .typeError

/-- the grid (controllers.py:238-240): `X[r, c] = x[c]`, `Y[r, c] = y[r]` -/
def meshgrid (x y : List ℝ) : Mat ℝ × Mat ℝ :=
  (⟨y.length, x.length, fun _ c => x.getD c 0⟩, ⟨y.length, x.length, fun r _ => y.getD r 0⟩)

/-- `np.ravel(M)` -/
def ravel (M : Mat ℝ) : List ℝ := (List.range (M.nr * M.nc)).map fun k => M.e (k / M.nc) (k % M.nc)

/-- the values on the grid, in the order of `np.ravel`, reshaped (controllers.py:243-244) -/
noncomputable def gridValues (s : ExplicitSolution) (X Y : Mat ℝ) : Py (ℕ → ℕ → Option ℝ) := do
  let zs ← ((ravel X).zip (ravel Y)).mapM fun p => s.V ⟨2, fun j => if j = 0 then p.1 else p.2⟩
  return fun r c => (zs[r * X.nc + c]?).join

/-- `plt.contour(X, Y, Z)`: raises `TypeError` on grids with fewer than two rows or columns -/
def contourCmd (X Y : Mat ℝ) (Z : ℕ → ℕ → Option ℝ) : Py Cmd := if X.nr < 2 ∨ X.nc < 2 then .error .typeError else .ok (.contour X Y Z)

/-- `plot_optimal_value_function(resolution)` (controllers.py:212-250); `none` if the computation of the feasible set does not stop within `fuel`
iterations -/
noncomputable def plot_optimal_value_function (L : Lib) (Q : Qhull) (hv : HullVertices) (rand : List (Vec ℝ) → Vec ℝ) (fuel : ℕ) (c : Control.MPC)
    (resolution : ℕ := 100) : Py (Option (List Cmd)) :=
  if c.S.nx ≠ 2 then .error .valueError
  else match c.explicit_solution with
    | none => .error .valueError
    | some s => do
      let F ← c.mpqp.get_feasible_set L Q rand fuel
      match F with
      | none => return none
      | some F => do
        let v ← (Poly.vertices L Q F).1
        let vs ← verticesOf v
        let xs ← vs.mapM fun v => coord v 0
        let ys ← vs.mapM fun v => coord v 1
        let x_max ← pyMax xs
        let x_min ← pyMin xs
        let y_max ← pyMax ys
        let y_min ← pyMin ys
        let XY := meshgrid (linspace x_min x_max resolution) (linspace y_min y_max resolution)
        let Z ← gridValues s XY.1 XY.2
        let f ← (plotPolyhedron L Q hv [0, 1] (Poly.vertices L Q F).2).1
        let cp ← contourCmd XY.1 XY.2 Z
        return some (f ++ [cp, .colorbar, .title "$V^*(x)$"])

end Plot
end Verif
