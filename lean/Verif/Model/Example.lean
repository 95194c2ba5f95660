import Verif.Model.Hybrid

/- Model of the controller of the drake example: /repo/examples/pwa_from_urdf/utils.py (208-388).  A variable of the drake program is its index;
an affine expression is the list of its terms and a constant.  Drake rejects formulas without variables (rows of zeros), here they are accepted.  The
objective is accumulated in the program instead of in a local variable. -/
namespace Verif
namespace Example
open Dyn Control

/-- one polyhedron of `graph_representation(S)` (utils.py:359-368) -/
noncomputable def graph (S : PWA) (i : ℕ) : Py Poly := do
  let Di ← np.listGet S.domains i
  let Si ← np.listGet S.affine_systems i
  let r1 ← np.hstack [Di.A, Mat.zeros Di.A.nr S.nx]
  let r2 ← np.hstack [Si.A, Si.B, (Mat.eye S.nx : Mat ℝ).neg]
  let r3 ← np.hstack [Si.A.neg, Si.B.neg, Mat.eye S.nx]
  let Ai ← np.vstack [r1, r2, r3]
  let bi ← np.concatenate [Di.b, Si.c.neg, Si.c]
  Poly.init Ai (.d1 bi)

/-- `graph_representation(S)` (utils.py:349-369) -/
noncomputable def graph_representation (S : PWA) : Py (List Poly) := (List.range S.nm).mapM (graph S)

/-- `m[i][j][k]` (utils.py:381-384); `- sol['min']` raises if there is no minimum -/
noncomputable def big_mijk (L : Lib) (tol : ℝ) (Pi Pj : Poly) (k : ℕ) : Py ℝ := do
  let sol ← lpDefault L (Pi.A.row k).neg Pj.A Pj.b
  let m ← Poly.negMin sol
  return if |m - Pi.b.e k| < tol then 0 else m - Pi.b.e k

/-- `m[i][j]` (utils.py:379-386) -/
noncomputable def big_mij (L : Lib) (tol : ℝ) (Pi Pj : Poly) : Py (Vec ℝ) := do
  let l ← (List.range Pi.A.nr).mapM (big_mijk L tol Pi Pj)
  return Vec.ofList l

/-- `big_m(P_list, tol)` (utils.py:371-388) -/
noncomputable def big_m (L : Lib) (P_list : List Poly) (tol : ℝ := 1e-6) : Py (List (List (Vec ℝ))) :=
  P_list.mapM fun Pi => P_list.mapM fun Pj => big_mij L tol Pi Pj

/-- an affine expression of the variables -/
structure Aff where
  terms : List (ℕ × ℝ)
  const : ℝ

/-- a linear constraint `lb <= terms <= ub`, `none` for no bound -/
structure LinCon where
  terms : List (ℕ × ℝ)
  lb : Option ℝ
  ub : Option ℝ

/-- `MathematicalProgram`: number of variables, binary variables, linear constraints and terms of the quadratic cost -/
structure Prog where
  n : ℕ
  bins : List ℕ
  cons : List LinCon
  quad : List (ℕ × ℕ × ℝ)

/-- the value of the terms at `v` -/
noncomputable def valTerms (l : List (ℕ × ℝ)) (v : ℕ → ℝ) : ℝ := (l.map fun p => p.2 * v p.1).sum

/-- the constraint holds at `v` -/
def LinCon.Holds (c : LinCon) (v : ℕ → ℝ) : Prop := (∀ a, c.lb = some a → a ≤ valTerms c.terms v) ∧ ∀ a, c.ub = some a → valTerms c.terms v ≤ a

namespace Prog

/-- `v` satisfies the constraints and its binary variables are binary -/
def Feasible (p : Prog) (v : ℕ → ℝ) : Prop := (∀ c ∈ p.cons, c.Holds v) ∧ ∀ i ∈ p.bins, v i = 0 ∨ v i = 1

/-- the objective at `v` -/
noncomputable def cost (p : Prog) (v : ℕ → ℝ) : ℝ := (p.quad.map fun q => q.2.2 * v q.1 * v q.2.1).sum

/-- `v` is optimal -/
def Optimal (p : Prog) (v : ℕ → ℝ) : Prop := p.Feasible v ∧ ∀ w, p.Feasible w → p.cost v ≤ p.cost w

/-- `NewContinuousVariables(k)` -/
def newContinuous (p : Prog) (k : ℕ) : Vec ℕ × Prog := (⟨k, fun i => p.n + i⟩, { p with n := p.n + k })
/-- `NewBinaryVariables(k)` -/
def newBinary (p : Prog) (k : ℕ) : Vec ℕ × Prog :=
  (⟨k, fun i => p.n + i⟩, { p with n := p.n + k, bins := p.bins ++ (List.range k).map (p.n + ·) })
/-- `AddLinearConstraint(lhs <= rhs)` -/
def addLe (p : Prog) (lhs rhs : Aff) : Prog :=
  { p with cons := p.cons ++ [⟨lhs.terms ++ rhs.terms.map (fun t => (t.1, -t.2)), none, some (rhs.const - lhs.const)⟩] }
/-- `AddLinearConstraint(terms == a)` -/
def addEq (p : Prog) (terms : List (ℕ × ℝ)) (a : ℝ) : Prog := { p with cons := p.cons ++ [⟨terms, some a, some a⟩] }

end Prog

/-- `GurobiSolver().Solve(prog)` and `prog.GetSolution`: `none` if the result is not `kSolutionFound` -/
structure Solver where
  solve : Prog → Option (ℕ → ℝ)

/-- Contract: a solution is optimal, and a program with a convex objective and an optimal point has a solution. -/
structure SolverSpec (D : Solver) : Prop where
  sound : ∀ p v, D.solve p = some v → p.Optimal v
  complete : ∀ p, (∀ v, 0 ≤ p.cost v) → (∃ v, p.Optimal v) → ∃ v, D.solve p = some v

/-- the dot product of an array of numbers and an array of variables, `ValueError` if the sizes differ -/
def dotVars (a : Vec ℝ) (w : Vec ℕ) : Py Aff :=
  if a.n = w.n then .ok ⟨(List.range a.n).map fun j => (w.e j, a.e j), 0⟩ else .error .valueError

/-- `.5 * w.dot(M).dot(w)` -/
noncomputable def quadVars (M : Mat ℝ) (w : Vec ℕ) : Py (List (ℕ × ℕ × ℝ)) :=
  if M.nr = w.n ∧ M.nc = w.n then
    .ok ((List.range w.n).flatMap fun i => (List.range w.n).map fun j => (w.e i, w.e j, 1 / 2 * M.e i j))
  else .error .valueError

/-- `mi_sum[k]` (utils.py:285, 287): with one mode `np.sum([], axis=0)` is the number `0.`, which has no entries -/
def miSum (mi : List (Vec ℝ)) (d : Vec ℕ) (nm i k : ℕ) : Py Aff :=
  if (List.range nm).filter (· ≠ i) = [] then .error .indexError
  else do
    let l ← ((List.range nm).filter (· ≠ i)).mapM fun j => do
      let mij ← np.listGet mi j
      return (d.e j, mij.e k)
    return ⟨l, 0⟩

/-- one constraint (utils.py:287) -/
def addRow (Pi : Poly) (mi : List (Vec ℝ)) (nm i : ℕ) (xux d : Vec ℕ) (p : Prog) (k : ℕ) : Py Prog := do
  let lhs ← dotVars (Pi.A.row k) xux
  let s ← miSum mi d nm i k
  return p.addLe lhs ⟨s.terms, Pi.b.e k + s.const⟩

/-- the constraints of one mode (utils.py:285-287) -/
def addMode (P : List Poly) (m : List (List (Vec ℝ))) (nm : ℕ) (xux d : Vec ℕ) (p : Prog) (i : ℕ) : Py Prog := do
  let Pi ← np.listGet P i
  let mi ← np.listGet m i
  (List.range Pi.A.nr).foldlM (addRow Pi mi nm i xux d) p

/-- the program and the attributes `x`, `u`, `d` during the construction -/
structure Build where
  prog : Prog
  x : List (Vec ℕ)
  u : List (Vec ℕ)
  d : List (Vec ℕ)

/-- one iteration of the loop over time (utils.py:275-294) -/
noncomputable def addStage (S : PWA) (Q R : Mat ℝ) (P : List Poly) (m : List (List (Vec ℝ))) (s : Build) (t : ℕ) : Py Build := do
  let xt ← np.listGet s.x t
  let nu := s.prog.newContinuous S.nu
  let nd := nu.2.newBinary S.nm
  let nx := nd.2.newContinuous S.nx
  let xux ← np.concatenate [xt, nu.1, nx.1]
  let p ← (List.range S.nm).foldlM (addMode P m S.nm xux nd.1) nx.2
  let p := p.addEq ((List.range S.nm).map fun j => (nd.1.e j, 1)) 1
  let qu ← quadVars R nu.1
  let qx ← quadVars Q xt
  return ⟨{ p with quad := p.quad ++ (qu ++ qx) }, s.x ++ [nx.1], s.u ++ [nu.1], s.d ++ [nd.1]⟩

/-- one terminal constraint (utils.py:297-298) -/
def addTerminal (X_N : Poly) (xN : Vec ℕ) (p : Prog) (k : ℕ) : Py Prog := do
  let lhs ← dotVars (X_N.A.row k) xN
  return p.addLe lhs ⟨[], X_N.b.e k⟩

/-- the constraints on the initial state, the first ones of the program (utils.py:268-272) -/
def initial (nx : ℕ) : Build :=
  let v := (⟨0, [], [], []⟩ : Prog).newContinuous nx
  ⟨(List.range nx).foldl (fun p k => p.addEq [(v.1.e k, 1)] 0) v.2, [v.1], [], []⟩

/-- the controller: `HybridModelPredictiveController` of the example.  `initial_condition` is the list of the positions of the constraints on the initial
state. -/
structure Ctrl where
  S : PWA
  N : ℕ
  prog : Prog
  x : List (Vec ℕ)
  u : List (Vec ℕ)
  d : List (Vec ℕ)
  initial_condition : List ℕ

/-- `__init__(S, N, Q, R, P, X_N)` and `build_mpmiqp()` (utils.py:241-306) -/
noncomputable def init (L : Lib) (S : PWA) (N : ℕ) (Q R P : Mat ℝ) (X_N : Poly) : Py Ctrl := do
  let G ← graph_representation S
  let m ← big_m L G
  let s ← (List.range N).foldlM (addStage S Q R G m) (initial S.nx)
  let xN ← np.listGet s.x N
  let p ← (List.range X_N.A.nr).foldlM (addTerminal X_N xN) s.prog
  let q ← quadVars P xN
  return ⟨S, N, { p with quad := p.quad ++ q }, s.x, s.u, s.d, List.range S.nx⟩

/-- `UpdateLowerBound` and `UpdateUpperBound` of the constraint at position `i` -/
def Prog.setBounds (p : Prog) (i : ℕ) (a : ℝ) : Prog :=
  { p with cons := p.cons.modify i fun c => { c with lb := some a, ub := some a } }

/-- `set_initial_condition(x0)` (utils.py:309-312) from position `k` on; the slice `x0[k:k+1]` is empty beyond the size of `x0`, and drake raises -/
def setFrom (x0 : Vec ℝ) : ℕ → List ℕ → PyM Ctrl Unit
  | _, [] => pure ()
  | k, i :: l =>
    if k < x0.n then do
      PyM.modify fun c => { c with prog := c.prog.setBounds i (x0.e k) }
      setFrom x0 (k + 1) l
    else PyM.raise .runtimeError

/-- `set_initial_condition(x0)` (utils.py:309-312) -/
def set_initial_condition (x0 : Vec ℝ) : PyM Ctrl Unit := do
  let c ← PyM.get
  setFrom x0 0 c.initial_condition

open Classical in
/-- `np.argmax(d)`: the first index of a maximum, `ValueError` if there are no entries -/
noncomputable def argmax (d : Vec ℝ) : Py ℕ :=
  if d.n = 0 then .error .valueError
  else .ok ((List.range d.n).foldl (fun b i => if d.e b < d.e i then i else b) 0)

/-- `prog.GetSolution(w)` -/
def getSolution (v : ℕ → ℝ) (w : Vec ℕ) : Vec ℝ := ⟨w.n, fun i => v (w.e i)⟩

/-- the lists returned by `feedforward` (utils.py:326-337) -/
noncomputable def unpack (c : Ctrl) (v : ℕ → ℝ) : Py HMPC.Answer := do
  let ms ← (c.d.map (getSolution v)).mapM argmax
  return ⟨c.u.map (getSolution v), c.x.map (getSolution v), ms, c.prog.cost v⟩

/-- `feedforward(x0)` (utils.py:314-337), `none` stands for four `None` -/
noncomputable def feedforward (D : Solver) (x0 : Vec ℝ) : PyM Ctrl (Option HMPC.Answer) := do
  set_initial_condition x0
  let c ← PyM.get
  match D.solve c.prog with
  | none => return none
  | some v => do
    let a ← PyM.lift (unpack c v)
    return some a

/-- `feedback(x0)` (utils.py:340-347) -/
noncomputable def feedback (D : Solver) (x0 : Vec ℝ) : PyM Ctrl (Option (Vec ℝ)) := do
  let a ← feedforward D x0
  PyM.lift (MPC.firstInput (a.map (·.u)))

/-- `Controller.__init__(S, N, Q, R, P, X_N)` (utils.py:213-233): the attribute `controller` -/
noncomputable def Controller.init (L : Lib) (S : PWA) (N : ℕ) (Q R _P : Mat ℝ) (X_N : Poly) : Py Ctrl := Example.init L S N Q R Q X_N

end Example
end Verif
