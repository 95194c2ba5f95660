import Verif.Model.Drake
import Verif.Model.Example
import Verif.Model.Gurobi

/-
Model of the programs built in `/repo/pympc/optimization/solvers/drake.py`, with the solver behind `MathematicalProgram.Solve` as a parameter.  A variable is its
index, an affine expression the list of its terms.  Drake rejects formulas without variables (rows of zeros), here they are accepted.  The keyword arguments (solver
options) are not modelled.
-/
namespace Verif.Drake
open Example

/-- `MathematicalProgram`: number of variables, binary variables, linear constraints, terms of the linear and of the quadratic cost -/
structure MathProg where
  n : ℕ
  bins : List ℕ
  cons : List LinCon
  lin : List (ℕ × ℝ)
  quad : List (ℕ × ℕ × ℝ)

namespace MathProg

/-- `v` satisfies the constraints and its binary variables are binary -/
def Feasible (p : MathProg) (v : ℕ → ℝ) : Prop := (∀ c ∈ p.cons, c.Holds v) ∧ ∀ i ∈ p.bins, v i = 0 ∨ v i = 1

/-- the quadratic part of the objective -/
noncomputable def quadPart (p : MathProg) (v : ℕ → ℝ) : ℝ := (p.quad.map fun q => q.2.2 * v q.1 * v q.2.1).sum

/-- the objective -/
noncomputable def cost (p : MathProg) (v : ℕ → ℝ) : ℝ := p.quadPart v + valTerms p.lin v

/-- `v` is optimal -/
def Optimal (p : MathProg) (v : ℕ → ℝ) : Prop := p.Feasible v ∧ ∀ w, p.Feasible w → p.cost v ≤ p.cost w

end MathProg

/-- `prog.Solve()` and `prog.GetSolution`: `none` if the result is not `kSolutionFound` -/
structure MathSolver where
  solve : MathProg → Option (ℕ → ℝ)

/-- Contract: a solution is optimal, and a program with a convex objective and an optimal point has a solution. -/
structure MathSolverSpec (D : MathSolver) : Prop where
  sound : ∀ p v, D.solve p = some v → p.Optimal v
  complete : ∀ p, (∀ v, 0 ≤ p.quadPart v) → (∃ v, p.Optimal v) → ∃ v, D.solve p = some v

/-- `b[i]` of an array -/
def item (b : Vec ℝ) (i : ℕ) : Py ℝ := if i < b.n then .ok (b.e i) else .error .indexError

/-- `prog.AddLinearConstraint(A[i].dot(x) <= b[i])` (drake.py:55, 145, 242) -/
def addLeRow (x : Vec ℕ) (A : Mat ℝ) (b : Vec ℝ) (p : MathProg) (i : ℕ) : Py MathProg := do
  let l ← dotVars (A.row i) x
  let r ← item b i
  return { p with cons := p.cons ++ [⟨l.terms, none, some r⟩] }

/-- `prog.AddLinearConstraint(C[i].dot(x) == d[i])` (drake.py:56, 146, 243) -/
def addEqRow (x : Vec ℕ) (C : Mat ℝ) (d : Vec ℝ) (p : MathProg) (i : ℕ) : Py MathProg := do
  let l ← dotVars (C.row i) x
  let r ← item d i
  return { p with cons := p.cons ++ [⟨l.terms, some r, some r⟩] }

/-- the loop over the equalities, `n_eq` is 0 without `C` (drake.py:46-50, 56) -/
def addEqRows (x : Vec ℕ) (C : Option (Mat ℝ)) (d : Option (Vec ℝ)) (p : MathProg) : Py MathProg :=
  match C, d with
  | some C, some d => (List.range C.nr).foldlM (addEqRow x C d) p
  | _, _ => .ok p

/-- `np.hstack((prog.NewContinuousVariables(nc), prog.NewBinaryVariables(nb)))` (drake.py:53-54, 238-241) -/
def newVariables (nc nb : ℕ) : Vec ℕ × MathProg :=
  (Vec.append ⟨nc, fun i => i⟩ ⟨nb, fun i => nc + i⟩, ⟨nc + nb, (List.range nb).map (nc + ·), [], [], []⟩)

/-- variables and constraints (drake.py:53-56, 143-146, 237-243) -/
def addConstraints (nc nb : ℕ) (A : Mat ℝ) (b : Vec ℝ) (C : Option (Mat ℝ)) (d : Option (Vec ℝ)) : Py MathProg := do
  let p ← (List.range A.nr).foldlM (addLeRow (newVariables nc nb).1 A b) (newVariables nc nb).2
  addEqRows (newVariables nc nb).1 C d p

/-- `prog.AddLinearCost(f.dot(x))` (drake.py:57) -/
def addLinearCost (x : Vec ℕ) (f : Vec ℝ) (p : MathProg) : Py MathProg := do
  let l ← dotVars f x
  return { p with lin := p.lin ++ l.terms }

/-- `prog.AddQuadraticCost(.5*x.dot(H).dot(x) + f.dot(x))` (drake.py:148, 244) -/
noncomputable def addQuadraticCost (x : Vec ℕ) (H : Mat ℝ) (f : Vec ℝ) (p : MathProg) : Py MathProg := do
  let q ← quadVars H x
  let l ← dotVars f x
  return { p with quad := p.quad ++ q, lin := p.lin ++ l.terms }

/-- `prog.GetSolution(x)` if a solution is found -/
def MathSolver.found (D : MathSolver) (x : Vec ℕ) (p : MathProg) : Option (Vec ℝ) := (D.solve p).map fun v => getSolution v x

/-- `linear_program(f, A, b, C, d, tol)` (drake.py:6-93) -/
noncomputable def linearProgram (L : Lib) (D : MathSolver) (f : Vec ℝ) (A : Mat ℝ) (b : Vec ℝ) (C : Option (Mat ℝ)) (d : Option (Vec ℝ))
    (tol : ℝ := 1e-5) : Py Sol :=
  if C.isNone ≠ d.isNone then .error .valueError
  else do
    let p ← addConstraints A.nc 0 A b C d
    let p ← addLinearCost (newVariables A.nc 0).1 f p
    linear_program L (D.found (newVariables A.nc 0).1 p) f A b C d tol

/-- `quadratic_program(H, f, A, b, C, d, tol)` (drake.py:95-189) -/
noncomputable def quadraticProgram (D : MathSolver) (H : Mat ℝ) (f : Vec ℝ) (A : Mat ℝ) (b : Vec ℝ) (C : Option (Mat ℝ)) (d : Option (Vec ℝ))
    (tol : ℝ := 1e-5) : Py Sol :=
  if C.isNone ≠ d.isNone then .error .valueError
  else do
    let p ← addConstraints A.nc 0 A b C d
    let p ← addQuadraticCost (newVariables A.nc 0).1 H f p
    quadratic_program (D.found (newVariables A.nc 0).1 p) H f A b C d tol

/-- the fields of the answer of the mixed-integer program (drake.py:258-260) -/
noncomputable def miFill (H : Mat ℝ) (f x : Vec ℝ) : Py Grb.MSol := do
  let xH ← np.dotVM x H
  let xHx ← np.dotVV xH x
  let fx ← np.dotVV f x
  return ⟨some (1 / 2 * xHx + fx), some x⟩

/-- `mixed_integer_quadratic_program(nc, H, f, A, b, C, d)` (drake.py:191-262); drake rejects a negative number of binary variables -/
noncomputable def mixedIntegerQuadraticProgram (D : MathSolver) (nc : ℕ) (H : Mat ℝ) (f : Vec ℝ) (A : Mat ℝ) (b : Vec ℝ) (C : Option (Mat ℝ))
    (d : Option (Vec ℝ)) : Py Grb.MSol :=
  if C.isNone ≠ d.isNone then .error .valueError
  else if A.nc < nc then .error .runtimeError
  else do
    let p ← addConstraints nc (A.nc - nc) A b C d
    let p ← addQuadraticCost (newVariables nc (A.nc - nc)).1 H f p
    match D.found (newVariables nc (A.nc - nc)).1 p with
    | none => return ⟨none, none⟩
    | some x => miFill H f x

end Verif.Drake
