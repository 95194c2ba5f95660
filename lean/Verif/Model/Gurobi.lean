import Verif.Model.Pnnls

/-
Model of `/repo/pympc/optimization/solvers/gurobi.py`.  The optimizer itself (`model.optimize()` and the
attributes read afterwards) is a parameter `Gurobi`, with the contract `GurobiSpec` of a solver
working in exact arithmetic.  Keyword parameters (`OutputFlag`, `BarConvTol`, time limits ...) do not
change the program and are omitted.
-/
namespace Verif
open Classical

/-- `gurobipy.LinExpr`: a sum of terms `coefficient * x[i]` and a constant -/
structure LinExpr where
  terms : List (ℝ × ℕ)
  const : ℝ

/-- value of a linear expression -/
noncomputable def LinExpr.eval (e : LinExpr) (x : Vec ℝ) : ℝ := (e.terms.map fun t => t.1 * x.e t.2).sum + e.const

/-- coefficient of `x[j]` in a linear expression -/
noncomputable def LinExpr.coef (e : LinExpr) (j : ℕ) : ℝ :=
  (e.terms.map fun t => if t.2 = j then t.1 else 0).sum

/-- a Gurobi model: `n` variables without bounds, constraints `expr <= 0` and `expr == 0`, a quadratic
objective (terms `x[i] * coefficient * x[j]` and a linear expression), and the variables of type
`BINARY` -/
structure GModel where
  n : ℕ
  ineqs : List LinExpr
  eqs : List LinExpr
  quad : List (ℕ × ℝ × ℕ)
  lin : LinExpr
  bin : ℕ → Bool

/-- the attributes read after `optimize()` when the status is `OPTIMAL` -/
structure GResult where
  x : Vec ℝ
  objVal : ℝ
  piIneq : ℕ → ℝ
  piEq : ℕ → ℝ
  cbasis : ℕ → ℤ

/-- the optimizer: `none` when the status is not `OPTIMAL` -/
structure Gurobi where
  optimize : GModel → Option GResult

namespace GModel

/-- the points satisfying constraints and variable types of the model -/
def Feas (M : GModel) (x : Vec ℝ) : Prop :=
  (∀ e ∈ M.ineqs, e.eval x ≤ 0) ∧ (∀ e ∈ M.eqs, e.eval x = 0) ∧
  ∀ j < M.n, M.bin j = true → x.e j = 0 ∨ x.e j = 1

/-- objective of the model -/
noncomputable def obj (M : GModel) (x : Vec ℝ) : ℝ :=
  (M.quad.map fun t => x.e t.1 * t.2.1 * x.e t.2.2).sum + M.lin.eval x

/-- gradient of the objective -/
noncomputable def grad (M : GModel) (x : Vec ℝ) (j : ℕ) : ℝ :=
  (M.quad.map fun t => (if t.1 = j then t.2.1 * x.e t.2.2 else 0)
    + (if t.2.2 = j then x.e t.1 * t.2.1 else 0)).sum + M.lin.coef j

/-- only variables of the model are used (guaranteed by the Gurobi API) -/
def Wf (M : GModel) : Prop :=
  (∀ e ∈ M.ineqs, ∀ t ∈ e.terms, t.2 < M.n) ∧ (∀ e ∈ M.eqs, ∀ t ∈ e.terms, t.2 < M.n) ∧
  (∀ t ∈ M.quad, t.1 < M.n ∧ t.2.2 < M.n) ∧ ∀ t ∈ M.lin.terms, t.2 < M.n

/-- optimal solutions of the model -/
def IsOpt (M : GModel) (x : Vec ℝ) : Prop := M.Feas x ∧ ∀ x', M.Feas x' → M.obj x ≤ M.obj x'

end GModel

/-- contract of the optimizer (exact arithmetic, no time limit): it answers exactly when there is an
optimal solution, with one of them, its value, and (in the continuous case) the dual values `Pi` with
Gurobi's sign convention (for a minimization `Pi ≤ 0` on `<=` constraints and the gradient of the
objective is the combination of the constraint gradients with weights `Pi`). -/
structure GurobiSpec (G : Gurobi) : Prop where
  sound : ∀ M r, M.Wf → G.optimize M = some r → r.x.n = M.n ∧ M.IsOpt r.x ∧ r.objVal = M.obj r.x
  complete : ∀ M, M.Wf → (∃ x, M.IsOpt x) → ∃ r, G.optimize M = some r
  dual : ∀ M r, M.Wf → G.optimize M = some r → (∀ j < M.n, M.bin j = false) →
    (∀ (i : ℕ) (h : i < M.ineqs.length), r.piIneq i ≤ 0 ∧
      r.piIneq i * (M.ineqs[i]).eval r.x = 0) ∧
    ∀ j < M.n, M.grad r.x j
      = (∑ i ∈ Finset.range M.ineqs.length, r.piIneq i * (M.ineqs.getD i ⟨[], 0⟩).coef j)
      + ∑ i ∈ Finset.range M.eqs.length, r.piEq i * (M.eqs.getD i ⟨[], 0⟩).coef j

namespace Grb

/-- `sum([A[i,j]*x[j] for j in range(A.shape[1]) if np.abs(A[i,j]) > tol])` (gurobi.py:282); reading
`x[j]` with `j` beyond the variables raises `KeyError` -/
noncomputable def rowTerms (n : ℕ) (A : Mat ℝ) (i : ℕ) (tol : ℝ) : Py (List (ℝ × ℕ)) :=
  ((List.range A.nc).filter fun j => decide (|A.e i j| > tol)).mapM fun j =>
    if j < n then .ok (A.e i j, j) else .error .keyError

/-- `linear_expression(A, b, x, tol=1.e-9)` (gurobi.py:260-287); `n` is the number of variables in
`x`.  The list of linear terms is built first, then the offsets are added. -/
noncomputable def linear_expression (A : Mat ℝ) (b : Vec ℝ) (n : ℕ) (tol : ℝ := 1e-9) :
    Py (List LinExpr) := do
  let exprs ← (List.range A.nr).mapM fun i => rowTerms n A i tol
  exprs.zipIdx.mapM fun p =>
    if p.2 < b.n then .ok ⟨p.1, if |b.e p.2| > tol then b.e p.2 else 0⟩ else .error .indexError

/-- `quadratic_expression(H, x, tol=1.e-9)` (gurobi.py:289-308), row by row as `np.ndindex` does -/
noncomputable def quadratic_expression (H : Mat ℝ) (n : ℕ) (tol : ℝ := 1e-9) :
    Py (List (ℕ × ℝ × ℕ)) :=
  (((List.range H.nr).flatMap fun i => (List.range H.nc).map fun j => (i, j)).filter fun p =>
    decide (|H.e p.1 p.2| > tol)).mapM fun p =>
      if p.1 < n ∧ p.2 < n then .ok (p.1, H.e p.1 p.2, p.2) else .error .keyError

/-- the expressions of the linear equalities (gurobi.py:197-200): none unless both `C` and `d` are given -/
noncomputable def eqExprs (C : Option (Mat ℝ)) (d : Option (Vec ℝ)) (n : ℕ) : Py (List LinExpr) :=
  match C, d with
  | some C, some d => linear_expression C d.neg n
  | _, _ => .ok []

/-- the quadratic terms of the cost, `cost.add(.5 * expr)` (gurobi.py:202-207) -/
noncomputable def quadExprs (H : Option (Mat ℝ)) (n : ℕ) : Py (List (ℕ × ℝ × ℕ)) :=
  match H with
  | some H => do
      let q ← quadratic_expression H n
      pure (q.map fun t => (t.1, 1 / 2 * t.2.1, t.2.2))
  | none => .ok []

/-- `_build_model` (gurobi.py:173-214) -/
noncomputable def build_model (H : Option (Mat ℝ)) (f : Vec ℝ) (A : Mat ℝ) (b : Vec ℝ)
    (C : Option (Mat ℝ)) (d : Option (Vec ℝ)) : Py GModel := do
  let n_x := f.n
  let ineqs ← linear_expression A b.neg n_x
  let eqs ← eqExprs C d n_x
  let quad ← quadExprs H n_x
  let lin ← linear_expression (Mat.ofRow f) (Vec.zeros 1) n_x
  let lin0 ← np.listGet lin 0
  return ⟨n_x, ineqs, eqs, quad, lin0, fun _ => false⟩

/-- `sol['multiplier_equality']` (gurobi.py:255-256) -/
noncomputable def eqMultipliers (M : GModel) (r : GResult) (C : Option (Mat ℝ)) : Py (Option (Vec ℝ)) :=
  match C with
  | some C =>
    if C.nr > 0 then
      if C.nr > M.eqs.length then .error .attributeError
      else .ok (some ⟨C.nr, fun i => - r.piEq i⟩)
    else .ok none
  | none => .ok none

/-- `_reorganize_solution` with `continuous=True` (gurobi.py:216-258), without the active set, which
the callers fill.  `getConstrByName` returns `None` for a missing constraint, and then `.getAttr`
raises `AttributeError`. -/
noncomputable def reorganize (G : Gurobi) (M : GModel) (A : Mat ℝ) (C : Option (Mat ℝ)) : Py Sol :=
  match G.optimize M with
  | none => .ok Sol.none
  | some r => do
    let lam : Vec ℝ := ⟨A.nr, fun i => - r.piIneq i⟩
    if A.nr > M.ineqs.length then .error .attributeError else do
    let mu ← eqMultipliers M r C
    return ⟨some r.objVal, some r.x, none, some lam, mu⟩

/-- `linear_program` (gurobi.py:5-58) -/
noncomputable def linear_program (G : Gurobi) (f : Vec ℝ) (A : Mat ℝ) (b : Vec ℝ)
    (C : Option (Mat ℝ)) (d : Option (Vec ℝ)) : Py Sol := do
  let M ← build_model none f A b C d
  let sol ← reorganize G M A C
  match G.optimize M with
  | none => return sol
  | some r => return { sol with
      active_set := some ((List.range A.nr).filter fun i => decide (r.cbasis i = -1)) }

/-- `quadratic_program` (gurobi.py:60-118), `tol=1.e-5` -/
noncomputable def quadratic_program (G : Gurobi) (H : Mat ℝ) (f : Vec ℝ) (A : Mat ℝ) (b : Vec ℝ)
    (C : Option (Mat ℝ)) (d : Option (Vec ℝ)) (tol : ℝ := 1e-5) : Py Sol := do
  let M ← build_model (some H) f A b C d
  let sol ← reorganize G M A C
  match G.optimize M, sol.multiplier_inequality with
  | some _, some lam => return { sol with active_set := some (whereGt lam tol) }
  | _, _ => return sol

/-- dictionary returned by the mixed-integer solver (`min` and `argmin` only) -/
structure MSol where
  min : Option ℝ
  argmin : Option (Vec ℝ)

/-- `mixed_integer_quadratic_program` (gurobi.py:120-171) -/
noncomputable def mixed_integer_quadratic_program (G : Gurobi) (nc : ℕ) (H : Mat ℝ) (f : Vec ℝ)
    (A : Mat ℝ) (b : Vec ℝ) (C : Option (Mat ℝ)) (d : Option (Vec ℝ)) : Py MSol := do
  let M ← build_model (some H) f A b C d
  -- `[xi.setAttr('vtype', grb.GRB.BINARY) for xi in model.getVars()[nc:]]`
  let M' : GModel := { M with bin := fun j => decide (nc ≤ j) }
  match G.optimize M' with
  | none => return ⟨none, none⟩
  | some r => return ⟨some r.objVal, some r.x⟩

end Grb
end Verif
