import Verif.Model.Pnnls

/-
Model of `/repo/pympc/optimization/solvers/drake.py` (the module is complete but its import is
commented out in programs.py:7).  The result of `prog.Solve()` / `prog.GetSolution(x)` is a
parameter `found : Option (Vec ℝ)` (`none` when no solution is found).
-/
namespace Verif.Drake
open Classical

/-- `np.where(r > -tol)[0].tolist()` with `r = A.dot(x) - b` (drake.py:80, 172) -/
noncomputable def nearWhere (r : Vec ℝ) (tol : ℝ) : List ℕ :=
  (List.range r.n).filter fun i => decide (r.e i > -tol)

/-- `v = np.zeros(n); for i, j in enumerate(act): v[j] = m[i]` (drake.py:87-89, 183-185) -/
noncomputable def scatter (n : ℕ) (act : List ℕ) (m : Vec ℝ) : Vec ℝ :=
  ⟨n, fun j => if j ∈ act then m.e (act.idxOf j) else 0⟩

/-- `if n_eq > 0: lhs = np.vstack((lhs, C)); rhs = np.concatenate((rhs, d))` (drake.py:177-179) -/
def stackActive (lhs0 : Mat ℝ) (rhs0 : Vec ℝ) (C : Option (Mat ℝ)) (d : Option (Vec ℝ))
    (n_eq : ℕ) : Py (Mat ℝ × Vec ℝ) :=
  match C, d with
  | some C, some d =>
    if n_eq > 0 then do
      let l ← np.vstack [lhs0, C]
      let r ← np.concatenate [rhs0, d]
      return (l, r)
    else .ok (lhs0, rhs0)
  | _, _ => .ok (lhs0, rhs0)

/-- the multipliers of `quadratic_program` (drake.py:169-187) from the solution found -/
noncomputable def qpFill (H : Mat ℝ) (f : Vec ℝ) (A : Mat ℝ) (b : Vec ℝ)
    (C : Option (Mat ℝ)) (d : Option (Vec ℝ)) (n_eq : ℕ) (x : Vec ℝ) (tol : ℝ) : Py Sol := do
  let xH ← np.dotVM x H
  let xHx ← np.dotVV xH x
  let fx ← np.dotVV f x
  let Ax ← np.dotMV A x
  let r ← np.subV Ax b
  let act := nearWhere r tol
  let lhs0 ← np.rows A act
  let rhs0 ← np.take b act
  let lr ← stackActive lhs0 rhs0 C d n_eq
  let lhs := lr.1
  let rhs := lr.2
  let H_inv ← np.inv H
  let lH ← np.dotMM lhs H_inv
  let M ← np.dotMM lH lhs.T
  let M_inv ← np.inv M
  let lHf ← np.dotMV lH f
  let g ← np.addV lHf rhs
  let m0 ← np.dotMV M_inv g
  let m := m0.neg
  return ⟨some (1 / 2 * xHx + fx), some x, some act, some (scatter A.nr act m),
    if n_eq > 0 then some (m.dropN act.length) else none⟩

/-- `quadratic_program` (drake.py:95-189), `tol=1.e-5` -/
noncomputable def quadratic_program (found : Option (Vec ℝ)) (H : Mat ℝ) (f : Vec ℝ) (A : Mat ℝ)
    (b : Vec ℝ) (C : Option (Mat ℝ)) (d : Option (Vec ℝ)) (tol : ℝ := 1e-5) : Py Sol :=
  if (C.isNone) ≠ (d.isNone) then .error .valueError
  else
    let n_eq := match C with | some C => C.nr | none => 0
    match found with
    | none => .ok Sol.none
    | some x => qpFill H f A b C d n_eq x tol

/-- `if n_eq > 0: M = np.hstack((M, C.T))` (drake.py:84-85) -/
def hstackActive (M : Mat ℝ) (C : Option (Mat ℝ)) (n_eq : ℕ) : Py (Mat ℝ) :=
  match C with
  | some C => if n_eq > 0 then np.hstack [M, C.T] else .ok M
  | none => .ok M

/-- the multipliers of `linear_program` (drake.py:77-91) from the solution found -/
noncomputable def lpFill (L : Lib) (f : Vec ℝ) (A : Mat ℝ) (b : Vec ℝ)
    (C : Option (Mat ℝ)) (n_eq : ℕ) (x : Vec ℝ) (tol : ℝ) : Py Sol := do
  let fx ← np.dotVV f x
  let Ax ← np.dotMV A x
  let r ← np.subV Ax b
  let act := nearWhere r tol
  let rows ← np.rows A act
  let M ← hstackActive rows.T C n_eq
  let m0 ← np.dotMV (L.pinv M) f
  let m := m0.neg
  return ⟨some fx, some x, some act, some (scatter A.nr act m),
    if n_eq > 0 then some (m.dropN act.length) else none⟩

/-- `linear_program` (drake.py:6-93), `tol=1.e-5` -/
noncomputable def linear_program (L : Lib) (found : Option (Vec ℝ)) (f : Vec ℝ) (A : Mat ℝ)
    (b : Vec ℝ) (C : Option (Mat ℝ)) (d : Option (Vec ℝ)) (tol : ℝ := 1e-5) : Py Sol :=
  if (C.isNone) ≠ (d.isNone) then .error .valueError
  else
    let n_eq := match C with | some C => C.nr | none => 0
    match found with
    | none => .ok Sol.none
    | some x => lpFill L f A b C n_eq x tol

end Verif.Drake
