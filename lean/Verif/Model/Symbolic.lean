import Verif.Spec.Expr
import Verif.Model.Polyhedron
import Verif.Model.Systems

/- Model of the symbolic constructors: /repo/pympc/geometry/polyhedron.py (88-100, 127-139, 338-360, 921-939) and
/repo/pympc/dynamics/discrete_time_systems.py (233-283, 393-432, 752-776). -/
namespace Verif
open Spec (Expr)

namespace Sympy

/-- `a + b` in sympy, which evaluates sums with numbers -/
noncomputable def mkAdd : Expr → Expr → Expr
  | .num r, .num s => .num (r + s)
  | .num r, b => if r = 0 then b else .add (.num r) b
  | a, .num s => if s = 0 then a else .add a (.num s)
  | a, b => .add a b

/-- `a * b` in sympy, which evaluates products with numbers -/
noncomputable def mkMul : Expr → Expr → Expr
  | .num r, .num s => .num (r * s)
  | .num r, b => if r = 0 then .num 0 else if r = 1 then b else .mul (.num r) b
  | a, .num s => if s = 0 then .num 0 else if s = 1 then a else .mul a (.num s)
  | a, b => .mul a b

/-- `diff(e, s)` -/
noncomputable def diff (s : ℕ) : Expr → Expr
  | .num _ => .num 0
  | .sym t => .num (if t = s then 1 else 0)
  | .add a b => mkAdd (diff s a) (diff s b)
  | .mul a b => mkAdd (mkMul (diff s a) b) (mkMul a (diff s b))
  | .pow a n => mkMul (mkMul (.num n) (.pow a (n - 1))) (diff s a)
  | .sin a => mkMul (.cos a) (diff s a)
  | .cos a => mkMul (mkMul (.num (-1)) (.sin a)) (diff s a)
  | .exp a => mkMul (.exp a) (diff s a)

/-- `e.subs({xi: 0 for xi in X})` -/
noncomputable def subs0 (X : List ℕ) : Expr → Expr
  | .num r => .num r
  | .sym t => if t ∈ X then .num 0 else .sym t
  | .add a b => mkAdd (subs0 X a) (subs0 X b)
  | .mul a b => mkMul (subs0 X a) (subs0 X b)
  | .pow a n => .pow (subs0 X a) n
  | .sin a => .sin (subs0 X a)
  | .cos a => .cos (subs0 X a)
  | .exp a => .exp (subs0 X a)

/-- `float(e)`, as used by `.astype(np.float64)` -/
structure Conv where
  float : Expr → Py ℝ

/-- Contract of `float`: numbers are converted; an answer is the value of the expression for all values of the symbols (sympy may simplify before
the conversion); otherwise `TypeError`. -/
structure ConvSpec (F : Conv) : Prop where
  num : ∀ r, F.float (.num r) = .ok r
  sound : ∀ e r, F.float e = .ok r → ∀ σ, e.eval σ = r
  error : ∀ e err, F.float e = .error err → err = .typeError

/-- `np.array(expr.jacobian(x)).astype(np.float64)` for lists of expressions and of symbols.  Neither list is empty in sympy. -/
noncomputable def jacobian (F : Conv) (X : List ℕ) (expr : List Expr) : Py (Mat ℝ) := do
  let rows ← expr.mapM fun e => X.mapM fun s => F.float (diff s e)
  return ⟨expr.length, X.length, fun i j => (rows.getD i []).getD j 0⟩

/-- `np.array(expr.subs({xi: 0 for xi in X})).astype(np.float64).flatten()` -/
noncomputable def atZero (F : Conv) (X : List ℕ) (expr : List Expr) : Py (Vec ℝ) := do
  let v ← expr.mapM fun e => F.float (subs0 X e)
  return ⟨expr.length, fun i => v.getD i 0⟩

end Sympy

open Sympy

/-- `get_matrices_affine_expression(x, expr)` (polyhedron.py:921-939) -/
noncomputable def get_matrices_affine_expression (F : Conv) (x : List ℕ) (expr : List Expr) : Py (Mat ℝ × Vec ℝ) := do
  let A ← jacobian F x expr
  let b ← atZero F x expr
  return (A, b.neg)

namespace Poly

/-- `from_symbolic(x, ineq, eq)` (polyhedron.py:338-360) -/
noncomputable def from_symbolic (F : Conv) (x : List ℕ) (ineq : List Expr) (eq : Option (List Expr) := none) : Py Poly := do
  let (A, b) ← get_matrices_affine_expression F x ineq
  let p ← init A (.d1 b)
  match eq with
  | none => return p
  | some eq => do
    let (C, d) ← get_matrices_affine_expression F x eq
    runOn p (add_equality C (.d1 d))

/-- `add_symbolic_inequality(x, ineq)` (polyhedron.py:88-100) -/
noncomputable def add_symbolic_inequality (F : Conv) (x : List ℕ) (ineq : List Expr) : PyM Poly Unit := do
  let (A, b) ← PyM.lift (get_matrices_affine_expression F x ineq)
  add_inequality A (.d1 b)

/-- `add_symbolic_equality(x, eq)` (polyhedron.py:127-139) -/
noncomputable def add_symbolic_equality (F : Conv) (x : List ℕ) (eq : List Expr) : PyM Poly Unit := do
  let (C, d) ← PyM.lift (get_matrices_affine_expression F x eq)
  add_equality C (.d1 d)

end Poly

namespace Dyn

/-- `get_state_transition_matrices(x, u, x_next)` (discrete_time_systems.py:752-776) -/
noncomputable def get_state_transition_matrices (F : Conv) (x u : List ℕ) (x_next : List Expr) : Py (Mat ℝ × Mat ℝ × Vec ℝ) := do
  let A ← jacobian F x x_next
  let B ← jacobian F u x_next
  let c ← atZero F (x ++ u) x_next
  return (A, B, c)

/-- `AffineSystem.from_symbolic(x, u, x_next)` (discrete_time_systems.py:393-408) -/
noncomputable def AffineSystem.from_symbolic (F : Conv) (x u : List ℕ) (x_next : List Expr) : Py AffineSystem := do
  let (A, B, c) ← get_state_transition_matrices F x u x_next
  AffineSystem.init A B (.d1 c)

/-- `AffineSystem.from_symbolic_continuous(x, u, x_dot, h, method)` (discrete_time_systems.py:410-432) -/
noncomputable def AffineSystem.from_symbolic_continuous (F : Conv) (x u : List ℕ) (x_dot : List Expr) (h : ℝ) (method : Method) :
    Py AffineSystem := do
  let (A, B, c) ← get_state_transition_matrices F x u x_dot
  AffineSystem.from_continuous A B (.d1 c) h method

/-- `if not np.allclose(c, np.zeros(x.shape[0])): raise ValueError` (discrete_time_systems.py:252-253, 280-281): `|c - 0| <= 1e-8 + 1e-5 * 0`.
For different sizes numpy raises `ValueError`, except if one of them is one; then the matrix `A` is not square and the constructor raises the same
exception. -/
noncomputable def checkNoOffset (c : Vec ℝ) (n : ℕ) : Py Unit :=
  if c.n = n ∧ ∀ i < c.n, |c.e i| ≤ 1e-8 then .ok () else .error .valueError

/-- `LinearSystem.from_symbolic(x, u, x_next)` (discrete_time_systems.py:233-255) -/
noncomputable def LinearSystem.from_symbolic (F : Conv) (x u : List ℕ) (x_next : List Expr) : Py LinearSystem := do
  let (A, B, c) ← get_state_transition_matrices F x u x_next
  checkNoOffset c x.length
  LinearSystem.init A B

/-- `LinearSystem.from_symbolic_continuous(x, u, x_dot, h, method)` (discrete_time_systems.py:257-283) -/
noncomputable def LinearSystem.from_symbolic_continuous (F : Conv) (x u : List ℕ) (x_dot : List Expr) (h : ℝ) (method : Method) :
    Py LinearSystem := do
  let (A, B, c) ← get_state_transition_matrices F x u x_dot
  checkNoOffset c x.length
  LinearSystem.from_continuous A B h method

end Dyn
end Verif
