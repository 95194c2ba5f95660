import Verif.Np.Array
import Mathlib.Analysis.SpecialFunctions.Pow.Real

/- Specification of least squares problems, linear programs and quadratic programs: plain sums, no
reference to the model of the code. -/
namespace Verif.Spec
open Finset

/-- `∑ (A v + B u - c)_i^2` -/
def lsResidual (A B : Mat ℝ) (c v u : Vec ℝ) : ℝ :=
  ∑ i ∈ range c.n,
    (∑ j ∈ range A.nc, A.e i j * v.e j + ∑ j ∈ range B.nc, B.e i j * u.e j - c.e i) ^ 2

/-- `A x ≤ b` -/
def Ineqs (A : Mat ℝ) (b x : Vec ℝ) : Prop :=
  ∀ i < A.nr, ∑ j ∈ range A.nc, A.e i j * x.e j ≤ b.e i

/-- `C x = d`, nothing when `C`, `d` are omitted -/
def Eqs : Option (Mat ℝ) → Option (Vec ℝ) → Vec ℝ → Prop
  | some C, some d, x => ∀ i < C.nr, ∑ j ∈ range C.nc, C.e i j * x.e j = d.e i
  | _, _, _ => True

/-- feasible points of the program with constraints `A x ≤ b`, `C x = d` -/
def Feasible (A : Mat ℝ) (b : Vec ℝ) (C : Option (Mat ℝ)) (d : Option (Vec ℝ)) (x : Vec ℝ) : Prop :=
  Ineqs A b x ∧ Eqs C d x

/-- `A x ≤ b + ε`, `|C x - d| ≤ ε` -/
def FeasibleTol (ε : ℝ) (A : Mat ℝ) (b : Vec ℝ) (C : Option (Mat ℝ)) (d : Option (Vec ℝ))
    (x : Vec ℝ) : Prop :=
  (∀ i < A.nr, ∑ j ∈ range A.nc, A.e i j * x.e j ≤ b.e i + ε) ∧
  match C, d with
  | some C, some d => ∀ i < C.nr, |∑ j ∈ range C.nc, C.e i j * x.e j - d.e i| ≤ ε
  | _, _ => True

/-- the data have compatible sizes: `n` variables -/
def ConstrShape (n : ℕ) (A : Mat ℝ) (b : Vec ℝ) : Option (Mat ℝ) → Option (Vec ℝ) → Prop
  | some C, some d => A.nc = n ∧ b.n = A.nr ∧ C.nc = n ∧ d.n = C.nr
  | none, none => A.nc = n ∧ b.n = A.nr
  | _, _ => False

/-- there is at least one inequality or equality -/
def HasConstr (A : Mat ℝ) (C : Option (Mat ℝ)) : Prop := 0 < A.nr ∨ ∃ C', C = some C' ∧ 0 < C'.nr

/-- `f x` -/
def lpCost (f x : Vec ℝ) : ℝ := ∑ j ∈ range f.n, f.e j * x.e j

/-- `x` is an optimal solution of `min f x s.t. A x ≤ b, C x = d` -/
def IsLpOpt (f : Vec ℝ) (A : Mat ℝ) (b : Vec ℝ) (C : Option (Mat ℝ)) (d : Option (Vec ℝ))
    (x : Vec ℝ) : Prop :=
  Feasible A b C d x ∧ ∀ x', Feasible A b C d x' → lpCost f x ≤ lpCost f x'

/-- `1/2 x H x + f x` -/
noncomputable def qpCost (H : Mat ℝ) (f x : Vec ℝ) : ℝ :=
  1 / 2 * ∑ i ∈ range H.nr, ∑ j ∈ range H.nc, x.e i * H.e i j * x.e j
    + ∑ j ∈ range f.n, f.e j * x.e j

/-- gradient of `1/2 x H x + f x` for a symmetric `H` -/
def qpGrad (H : Mat ℝ) (f x : Vec ℝ) (j : ℕ) : ℝ := ∑ k ∈ range H.nc, H.e j k * x.e k + f.e j

/-- `x` is an optimal solution of `min 1/2 x H x + f x s.t. A x ≤ b, C x = d` -/
def IsQpOpt (H : Mat ℝ) (f : Vec ℝ) (A : Mat ℝ) (b : Vec ℝ) (C : Option (Mat ℝ))
    (d : Option (Vec ℝ)) (x : Vec ℝ) : Prop :=
  Feasible A b C d x ∧ ∀ x', Feasible A b C d x' → qpCost H f x ≤ qpCost H f x'

/-- `∑_i mu_i C_ij`, zero when there are no equalities -/
def eqGrad : Option (Mat ℝ) → Option (Vec ℝ) → ℕ → ℝ
  | some C, some mu, j => ∑ i ∈ range C.nr, mu.e i * C.e i j
  | _, _, _ => 0

/-- `∑_i d_i mu_i`, zero when there are no equalities -/
def eqValue : Option (Vec ℝ) → Option (Vec ℝ) → ℝ
  | some d, some mu => ∑ i ∈ range d.n, d.e i * mu.e i
  | _, _ => 0

/-- Stationarity, sign and complementarity conditions at `x` for a cost with gradient `g` at `x` and
multipliers `lam` (inequalities) and `mu` (equalities). -/
structure KKT (g : ℕ → ℝ) (A : Mat ℝ) (b : Vec ℝ) (C : Option (Mat ℝ)) (x lam : Vec ℝ)
    (mu : Option (Vec ℝ)) : Prop where
  size : lam.n = A.nr
  sizeEq : ∀ C', C = some C' → 0 < C'.nr → ∃ m, mu = some m ∧ m.n = C'.nr
  stat : ∀ j < A.nc, g j + ∑ i ∈ range A.nr, lam.e i * A.e i j + eqGrad C mu j = 0
  nonneg : ∀ i < A.nr, 0 ≤ lam.e i
  compl : ∀ i < A.nr, lam.e i * (b.e i - ∑ j ∈ range A.nc, A.e i j * x.e j) = 0

/-- linear independence of the gradients of the constraints active at `x` -/
def ActiveIndep (n : ℕ) (A : Mat ℝ) (b : Vec ℝ) (C : Option (Mat ℝ)) (x : Vec ℝ) : Prop :=
  ∀ lam mu : Vec ℝ, (∀ i < A.nr, lam.e i ≠ 0 → ∑ j ∈ range A.nc, A.e i j * x.e j = b.e i) →
    (∀ j < n, ∑ i ∈ range A.nr, lam.e i * A.e i j + eqGrad C (some mu) j = 0) →
    (∀ i < A.nr, lam.e i = 0) ∧ ∀ C', C = some C' → ∀ i < C'.nr, mu.e i = 0

/-- entries of magnitude at most `ε` replaced by zero -/
noncomputable def drop (ε a : ℝ) : ℝ := open Classical in if |a| > ε then a else 0
noncomputable def dropM (ε : ℝ) (A : Mat ℝ) : Mat ℝ := ⟨A.nr, A.nc, fun i j => drop ε (A.e i j)⟩
noncomputable def dropV (ε : ℝ) (b : Vec ℝ) : Vec ℝ := ⟨b.n, fun i => drop ε (b.e i)⟩

/-- every entry is zero or of magnitude larger than `ε` -/
def NoTinyM (ε : ℝ) (A : Mat ℝ) : Prop := ∀ i < A.nr, ∀ j < A.nc, A.e i j = 0 ∨ ε < |A.e i j|
def NoTinyV (ε : ℝ) (b : Vec ℝ) : Prop := ∀ i < b.n, b.e i = 0 ∨ ε < |b.e i|

/-- the coordinates from `nc` to `n` are binary -/
def BinaryFrom (nc n : ℕ) (x : Vec ℝ) : Prop := ∀ j < n, nc ≤ j → x.e j = 0 ∨ x.e j = 1

/-- `H` is a symmetric positive definite `n × n` matrix -/
structure SymPosDef (n : ℕ) (H : Mat ℝ) : Prop where
  nr : H.nr = n
  nc : H.nc = n
  symm : ∀ i < n, ∀ j < n, H.e i j = H.e j i
  pos : ∀ x : ℕ → ℝ, (∃ i < n, x i ≠ 0) →
    0 < ∑ i ∈ range n, ∑ j ∈ range n, x i * H.e i j * x j

end Verif.Spec
