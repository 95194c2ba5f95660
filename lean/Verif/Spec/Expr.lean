import Mathlib.Analysis.SpecialFunctions.Trigonometric.Deriv
import Mathlib.Analysis.SpecialFunctions.ExpDeriv

/- Symbolic expressions and their values: the objects the symbolic constructors are called with. -/
namespace Verif.Spec

/-- expressions in symbols, which are numbered -/
inductive Expr where
  | num (r : ℝ)
  | sym (s : ℕ)
  | add (a b : Expr)
  | mul (a b : Expr)
  | pow (a : Expr) (n : ℕ)
  | sin (a : Expr)
  | cos (a : Expr)
  | exp (a : Expr)

/-- the value for given values of the symbols -/
noncomputable def Expr.eval (σ : ℕ → ℝ) : Expr → ℝ
  | .num r => r
  | .sym s => σ s
  | .add a b => a.eval σ + b.eval σ
  | .mul a b => a.eval σ * b.eval σ
  | .pow a n => a.eval σ ^ n
  | .sin a => Real.sin (a.eval σ)
  | .cos a => Real.cos (a.eval σ)
  | .exp a => Real.exp (a.eval σ)

/-- sums of multiples of the symbols in `X` and of numbers, in any arrangement -/
inductive Expr.IsAffine (X : List ℕ) : Expr → Prop
  | num (r : ℝ) : IsAffine X (.num r)
  | sym (s : ℕ) (h : s ∈ X) : IsAffine X (.sym s)
  | add {a b : Expr} (ha : IsAffine X a) (hb : IsAffine X b) : IsAffine X (.add a b)
  | mulLeft (r : ℝ) {a : Expr} (ha : IsAffine X a) : IsAffine X (.mul (.num r) a)
  | mulRight (r : ℝ) {a : Expr} (ha : IsAffine X a) : IsAffine X (.mul a (.num r))

end Verif.Spec
