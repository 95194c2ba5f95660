import Verif.Model.Rounding
import Verif.Model.Pwa

/- Piecewise affine systems in floating point arithmetic; see `Model/Rounding`. -/
namespace Verif.Fl
open Finset Dyn

/-- one step of `simulate` of affine and piecewise affine systems (dynamics/discrete_time_systems.py:529; `AffineSystem.simulate` is the same with one system): `x'` is a
computed value of `A.dot(x) + B.dot(v) + c` -/
def AffStep (fl : ℝ → ℝ) (S : AffineSystem) (x v x' : ℕ → ℝ) : Prop :=
  ∃ y z : ℕ → ℝ, Mul fl S.A x y ∧ Mul fl S.B v z ∧ ∀ i < S.A.nr, x' i = fl (fl (y i + z i) + S.c.e i)

/-- `get_mode(x, u)` (dynamics/discrete_time_systems.py:533-556) may return `r`: `ans j` is the answer of domain `j`, the first `True` counts.  (The code does not
ask the domains after that one; what they would answer does not matter.) -/
def GetMode (fl : ℝ → ℝ) (P : PWA) (x u : Vec ℝ) (r : Option ℕ) : Prop :=
  ∃ ans : ℕ → Prop, (∀ j D, P.domains[j]? = some D → Contains fl D (x.append u) 1e-7 (ans j)) ∧
    match r with
    | some m => m < P.domains.length ∧ ans m ∧ ∀ j < m, ¬ ans j
    | none => ∀ j < P.domains.length, ¬ ans j

/-- the loop of `simulate(x0, us)` of a piecewise affine system (dynamics/discrete_time_systems.py:493-531): `y t` is the computed state at time `t` and `k t` the mode found there; with
`k t = none` the code raises `ValueError`, and the states after `t` do not matter -/
structure Run (fl : ℝ → ℝ) (P : PWA) (x0 : Vec ℝ) (us : List (Vec ℝ)) (y : ℕ → Vec ℝ) (k : ℕ → Option ℕ) : Prop where
  size : ∀ t, (y t).n = P.nx
  start : ∀ i < P.nx, (y 0).e i = x0.e i
  mode : ∀ t v, us[t]? = some v → GetMode fl P (y t) v (k t)
  step : ∀ t v m S, us[t]? = some v → k t = some m → P.affine_systems[m]? = some S → AffStep fl S (y t).e v.e (y (t + 1)).e

end Verif.Fl
