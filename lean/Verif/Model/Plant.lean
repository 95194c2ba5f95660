import Verif.Model.Voronoi
import Verif.Model.Pwa
import Verif.Spec.Dyn
import Mathlib.Analysis.Calculus.FDeriv.Basic
import Mathlib.Analysis.Normed.Module.FiniteDimension

/- Model of `pwa_from_RigidBodyPlant` of /repo/examples/pwa_from_urdf/utils.py (159-206). -/
namespace Verif
namespace Plant
open Dyn Voronoi

/-- the vector field of a plant with `nx` states and one input -/
abbrev Field (nx : ℕ) := (Fin nx → ℝ) × (Fin 1 → ℝ) → Fin nx → ℝ

/-- the first order approximation of the field `f` with derivative `J` at the state `p` and input zero, as a function of state and input -/
def linearized {nx : ℕ} (f : Field nx) (J : (Fin nx → ℝ) × (Fin 1 → ℝ) →L[ℝ] (Fin nx → ℝ)) (p x u : ℕ → ℝ) (i : Fin nx) : ℝ :=
  f (fun k => p k, 0) i + J (fun k => x k - p k, fun k => u k) i

/-- `state.SetFromVector(x)`, `FirstOrderTaylorApproximation(plant, context)` and its attributes `A()`, `B()`, `f0()` (utils.py:195-200), for the context of
lines 187-190, in which the input is zero -/
structure Taylor where
  approx : Vec ℝ → Py (Mat ℝ × Mat ℝ × Vec ℝ)

/-- Contract: at states where the field is differentiable the answer is its first order approximation. -/
structure TaylorSpec {nx : ℕ} (f : Field nx) (T : Taylor) : Prop where
  answers : ∀ p : Vec ℝ, p.n = nx → ∀ J, HasFDerivAt f J (fun k => p.e k, 0) → ∃ A B c, T.approx p = .ok (A, B, c) ∧ Spec.SystemShape nx 1 A B c ∧
    ∀ (x u : ℕ → ℝ) (i : Fin nx), Spec.affine A B c x u i = linearized f J p.e x u i

/-- one affine system (utils.py:195-203) -/
noncomputable def systemAt (T : Taylor) (h : ℝ) (method : Method) (x : Vec ℝ) : Py AffineSystem := do
  let (A, B, f0) ← T.approx x
  AffineSystem.from_continuous A B (.d1 f0) h method

/-- `pwa_from_RigidBodyPlant(plant, linearization_points, X, U, h, method)` (utils.py:159-206) -/
noncomputable def pwa_from_RigidBodyPlant (V : Vor) (T : Taylor) (points : List (Vec ℝ)) (X : Option Poly) (U : Poly) (h : ℝ)
    (method : Method := .zeroOrderHold) : Py PWA := do
  let X_partition ← constrained_voronoi V points X
  let domains ← X_partition.mapM fun Xi => Xi.cartesian_product U
  let affine_systems ← points.mapM (systemAt T h method)
  PWA.init (affine_systems.map .aff) domains

end Plant
end Verif
