import Mathlib.Data.Real.Basic

/- One step of the explicit Euler method for the mechanical systems of the notebooks `hybrid_mpc.ipynb` and `hybrid_mpc_2.ipynb`, linearised
around the upright position.  The walls are one-sided linear springs. -/
namespace Verif.Spec

/-- the angular acceleration of a pendulum with mass `m` and length `l` under gravity `g` and the torque `u`, with a spring of stiffness `k` that
pushes the tip when its displacement `l θ` exceeds `d` -/
noncomputable def pendulumAcceleration (m l g k d θ u : ℝ) : ℝ := (m * g * l * θ + u - l * (k * max (l * θ - d) 0)) / (m * l ^ 2)

/-- the angular acceleration of the pole of a cart-pole with masses `mc` and `mp` and length `l`, under gravity `g` and the force `u` on the cart,
with walls of stiffness `k` at distance `d` on either side of the origin that push the tip, which is at `x - l θ` -/
noncomputable def poleAcceleration (mc mp l g k d x θ u : ℝ) : ℝ :=
  g * (mc + mp) / (l * mc) * θ + u / (l * mc) + (k * max (x - l * θ - d) 0 - k * max (-d - (x - l * θ)) 0) / (l * mp)

end Verif.Spec
