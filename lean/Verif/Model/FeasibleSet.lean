import Verif.Model.MpQP
import Verif.Model.Projection

/- Model of the projection in `/repo/pympc/optimization/parametric_programs.py`. -/
namespace Verif
namespace MpQP

/-- `get_feasible_set()` (parametric_programs.py:243-260); `none` when the projection runs out of fuel. -/
noncomputable def get_feasible_set (L : Lib) (Q : Qhull) (rand : List (Vec ℝ) → Vec ℝ) (fuel : ℕ) (q : MpQP) : Py (Option Poly) := do
  let A ← np.hstack [q.Ax, q.Au]
  let p ← Poly.init A (.d1 q.b)
  (Poly.project_to L Q rand fuel (List.range q.Ax.nc) p).1

end MpQP
end Verif
