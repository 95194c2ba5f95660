import Verif.Model.TestParametric
import Verif.Model.Programs

/- The test of the calls of the solvers, /repo/pympc/test/test_optimization/test_programs.py. -/
namespace Verif.TestSuite

/-- `self.assertTrue(mu is None)` or the comparison with the expected multipliers -/
noncomputable def checkEqMul (o mu : Option (Vec ℝ)) : Py Unit :=
  match mu with
  | none => assertTrue o.isNone
  | some m => assertArrayAlmostEqual o (some m)

/-- the five assertions on the answer of a solver (test_programs.py:22-40, 46-64, 79-97, 103-121) -/
noncomputable def checkSol (sol : Sol) (m : ℝ) (x : Vec ℝ) (active_set : List ℕ) (lam : Vec ℝ) (mu : Option (Vec ℝ)) : Py Unit := do
  assertAlmostEqualO sol.min m
  assertArrayAlmostEqual sol.argmin (some x)
  assertTrue (decide (sol.active_set = some active_set))
  assertArrayAlmostEqual sol.multiplier_inequality (some lam)
  checkEqMul sol.multiplier_equality mu

/-- `np.array([a, b])` -/
def vec2 (a b : ℝ) : Vec ℝ := ⟨2, fun i => if i = 0 then a else b⟩

/-- `-np.eye(2)` -/
def negEye : Mat ℝ := ⟨2, 2, fun i j => if i = j then -1 else 0⟩

/-- `C` of the linear program (test_programs.py:43) -/
def lpC : Mat ℝ := ⟨1, 2, fun _ j => if j = 0 then 2 else 1⟩

/-- `C` of the quadratic program (test_programs.py:100) -/
def qpC : Mat ℝ := ⟨1, 2, fun _ j => if j = 0 then 0 else 1⟩

/-- `test_linear_program` (test_programs.py:14-64) -/
noncomputable def test_linear_program (L : Lib) (G : Gurobi) (solver : String) : Py Unit := do
  let sol ← Programs.linear_program L G (Vec.ones 2) negEye (Vec.zeros 2) none none solver
  checkSol sol 0 (Vec.zeros 2) [0, 1] (Vec.ones 2) none
  let sol' ← Programs.linear_program L G (Vec.ones 2) negEye (Vec.zeros 2) (some lpC) (some (at1 2)) solver
  checkSol sol' 1 (vec2 1 0) [1] (vec2 0 0.5) (some (at1 (-0.5)))

/-- `test_quadratic_program` (test_programs.py:71-121) -/
noncomputable def test_quadratic_program (L : Lib) (G : Gurobi) (solver : String) : Py Unit := do
  let sol ← Programs.quadratic_program L G (Mat.eye 2) (Vec.ones 2) negEye (vec2 (-1) (-1)) none none solver
  checkSol sol 3 (vec2 1 1) [0, 1] (vec2 2 2) none
  let sol' ← Programs.quadratic_program L G (Mat.eye 2) (Vec.ones 2) negEye (vec2 (-1) (-1)) (some qpC) (some (at1 2)) solver
  checkSol sol' 5.5 (vec2 1 2) [0] (vec2 2 0) (some (at1 (-3)))

/-- `test_mixed_integer_quadratic_program_gurobi` (test_programs.py:128-167).  The test passes columns for `f`, `b` and `d`; here they are one dimensional. -/
noncomputable def test_miqp (G : Gurobi) : Py Unit := do
  let sol ← Programs.mixed_integer_quadratic_program G 1 (Mat.eye 2) (vec2 0 (-0.6)) (Mat.eye 2) (vec2 2 2) none none "gurobi"
  assertAlmostEqualO sol.min (-0.1)
  assertArrayAlmostEqual sol.argmin (some (vec2 0 1))
  let sol' ← Programs.mixed_integer_quadratic_program G 1 (Mat.eye 2) (vec2 0 (-0.6)) (Mat.eye 2) (vec2 2 2)
    (some ⟨1, 2, fun _ j => if j = 0 then 1 else -1⟩) (some (at1 0)) "gurobi"
  assertAlmostEqualO sol'.min 0
  assertArrayAlmostEqual sol'.argmin (some (Vec.zeros 2))
  let sol'' ← Programs.mixed_integer_quadratic_program G 1 (Mat.eye 2) (vec2 0 (-0.6)) (Mat.eye 2) (vec2 2 2)
    (some ⟨1, 2, fun _ _ => 1⟩) (some (at1 5)) "gurobi"
  assertTrue sol''.min.isNone
  assertTrue sol''.argmin.isNone

end Verif.TestSuite
