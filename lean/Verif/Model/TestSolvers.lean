import Verif.Model.TestPrograms

/- The tests of the solvers, /repo/pympc/test/test_optimization/test_solvers.py. -/
namespace Verif.TestSuite

/-- `for value in sol.values(): self.assertTrue(value is None)` -/
def checkNone (sol : Sol) : Py Unit :=
  assertTrue (sol.min.isNone && sol.argmin.isNone && sol.active_set.isNone && sol.multiplier_inequality.isNone && sol.multiplier_equality.isNone)

/-- `v[i]` for a `v` that may be `None` -/
def entryOf (v : Option (Vec ℝ)) (i : ℕ) : Py ℝ :=
  match v with
  | none => .error .typeError
  | some v => if i < v.n then .ok (v.e i) else .error .indexError

/-- `self.assertTrue(i in active_set)`, a `TypeError` for `None` -/
def assertIn (i : ℕ) (active_set : Option (List ℕ)) : Py Unit :=
  match active_set with
  | none => .error .typeError
  | some l => assertTrue (decide (i ∈ l))

/-- the assertions on an answer of which only one entry of `argmin` is checked (test_solvers.py:139-157, 228-248, 309-329) -/
noncomputable def checkEntry (sol : Sol) (m : ℝ) (i : ℕ) (xi : ℝ) (active_set : List ℕ) (lam : Vec ℝ) : Py Unit := do
  assertAlmostEqualO sol.min m
  let v ← entryOf sol.argmin i
  assertAlmostEqual v xi
  assertTrue (decide (sol.active_set = some active_set))
  assertArrayAlmostEqual sol.multiplier_inequality (some lam)
  assertTrue sol.multiplier_equality.isNone

/-- `np.array([[1., 0.],[-1., 0.]])` -/
def thinA : Mat ℝ := ⟨2, 2, fun i j => if j = 0 then (if i = 0 then 1 else -1) else 0⟩

/-- `test_quadratic_programming_solver` (test_solvers.py:255-329) -/
noncomputable def test_qp_solver (qp : Mat ℝ → Vec ℝ → Mat ℝ → Vec ℝ → Option (Mat ℝ) → Option (Vec ℝ) → Py Sol) : Py Unit := do
  let sol1 ← qp (Mat.eye 2) (Vec.ones 2) negEye (vec2 (-1) (-1)) none none
  checkSol sol1 3 (vec2 1 1) [0, 1] (vec2 2 2) none
  let sol2 ← qp (Mat.eye 2) (Vec.ones 2) negEye (vec2 (-1) (-1)) (some qpC) (some (at1 2))
  checkSol sol2 5.5 (vec2 1 2) [0] (vec2 2 0) (some (at1 (-3)))
  let sol3 ← qp (Mat.eye 2) (Vec.ones 2) negEye (vec2 (-1) (-1)) (some qpC) (some (at1 (-2)))
  checkNone sol3
  let sol4 ← qp (Mat.eye 2) (Vec.zeros 2) thinA (vec2 1 (-1)) none none
  checkEntry sol4 0.5 0 1 [1] (vec2 0 1)

/-- `np.array([[1.,0.],[-1.,0.],[0.,1.],[0.,-1.]])` (test_solvers.py:16) -/
def boxA : Mat ℝ := ⟨4, 2, fun i j => if i / 2 = j then (if i % 2 = 0 then 1 else -1) else 0⟩

/-- the matrix of the infeasible program (test_solvers.py:86) -/
def infA : Mat ℝ := ⟨2, 2, fun i j => if j = 1 then (if i = 0 then 1 else -1) else 0⟩

/-- the matrix of the unbounded programs (test_solvers.py:93) -/
def unbA : Mat ℝ := ⟨3, 2, fun i j => if j = 0 then (if i = 0 then 1 else 0) else (if i = 1 then 1 else if i = 2 then -1 else 0)⟩

/-- `np.array([a, b, c])` -/
def vec3 (a b c : ℝ) : Vec ℝ := ⟨3, fun i => if i = 0 then a else if i = 1 then b else c⟩

/-- the matrix of the programs in three dimensions (test_solvers.py:160-170): the nine rows -/
def ballA : Mat ℝ := ⟨9, 3, fun i j =>
  if i = 8 then (if j = 0 then 1 else 0)
  else if j = 0 then (if i = 1 ∨ i = 4 ∨ i = 6 ∨ i = 7 then -1 else 1)
  else if j = 1 then (if i = 2 ∨ i = 4 ∨ i = 5 ∨ i = 7 then -1 else 1)
  else (if i = 3 ∨ i = 5 ∨ i = 6 ∨ i = 7 then -1 else 1)⟩

/-- its right-hand side (test_solvers.py:171) -/
noncomputable def ballB : Vec ℝ := ⟨9, fun i => if i = 8 then 0.5 else 1⟩

/-- `test_linear_programming_solver`, the programs in two dimensions (test_solvers.py:13-157) -/
noncomputable def lpPlane (lp : Vec ℝ → Mat ℝ → Vec ℝ → Option (Mat ℝ) → Option (Vec ℝ) → Py Sol) : Py Unit := do
  let sol1 ← lp (Vec.ones 2) boxA ⟨4, fun i => if i < 2 then 5 else 1⟩ none none
  checkSol sol1 (-6) (vec2 (-5) (-1)) [1, 3] ⟨4, fun i => if i = 1 ∨ i = 3 then 1 else 0⟩ none
  let sol2 ← lp (Vec.ones 2) negEye (Vec.zeros 2) none none
  checkSol sol2 0 (Vec.zeros 2) [0, 1] (Vec.ones 2) none
  let sol3 ← lp (Vec.ones 2) negEye (Vec.zeros 2) (some lpC) (some (at1 2))
  checkSol sol3 1 (vec2 1 0) [1] (vec2 0 0.5) (some (at1 (-0.5)))
  let sol4 ← lp (Vec.ones 2) infA (vec2 0 (-1)) none none
  checkNone sol4
  let sol5 ← lp (Vec.ones 2) unbA (vec3 0 0 1) none none
  checkNone sol5
  let sol6 ← lp (Vec.ones 2) unbA (vec3 0 0 1) (some qpC) (some (at1 (-0.1)))
  checkNone sol6
  let sol7 ← lp (Vec.ones 2) unbA (vec3 0 0 1) (some ⟨1, 2, fun _ j => if j = 0 then 1 else -1⟩) (some (at1 0))
  checkSol sol7 (-2) (vec2 (-1) (-1)) [2] (vec3 0 0 2) (some (at1 (-1)))
  let sol8 ← lp (vec2 0 1) ⟨1, 2, fun _ j => if j = 1 then -1 else 0⟩ (Vec.zeros 1) none none
  checkEntry sol8 0 1 0 [0] (at1 1)

/-- the programs in three dimensions (test_solvers.py:159-226) -/
noncomputable def lpBall (lp : Vec ℝ → Mat ℝ → Vec ℝ → Option (Mat ℝ) → Option (Vec ℝ) → Py Sol) : Py Unit := do
  let sol1 ← lp (vec3 (-1) 0 0) ballA ballB none none
  assertAlmostEqualO sol1.min (-0.5)
  let v ← entryOf sol1.argmin 0
  assertAlmostEqual v 0.5
  assertIn 8 sol1.active_set
  assertArrayAlmostEqual sol1.multiplier_inequality (some ⟨9, fun i => if i = 8 then 1 else 0⟩)
  assertTrue sol1.multiplier_equality.isNone
  let sol2 ← lp (vec3 (-1) (-0.1) 0) ballA ballB none none
  checkSol sol2 (-0.55) (vec3 0.5 0.5 0) [0, 3, 8] ⟨9, fun i => if i = 0 ∨ i = 3 then 0.05 else if i = 8 then 0.9 else 0⟩ none
  let sol3 ← lp (vec3 1 1 0) ballA ballB none none
  assertAlmostEqualO sol3.min (-1)
  let x0 ← entryOf sol3.argmin 0
  let x1 ← entryOf sol3.argmin 1
  assertAlmostEqual (x0 + x1) (-1)
  assertIn 4 sol3.active_set
  assertIn 7 sol3.active_set
  let l4 ← entryOf sol3.multiplier_inequality 4
  assertAlmostEqual l4 0.5
  let l7 ← entryOf sol3.multiplier_inequality 7
  assertAlmostEqual l7 0.5
  assertTrue sol3.multiplier_equality.isNone

/-- `test_linear_programming_solver` (test_solvers.py:13-248) -/
noncomputable def test_lp_solver (lp : Vec ℝ → Mat ℝ → Vec ℝ → Option (Mat ℝ) → Option (Vec ℝ) → Py Sol) : Py Unit := do
  lpPlane lp
  lpBall lp
  let sol ← lp (vec2 1 0) thinA (Vec.zeros 2) none none
  checkEntry sol 0 0 0 [1] (vec2 0 1)

end Verif.TestSuite
