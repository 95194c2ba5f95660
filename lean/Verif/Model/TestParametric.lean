import Verif.Model.FeasibleSet
import Verif.Model.TestSuite

/- The test of the multiparametric programs, /repo/pympc/test/test_optimization/test_parametric_programs.py. -/
namespace Verif.TestSuite

/-- `self.assertAlmostEqual(a, b)`: the difference rounded to seven digits is zero.  The arrays with one entry that the test passes are numbers here. -/
noncomputable def assertAlmostEqual (a b : ℝ) : Py Unit := assertTrue (decide (|a - b| ≤ 5e-8))

/-- `self.assertAlmostEqual(a, b)` with an `a` that may be `None`, which cannot be subtracted -/
noncomputable def assertAlmostEqualO (a : Option ℝ) (b : ℝ) : Py Unit :=
  match a with
  | some a => assertAlmostEqual a b
  | none => .error .typeError

/-- `np.testing.assert_array_almost_equal(a, b)` on one dimensional arrays (six digits).  An array and `None` are not almost equal. -/
noncomputable def assertArrayAlmostEqual (a b : Option (Vec ℝ)) : Py Unit :=
  match a, b with
  | some a, some b => assertTrue (decide (a.n = b.n ∧ ∀ i < a.n, |a.e i - b.e i| < 1.5e-6))
  | _, _ => .error .assertionError

/-- an attribute of a region that may be `None` -/
def got (o : Option CritReg) : Py CritReg :=
  match o with
  | some cr => .ok cr
  | none => .error .attributeError

/-- `np.array([x])` -/
def at1 (x : ℝ) : Vec ℝ := ⟨1, fun _ => x⟩

/-- the program (test_parametric_programs.py:18-30): `u²/2` under `u - x ≤ 1`, `-u + x ≤ 1`, `x ≤ 2`, `-x ≤ 2` -/
noncomputable def mpqp : Py MpQP :=
  MpQP.init ⟨1, 1, fun _ _ => 1⟩ (Mat.zeros 1 1) (Mat.zeros 1 1) (Vec.zeros 1) (Vec.zeros 1) 0
    ⟨4, 1, fun i _ => if i = 0 then 1 else if i = 1 then -1 else 0⟩
    ⟨4, 1, fun i _ => if i = 0 then -1 else if i = 1 then 1 else if i = 2 then 1 else -1⟩
    ⟨4, fun i => if i < 2 then 1 else 2⟩

/-- the five assertions on `_V` and `_u` of a region (test_parametric_programs.py:34-38, 40-44, 48-52) -/
noncomputable def checkRegion (cr : CritReg) (Vxx Vx V0 ux u0 : ℝ) : Py Unit := do
  assertAlmostEqual (cr.Vxx.e 0 0) Vxx
  assertAlmostEqual (cr.Vx.e 0) Vx
  assertAlmostEqual cr.V0 V0
  assertAlmostEqual (cr.ux.e 0 0) ux
  assertAlmostEqual (cr.u0.e 0) u0

/-- the body of the loop over the points (test_parametric_programs.py:63-71) -/
noncomputable def checkPoint (L : Lib) (q : MpQP) (exp_sol : ExplicitSolution) (x : Vec ℝ) : Py Unit := do
  let sol ← q.solve L x
  let V ← exp_sol.V x
  let u ← exp_sol.u x
  let p ← exp_sol.p x
  match sol.min with
  | some m => do
    match V with
    | some v => assertAlmostEqual m v
    | none => Except.error .typeError
    assertArrayAlmostEqual sol.argmin u
    assertArrayAlmostEqual sol.multiplier_inequality p
  | none => do
    assertTrue V.isNone
    assertTrue u.isNone
    assertTrue p.isNone

/-- `np.column_stack((A, b))` -/
def columnStack (A : Mat ℝ) (b : Vec ℝ) : Py (Mat ℝ) := np.hstack [A, ⟨b.n, 1, fun i _ => b.e i⟩]

/-- `TestMultiParametricQuadraticProgram.test_solve` (test_parametric_programs.py:15-80); `some ()` if it passes, `none` if the fuel, which bounds the
iterations of `explicit_solve` and of the projection, is not enough, an exception if it fails.  `exp_sol.u`, `exp_sol.p` are evaluated before they are
compared, which changes nothing. -/
noncomputable def test_solve (L : Lib) (Q : Qhull) (rand : List (Vec ℝ) → Vec ℝ) (fuel : ℕ) : Py (Option Unit) := do
  let q ← mpqp
  -- 33-44
  let o ← q.explicit_solve_given_active_set []
  let cr ← got o
  checkRegion cr 0 0 0 0 0
  let o ← q.explicit_solve_given_active_set [0]
  let cr ← got o
  checkRegion cr 1 1 0.5 1 1
  -- 47-52
  let o ← q.explicit_solve_given_point L (at1 1.5)
  let cr ← got o
  checkRegion cr 1 (-1) 0.5 1 (-1)
  -- 55-58
  let sol ← q.solve L (at1 1.5)
  assertAlmostEqualO sol.min 0.125
  assertTrue (Geom.allclose sol.argmin (some (at1 0.5)))
  assertTrue (decide (sol.active_set = some [1]))
  -- 61-71
  let e ← q.explicit_solve L fuel
  match e with
  | none => return none
  | some exp_sol => do
    checkPoint L q exp_sol (at1 0.5)
    checkPoint L q exp_sol (at1 1.5)
    checkPoint L q exp_sol (at1 (-1.5))
    checkPoint L q exp_sol (at1 2.5)
    checkPoint L q exp_sol (at1 (-2.5))
    -- 74-80
    let f ← q.get_feasible_set L Q rand fuel
    match f with
    | none => return none
    | some fs => do
      let m ← columnStack ⟨2, 1, fun i _ => if i = 0 then 1 else -1⟩ ⟨2, fun _ => 2⟩
      let n ← columnStack fs.A fs.b
      let s ← Geom.same_rows m n
      assertTrue s
      return some ()

end Verif.TestSuite
