import Verif.Model.Pwa
import Verif.Model.TestParametric
import Verif.Model.TestController

/- `test_condense_and_simulate` (linear and affine systems) and `test_condense_and_simulate_and_get_mode` (piecewise affine systems) of
`/repo/pympc/test/test_dynamics/test_discrete_time_systems.py`.  What is drawn at random in the tests is an argument here. -/
namespace Verif.TestSuite
open Dyn

/-- the body of the loop for linear systems (test_discrete_time_systems.py:33-41) -/
noncomputable def condenseLinear (A B : Mat ℝ) (x0 : Vec ℝ) (u : List (Vec ℝ)) (N : ℕ) : Py Unit := do
  let S ← LinearSystem.init A B
  let x ← S.simulate x0 u
  let (A_bar, B_bar) ← S.condense N
  let xs ← np.concatenate x
  let Ax ← np.dotMV A_bar x0
  let us ← np.concatenate u
  let Bu ← np.dotMV B_bar us
  let r ← np.addV Ax Bu
  assertArrayAlmostEqual (some xs) (some r)

/-- the body of the loop for affine systems (test_discrete_time_systems.py:207-215) -/
noncomputable def condenseAffine (A B : Mat ℝ) (c : Vec ℝ) (x0 : Vec ℝ) (u : List (Vec ℝ)) (N : ℕ) : Py Unit := do
  let S ← AffineSystem.init A B (.d1 c)
  let x ← S.simulate x0 u
  let (A_bar, B_bar, c_bar) ← S.condense N
  let xs ← np.concatenate x
  let Ax ← np.dotMV A_bar x0
  let us ← np.concatenate u
  let Bu ← np.dotMV B_bar us
  let s ← np.addV Ax Bu
  let r ← np.addV s c_bar
  assertArrayAlmostEqual (some xs) (some r)

/-- what is drawn in one step of the simulation: `A_t`, `B_t`, `c_t` and `u_t` (test_discrete_time_systems.py:350-355) -/
structure Drawn where
  A : Mat ℝ
  B : Mat ℝ
  c : Vec ℝ
  u : Vec ℝ

/-- the variables of the loop (test_discrete_time_systems.py:339-344) -/
structure BuildVars where
  x_t : Vec ℝ
  x : Vec ℝ
  u : Vec ℝ
  u_list : List (Vec ℝ)
  affine_systems : List AffineSystem
  domains : List Poly

/-- the body of the simulation loop (test_discrete_time_systems.py:347-371) -/
noncomputable def buildStep (s : BuildVars) (d : Drawn) : Py BuildVars := do
  let u ← np.concatenate [s.u, d.u]
  let Ax ← np.dotMV d.A s.x_t
  let Bu ← np.dotMV d.B d.u
  let y ← np.addV Ax Bu
  let x_tp1 ← np.addV y d.c
  let x ← np.concatenate [s.x, x_tp1]
  let lo ← np.concatenate [s.x_t.divS 1.01, d.u.divS 1.01]
  let hi ← np.concatenate [s.x_t.smul 1.01, d.u.smul 1.01]
  let D ← Poly.from_bounds (.arr (.d1 lo)) (.arr (.d1 hi))
  let S ← AffineSystem.init d.A d.B (.d1 d.c)
  return ⟨x_tp1, x, u, s.u_list ++ [d.u], s.affine_systems ++ [S], s.domains ++ [D]⟩

/-- the check of the modes (test_discrete_time_systems.py:389-390); `get_mode` may return `None`, which is not equal to `t` -/
noncomputable def checkMode (P : PWA) (x_list u_list : List (Vec ℝ)) (t : ℕ) : Py Unit := do
  let x ← np.listGet x_list t
  let u ← np.listGet u_list t
  let m ← P.get_mode x u
  assertTrue (decide (m = some t))

/-- the body of the loop for piecewise affine systems (test_discrete_time_systems.py:336-390) -/
noncomputable def condensePwa (x0 : Vec ℝ) (draws : List Drawn) : Py Unit := do
  let s ← draws.foldlM buildStep ⟨x0, x0, Vec.zeros 0, [], [], []⟩
  let P ← PWA.init (s.affine_systems.map .aff) s.domains
  let (A_bar, B_bar, c_bar) ← P.condense (List.range draws.length)
  let Ax ← np.dotMV A_bar x0
  let Bu ← np.dotMV B_bar s.u
  let r ← np.addV Ax Bu
  let r' ← np.addV r c_bar
  assertArrayAlmostEqual (some s.x) (some r')
  let (x_list, _) ← P.simulate x0 s.u_list
  let xs ← np.concatenate x_list
  assertArrayAlmostEqual (some s.x) (some xs)
  forRange (checkMode P x_list s.u_list) draws.length

end Verif.TestSuite
