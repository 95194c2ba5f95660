import Mathlib.Analysis.Normed.Algebra.MatrixExponential
import Mathlib.Data.Complex.Basic
import Mathlib.Analysis.Complex.Norm
import Verif.Model.Polyhedron

/- `/repo/pympc/dynamics/utils.py`, `discretization_methods.py` and `discrete_time_systems.py`. -/
namespace Verif
open Matrix

/-- `scipy.linalg.expm(M)`, the exact exponential; raises `ValueError` if `M` is not square -/
noncomputable def np.expm (M : Mat ℝ) : Py (Mat ℝ) :=
  if M.nr = M.nc then .ok (Mat.ofM (NormedSpace.exp (M.asM M.nr M.nr))) else .error .valueError

namespace Dyn

/-- the check of `c` (dynamics/utils.py:28-33) -/
def checkOffset (n : ℕ) : Option (NDArr ℝ) → Py Unit
  | none => .ok ()
  | some c => if 1 < c.ndim then .error .valueError else if n ≠ c.size then .error .valueError else .ok ()

/-- the check of `h` (dynamics/utils.py:35-38) -/
noncomputable def checkStep : Option ℝ → Py Unit
  | none => .ok ()
  | some h => if h < 0 then .error .valueError else .ok ()

/-- `check_affine_system(A, B, c, h)` (dynamics/utils.py:4-38) -/
noncomputable def check_affine_system (A B : Mat ℝ) (c : Option (NDArr ℝ) := none) (h : Option ℝ := none) : Py Unit :=
  -- A square matrix (20-22)
  if A.nr ≠ A.nc then .error .valueError
  -- equal number of rows for A and B (24-26)
  else if A.nr ≠ B.nr then .error .valueError
  else do
    checkOffset A.nr c
    checkStep h

/-- `explicit_euler(A, B, c, h)` (discretization_methods.py:8-41); the last case does not occur, since
`check_affine_system` raises on a two dimensional `c` -/
noncomputable def explicit_euler (A B : Mat ℝ) (c : NDArr ℝ) (h : ℝ) : Py (Mat ℝ × Mat ℝ × Vec ℝ) := do
  check_affine_system A B (some c) (some h)
  let A_d ← np.addM (A.smul h) (Mat.eye A.nr)
  let B_d := B.smul h
  match c with
  | .d1 c => return (A_d, B_d, c.smul h)
  | .d2 _ => .error .valueError

/-- `zero_order_hold(A, B, c, h)` (discretization_methods.py:43-104) -/
noncomputable def zero_order_hold (A B : Mat ℝ) (c : NDArr ℝ) (h : ℝ) : Py (Mat ℝ × Mat ℝ × Vec ℝ) := do
  check_affine_system A B (some c) (some h)
  -- system dimensions (88-90)
  let n_x := A.nr
  let n_u := B.nc
  match c with
  | .d1 c => do
    -- zero order hold (92-97)
    let top ← np.hstack [A, B, Mat.ofCol c]
    let M_c ← np.vstack [top, Mat.zeros (n_u + 1) (n_x + n_u + 1)]
    let M_d ← np.expm (M_c.smul h)
    -- discrete time dynamics (99-102)
    return (M_d.block 0 n_x 0 n_x, M_d.block 0 n_x n_x (n_x + n_u), (M_d.col (n_x + n_u)).slice 0 n_x)
  | .d2 _ => .error .valueError

/-- the discretization methods: 'zero_order_hold', 'explicit_euler', any other string -/
inductive Method where
  | zeroOrderHold | explicitEuler | other

/-- the choice of the method (discrete_time_systems.py:223-229, 383-389) -/
noncomputable def discretize (A B : Mat ℝ) (c : NDArr ℝ) (h : ℝ) : Method → Py (Mat ℝ × Mat ℝ × Vec ℝ)
  | .zeroOrderHold => zero_order_hold A B c h
  | .explicitEuler => explicit_euler A B c h
  | .other => .error .valueError

/-- attributes of a `LinearSystem` (discrete_time_systems.py:32-40) -/
structure LinearSystem where
  A : Mat ℝ
  B : Mat ℝ
  nx : ℕ
  nu : ℕ
  _controllable : Option Bool

/-- attributes of an `AffineSystem` (discrete_time_systems.py:307-313) -/
structure AffineSystem where
  A : Mat ℝ
  B : Mat ℝ
  c : Vec ℝ
  nx : ℕ
  nu : ℕ

/-- `AffineSystem.__init__` (discrete_time_systems.py:290-313) -/
noncomputable def AffineSystem.init (A B : Mat ℝ) (c : NDArr ℝ) : Py AffineSystem := do
  check_affine_system A B (some c)
  match c with
  | .d1 c => return ⟨A, B, c, B.nr, B.nc⟩
  | .d2 _ => .error .valueError

/-- the loop of `AffineSystem.simulate` from the current state (discrete_time_systems.py:332-337) -/
noncomputable def AffineSystem.simulateFrom (S : AffineSystem) (x : Vec ℝ) : List (Vec ℝ) → Py (List (Vec ℝ))
  | [] => .ok [x]
  | v :: u => do
    let Ax ← np.dotMV S.A x
    let Bv ← np.dotMV S.B v
    let s ← np.addV Ax Bv
    let y ← np.addV s S.c
    let xs ← S.simulateFrom y u
    return x :: xs

/-- `AffineSystem.simulate(x0, u)` (discrete_time_systems.py:315-337) -/
noncomputable def AffineSystem.simulate (S : AffineSystem) (x0 : Vec ℝ) (u : List (Vec ℝ)) : Py (List (Vec ℝ)) :=
  S.simulateFrom x0 u

/-- `AffineSystem.from_continuous` (discrete_time_systems.py:361-391) -/
noncomputable def AffineSystem.from_continuous (A B : Mat ℝ) (c : NDArr ℝ) (h : ℝ) (method : Method) :
    Py AffineSystem := do
  check_affine_system A B (some c) (some h)
  let (A_d, B_d, c_d) ← discretize A B c h method
  AffineSystem.init A_d B_d (.d1 c_d)

/-- `productory(matrix_list)` (discrete_time_systems.py:731-751): products from left to right -/
def productory : List (Mat ℝ) → Py (Mat ℝ)
  | [] => .error .indexError
  | A :: l => l.foldlM np.dotMM A

/-- `B_bar[r0:r1, c0:c1] = M`: raises `ValueError` if the shapes differ (numpy would broadcast a single
row or column) -/
def assignBlock (B : Mat ℝ) (r0 c0 m n : ℕ) (M : Mat ℝ) : Py (Mat ℝ) :=
  if M.nr = m ∧ M.nc = n ∧ r0 + m ≤ B.nr ∧ c0 + n ≤ B.nc then .ok (B.setBlock r0 c0 M) else .error .valueError

/-- `sum(l)` for a non-empty list of arrays -/
def sumVec : List (Vec ℝ) → Py (Vec ℝ)
  | [] => .error .typeError
  | v :: l => l.foldlM np.addV v

/-- `A_sequence[i:j:-1]`: the entries `i, i-1, ..., j+1` -/
def backSlice (l : List (Mat ℝ)) (i j : ℕ) : List (Mat ℝ) := ((l.take (i + 1)).drop (j + 1)).reverse

/-- the rows of `B_bar` for time `i` (discrete_time_systems.py:718-720) -/
def forcedRow (nx nu : ℕ) (As Bs : List (Mat ℝ)) (B : Mat ℝ) (i : ℕ) : Py (Mat ℝ) := do
  let B' ← (List.range i).foldlM (fun B j => do
    let M ← productory (backSlice As i j)
    let Bj ← np.listGet Bs j
    let MB ← np.dotMM M Bj
    assignBlock B (nx * i) (nu * j) nx nu MB) B
  let Bi ← np.listGet Bs i
  assignBlock B' (nx * i) (nu * i) nx nu Bi

/-- the offset at time `i` (discrete_time_systems.py:726) -/
def offsetAt (As : List (Mat ℝ)) (cs : List (Vec ℝ)) (i : ℕ) : Py (Vec ℝ) := do
  let l ← (List.range i).mapM fun j => do
    let M ← productory (backSlice As i j)
    let cj ← np.listGet cs j
    np.dotMV M cj
  let s ← sumVec l
  let ci ← np.listGet cs i
  np.addV s ci

/-- `condense_pwa_system(affine_systems, mode_sequence)` (discrete_time_systems.py:676-729).  Modes are
nonnegative here (Python accepts negative indices). -/
def condense_pwa_system (systems : List AffineSystem) (modes : List ℕ) : Py (Mat ℝ × Mat ℝ × Vec ℝ) := do
  -- system dimensions (701-704)
  let S0 ← np.listGet systems 0
  let nx := S0.nx
  let nu := S0.nu
  let N := modes.length
  -- matrix sequence (706-709)
  let seq ← modes.mapM (np.listGet systems)
  let As := seq.map (·.A)
  let Bs := seq.map (·.B)
  let cs := seq.map (·.c)
  -- free evolution of the system (711-713)
  let l ← (List.range N).mapM fun i => productory (As.take (i + 1)).reverse
  let A_free ← np.vstack l
  let A_bar ← np.vstack [Mat.eye nx, A_free]
  -- forced evolution of the system (715-721)
  let B_forced ← (List.range N).foldlM (forcedRow nx nu As Bs) (Mat.zeros (nx * N) (nu * N))
  let B_bar ← np.vstack [Mat.zeros nx (nu * N), B_forced]
  -- evolution related to the offset term (723-727)
  let c0 ← np.listGet cs 0
  let c_bar ← (List.range (N - 1)).foldlM (fun c k => do
    let o ← offsetAt As cs (k + 1)
    np.concatenate [c, o]) ((Vec.zeros nx).append c0)
  return (A_bar, B_bar, c_bar)

/-- `AffineSystem.condense(N)` (discrete_time_systems.py:339-359) -/
def AffineSystem.condense (S : AffineSystem) (N : ℕ) : Py (Mat ℝ × Mat ℝ × Vec ℝ) :=
  condense_pwa_system [S] (List.replicate N 0)

namespace LinearSystem

/-- `LinearSystem.__init__` (discrete_time_systems.py:17-42) -/
noncomputable def init (A B : Mat ℝ) : Py LinearSystem := do
  check_affine_system A B
  return ⟨A, B, B.nr, B.nc, none⟩

/-- the loop of `simulate` from the current state (discrete_time_systems.py:61-66) -/
def simulateFrom (S : LinearSystem) (x : Vec ℝ) : List (Vec ℝ) → Py (List (Vec ℝ))
  | [] => .ok [x]
  | v :: u => do
    let Ax ← np.dotMV S.A x
    let Bv ← np.dotMV S.B v
    let y ← np.addV Ax Bv
    let xs ← S.simulateFrom y u
    return x :: xs

/-- `simulate(x0, u)` (discrete_time_systems.py:44-66) -/
def simulate (S : LinearSystem) (x0 : Vec ℝ) (u : List (Vec ℝ)) : Py (List (Vec ℝ)) := S.simulateFrom x0 u

/-- the loop of `simulate_closed_loop` from the current state (discrete_time_systems.py:87-92) -/
def closedLoopFrom (S : LinearSystem) (K : Mat ℝ) (x : Vec ℝ) : ℕ → Py (List (Vec ℝ))
  | 0 => .ok [x]
  | N + 1 => do
    let BK ← np.dotMM S.B K
    let ABK ← np.addM S.A BK
    let y ← np.dotMV ABK x
    let xs ← S.closedLoopFrom K y N
    return x :: xs

/-- `simulate_closed_loop(x0, N, K)` (discrete_time_systems.py:68-92) -/
def simulate_closed_loop (S : LinearSystem) (x0 : Vec ℝ) (N : ℕ) (K : Mat ℝ) : Py (List (Vec ℝ)) :=
  S.closedLoopFrom K x0 N

/-- the value that `controllable` computes (discrete_time_systems.py:195-196) -/
noncomputable def computeControllable (S : LinearSystem) : Py Bool := do
  let l ← (List.range S.nx).mapM fun i => np.dotMM (np.matrix_power S.A i) S.B
  let R ← np.hstack l
  let r ← np.rank R
  return decide (r = S.nx)

/-- `controllable` (discrete_time_systems.py:186-198) -/
noncomputable def controllable : PyM LinearSystem Bool := do
  let S ← PyM.get
  match S._controllable with
  | some c => return c
  | none => do
    let c ← PyM.lift S.computeControllable
    PyM.modify fun S => { S with _controllable := some c }
    return c

/-- the gain `- inv(B' P B + R) B' P A` (discrete_time_systems.py:124) -/
noncomputable def gain (S : LinearSystem) (P R : Mat ℝ) : Py (Mat ℝ) := do
  let BP ← np.dotMM S.B.T P
  let BPB ← np.dotMM BP S.B
  let M ← np.addM BPB R
  let Mi ← np.inv M
  let MB ← np.dotMM Mi S.B.T
  let MBP ← np.dotMM MB P
  let K ← np.dotMM MBP S.A
  return K.neg

/-- `solve_dare(Q, R)` (discrete_time_systems.py:94-126); `dare` is `scipy.linalg.solve_discrete_are` -/
noncomputable def solve_dare (dare : Mat ℝ → Mat ℝ → Mat ℝ → Mat ℝ → Py (Mat ℝ)) (Q R : Mat ℝ) :
    PyM LinearSystem (Mat ℝ × Mat ℝ) := do
  let c ← controllable
  if ¬ c then PyM.raise .valueError
  else do
    let S ← PyM.get
    let P ← PyM.lift (dare S.A S.B Q R)
    let K ← PyM.lift (S.gain P R)
    return (P, K)

/-- `condense(N)` (discrete_time_systems.py:160-184) -/
noncomputable def condense (S : LinearSystem) (N : ℕ) : Py (Mat ℝ × Mat ℝ) := do
  let c := Vec.zeros S.A.nr
  let S' ← AffineSystem.init S.A S.B (.d1 c)
  let (A_bar, B_bar, _) ← condense_pwa_system [S'] (List.replicate N 0)
  return (A_bar, B_bar)

/-- `from_continuous(A, B, h, method)` (discrete_time_systems.py:200-231) -/
noncomputable def from_continuous (A B : Mat ℝ) (h : ℝ) (method : Method) : Py LinearSystem := do
  check_affine_system A B none (some h)
  let (A_d, B_d, _) ← discretize A B (.d1 (Vec.zeros A.nr)) h method
  init A_d B_d

end LinearSystem
end Dyn
end Verif
