import Verif.Model.Controllers

/- Model of `HybridModelPredictiveController` of `/repo/pympc/control/controllers.py`.  The attributes `A`, `B`,
`c` of the affine systems are read without the checks of numpy on the range of the index: their sizes are those
checked by the constructors.  In `mat[..] = bigM[i][j]` a size that does not match is an error (numpy would
broadcast a single entry). -/
namespace Verif
namespace Control
open Dyn

/-- `linear_program(f, D.A, D.b, D.C, D.d)` (controllers.py:345, 347, 396) -/
noncomputable def lpOver (L : Lib) (f : Vec ℝ) (D : Poly) : Py Sol := lpDefault L f D.A D.b (some D.C) (some D.d)

/-- `sol['min'] + a`: `TypeError` if it is `None` (controllers.py:346) -/
def plusMin (s : Sol) (a : ℝ) : Py ℝ :=
  match s.min with
  | some m => .ok (m + a)
  | none => .error .typeError

/-- the `k`-th entries of `alpha_ij` and `beta_ij` (controllers.py:343-348) -/
noncomputable def dynBounds (L : Lib) (A_i : Mat ℝ) (c : Vec ℝ) (D : Poly) (k : ℕ) : Py (ℝ × ℝ) := do
  let f := A_i.row k
  let sol ← lpOver L f D
  let a ← plusMin sol (c.e k)
  let sol ← lpOver L f.neg D
  let b ← Poly.negMin sol
  return (a, b + c.e k)

/-- `np.vstack` of a list of numbers: a column (controllers.py:351-352, 400) -/
def column (l : List ℝ) : Py (Mat ℝ) := np.vstack (l.map fun a => ⟨1, 1, fun _ _ => a⟩)

/-- `alpha_ij` and `beta_ij` (controllers.py:338-352) -/
noncomputable def bigM_dynamics_ij (L : Lib) (S_i : AffineSystem) (A_i : Mat ℝ) (D : Poly) : Py (Mat ℝ × Mat ℝ) := do
  let l ← (List.range S_i.nx).mapM (dynBounds L A_i S_i.c D)
  let a ← column (l.map (·.1))
  let b ← column (l.map (·.2))
  return (a, b)

/-- `alpha_i` and `beta_i` (controllers.py:331-356) -/
noncomputable def bigM_dynamics_i (L : Lib) (S : PWA) (S_i : AffineSystem) : Py (List (Mat ℝ) × List (Mat ℝ)) := do
  let A_i ← np.hstack [S_i.A, S_i.B]
  let l ← (List.range S.affine_systems.length).mapM fun j => do
    let D ← np.listGet S.domains j
    bigM_dynamics_ij L S_i A_i D
  return (l.map (·.1), l.map (·.2))

/-- `_get_bigM_dynamics()` (controllers.py:289-358) -/
noncomputable def get_bigM_dynamics (L : Lib) (S : PWA) : Py (List (List (Mat ℝ)) × List (List (Mat ℝ))) := do
  let l ← S.affine_systems.mapM (bigM_dynamics_i L S)
  return (l.map (·.1), l.map (·.2))

/-- `gamma_ij` (controllers.py:390-400) -/
noncomputable def bigM_domains_ij (L : Lib) (D_i D : Poly) : Py (Mat ℝ) := do
  let l ← (List.range D_i.A.nr).mapM fun k => do
    let sol ← lpOver L (D_i.A.row k).neg D
    let m ← Poly.negMin sol
    return m - D_i.b.e k
  column l

/-- `_get_bigM_domains()` (controllers.py:360-405) -/
noncomputable def get_bigM_domains (L : Lib) (S : PWA) : Py (List (List (Mat ℝ))) :=
  S.domains.mapM fun D_i => S.domains.mapM (bigM_domains_ij L D_i)

/-- the pairs `(i, j)` in the order of the two loops (controllers.py:533-534) -/
def pairs (s : ℕ) : List (ℕ × ℕ) := (List.range s).flatMap fun i => (List.range s).map fun j => (i, j)

/-- one assignment (controllers.py:535-536); `n` are the numbers of rows of the blocks -/
def setBigM (bigM : List (List (Mat ℝ))) (n : List ℕ) (mat : Mat ℝ) (p : ℕ × ℕ) : Py (Mat ℝ) :=
  if p.2 ≠ p.1 then do
    let row ← np.listGet bigM p.1
    let m ← np.listGet row p.2
    assignBlock mat (n.take p.1).sum p.2 ((n.take (p.1 + 1)).sum - (n.take p.1).sum) 1 m
  else .ok mat

/-- `_bigM_matrices(bigM)` (controllers.py:513-538) -/
def bigM_matrices (bigM : List (List (Mat ℝ))) : Py (Mat ℝ) := do
  let n ← bigM.mapM fun r => do
    let m ← np.listGet r 0
    return m.nr
  (pairs bigM.length).foldlM (setBigM bigM n) (Mat.zeros n.sum bigM.length)

/-- the entries `'x', 'u', 'z', 'd', '0'` of `E` (controllers.py:459) and of `E_bar` (controllers.py:556) -/
structure Ineqs where
  x : Mat ℝ
  u : Mat ℝ
  z : Mat ℝ
  d : Mat ℝ
  h : Vec ℝ

/-- `[bigM[i][i] for i in range(s)]` (controllers.py:495-496) -/
def diagonal (bigM : List (List (Mat ℝ))) (s : ℕ) : Py (List (Mat ℝ)) :=
  (List.range s).mapM fun i => do
    let row ← np.listGet bigM i
    np.listGet row i

/-- `E['d']` (controllers.py:494-501) -/
def ineqD (s : ℕ) (alpha beta gamma : List (List (Mat ℝ))) : Py (Mat ℝ) := do
  let a ← diagonal alpha s
  let b ← diagonal beta s
  let Ma ← bigM_matrices alpha
  let Mb ← bigM_matrices beta
  let Mg ← bigM_matrices gamma
  let o ← np.vstack [Mat.ones 1 s, (Mat.ones 1 s).neg]
  np.vstack [np.block_diag a, (np.block_diag b).neg, Ma, Mb.neg, Mg.neg, o]

/-- `E['x']` and `E['u']` (controllers.py:470-485), which differ in the number `n` of columns and in the blocks
`M` of the dynamics and `F` of the domains -/
def ineqXU (nxs n : ℕ) (M F : List (Mat ℝ)) : Py (Mat ℝ) := do
  let m1 ← np.vstack (M.map Mat.neg)
  let m2 ← np.vstack M
  let f ← np.vstack F
  np.vstack [Mat.zeros nxs n, Mat.zeros nxs n, m1, m2, f, Mat.zeros 2 n]

/-- `E['z']` (controllers.py:486-493) -/
def ineqZ (nx s n_ineq : ℕ) : Py (Mat ℝ) :=
  let I := np.block_diag (List.replicate s (Mat.eye nx))
  let I' := np.block_diag (List.replicate s (Mat.eye nx : Mat ℝ).neg)
  np.vstack [I', I, I, I', Mat.zeros n_ineq (nx * s), Mat.zeros 2 (nx * s)]

/-- `E['0']` (controllers.py:502-509) -/
def ineq0 (nxs : ℕ) (c b : List (Vec ℝ)) : Py (Vec ℝ) := do
  let c1 ← np.concatenate c
  let c2 ← np.concatenate (c.map Vec.neg)
  let b1 ← np.concatenate b
  np.concatenate [Vec.zeros nxs, Vec.zeros nxs, c1, c2, b1, Vec.ofList [1, -1]]

/-- `_build_inequalities()` (controllers.py:449-511) -/
def build_inequalities (S : PWA) (alpha beta gamma : List (List (Mat ℝ))) : Py Ineqs := do
  let n_ineq := (S.domains.map fun D => D.A.nr).sum
  let x ← ineqXU (S.nx * S.nm) S.nx (S.affine_systems.map (·.A)) (S.domains.map fun D => D.A.colsTo S.nx)
  let u ← ineqXU (S.nx * S.nm) S.nu (S.affine_systems.map (·.B)) (S.domains.map fun D => D.A.colsFrom S.nx)
  let z ← ineqZ S.nx S.nm n_ineq
  let d ← ineqD S.nm alpha beta gamma
  let h ← ineq0 (S.nx * S.nm) (S.affine_systems.map (·.c)) (S.domains.map (·.b))
  return ⟨x, u, z, d, h⟩

/-- `_condense_inequalities(E)` (controllers.py:540-582) -/
def condense_inequalities (N : ℕ) (X_N : Poly) (E : Ineqs) : Py Ineqs := do
  let x := np.block_diag (List.replicate N E.x ++ [X_N.A])
  let u := np.block_diag (List.replicate N E.u)
  let u ← np.vstack [u, Mat.zeros X_N.A.nr u.nc]
  let z := np.block_diag (List.replicate N E.z)
  let z ← np.vstack [z, Mat.zeros X_N.A.nr z.nc]
  let d := np.block_diag (List.replicate N E.d)
  let d ← np.vstack [d, Mat.zeros X_N.A.nr d.nc]
  let h ← np.concatenate (List.replicate N E.h ++ [X_N.b])
  return ⟨x, u, z, d, h⟩

/-- `_condense_equalities()` (controllers.py:585-609) -/
def condense_equalities (nx nm N : ℕ) : Py (Mat ℝ × Mat ℝ) := do
  let A_bar ← np.vstack [Mat.eye nx, Mat.zeros (nx * N) nx]
  let I ← np.hstack (List.replicate nm (Mat.eye nx))
  let Bz := np.block_diag (List.replicate N I)
  let Bz_bar ← np.vstack [Mat.zeros nx Bz.nc, Bz]
  return (A_bar, Bz_bar)

/-- the program from the condensed constraints (controllers.py:430-447) -/
def assemble (N : ℕ) (Q R P : Mat ℝ) (E : Ineqs) (A_bar Bz_bar : Mat ℝ) : Py MpMIQP := do
  let Q_bar := np.block_diag (List.replicate N Q ++ [P])
  let BQ ← np.dotMM Bz_bar.T Q_bar
  let Hzz ← np.dotMM BQ Bz_bar
  let Hzx ← np.dotMM BQ A_bar
  let AQ ← np.dotMM A_bar.T Q_bar
  let Hxx ← np.dotMM AQ A_bar
  let EB ← np.dotMM E.x Bz_bar
  let Az ← np.addM E.z EB
  let Ax ← np.dotMM E.x A_bar
  return ⟨np.block_diag (List.replicate N R), Hzz, Hxx, Hzx, E.u, Az, E.d, Ax, E.h⟩

/-- `_condense_program()` (controllers.py:407-447) -/
def condense_hybrid (S : PWA) (N : ℕ) (Q R P : Mat ℝ) (X_N : Poly) (alpha beta gamma : List (List (Mat ℝ))) :
    Py MpMIQP := do
  let E ← build_inequalities S alpha beta gamma
  let E_bar ← condense_inequalities N X_N E
  let (A_bar, Bz_bar) ← condense_equalities S.nx S.nm N
  assemble N Q R P E_bar A_bar Bz_bar

/-- the attributes of a `HybridModelPredictiveController` (controllers.py:273-286) -/
structure HMPC where
  S : PWA
  N : ℕ
  Q : Mat ℝ
  R : Mat ℝ
  P : Mat ℝ
  X_N : Poly
  alpha : List (List (Mat ℝ))
  beta : List (List (Mat ℝ))
  gamma : List (List (Mat ℝ))
  mpmiqp : MpMIQP

namespace HMPC

/-- `__init__(S, N, Q, R, P, X_N)` (controllers.py:254-286) -/
noncomputable def init (L : Lib) (S : PWA) (N : ℕ) (Q R P : Mat ℝ) (X_N : Poly) : Py HMPC := do
  let (alpha, beta) ← get_bigM_dynamics L S
  let gamma ← get_bigM_domains L S
  let q ← condense_hybrid S N Q R P X_N alpha beta gamma
  return ⟨S, N, Q, R, P, X_N, alpha, beta, gamma, q⟩

/-- `np.sum(l, axis=0)` for vectors of equal sizes (controllers.py:641).  With no vectors numpy answers the number
`0.`, but a system has at least one mode; vectors of different sizes are an error. -/
def sum0 : List (Vec ℝ) → Py (Vec ℝ)
  | [] => .error .valueError
  | v :: l => l.foldlM np.addV v

/-- `np.where(d > .5)[0][0]` (controllers.py:644) -/
noncomputable def modeOf (d : Vec ℝ) : Py ℕ := np.listGet (whereGt d (1 / 2)) 0

/-- what `feedforward` returns -/
structure Answer where
  u : List (Vec ℝ)
  x : List (Vec ℝ)
  modes : List ℕ
  V : ℝ

/-- the lists returned by `feedforward` (controllers.py:632-646) -/
noncomputable def unpack (S : PWA) (N : ℕ) (x u z d : Vec ℝ) (V : ℝ) : Py Answer := do
  let xs ← (MPC.slices z (S.nx * S.nm) N).mapM fun z => sum0 (MPC.slices z S.nx S.nm)
  let ms ← (MPC.slices d S.nm N).mapM modeOf
  return ⟨MPC.slices u S.nu N, x :: xs, ms, V⟩

/-- `feedforward(x)` (controllers.py:611-646), `none` stands for four `None` -/
noncomputable def feedforward (G : Gurobi) (c : HMPC) (x : Vec ℝ) : Py (Option Answer) := do
  let sol ← c.mpmiqp.solve G x
  match sol.min with
  | none => return none
  | some V =>
    match sol.u, sol.z, sol.d with
    | some u, some z, some d => do
      let a ← unpack c.S c.N x u z d V
      return some a
    -- slicing `None` raises
    | _, _, _ => .error .typeError

/-- `feedback(x)` (controllers.py:648-666) -/
noncomputable def feedback (G : Gurobi) (c : HMPC) (x : Vec ℝ) : Py (Option (Vec ℝ)) := do
  let a ← c.feedforward G x
  MPC.firstInput (a.map (·.u))

/-- `get_mpqp(mode_sequence)` (controllers.py:668-680) -/
noncomputable def get_mpqp (c : HMPC) (modes : List ℕ) : Py MpQP :=
  condense_optimal_control_problem c.S c.Q c.R c.P c.X_N modes

end HMPC
end Control
end Verif
