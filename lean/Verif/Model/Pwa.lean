import Verif.Model.Systems

/- `mcais` and `PieceWiseAffineSystem` of `/repo/pympc/dynamics/discrete_time_systems.py`. -/
namespace Verif
namespace Dyn

/-- `np.max(np.absolute(np.linalg.eig(A)[0])) > 1.` (discrete_time_systems.py:626-627) for a square
matrix `A`: some eigenvalue has modulus above one -/
def HasEigAboveOne (A : Mat ℝ) : Prop :=
  ∃ (l : ℂ) (v : ℕ → ℂ), (∃ i < A.nr, v i ≠ 0) ∧
    (∀ i < A.nr, ∑ j ∈ Finset.range A.nr, (A.e i j : ℂ) * v j = l * v i) ∧ 1 < ‖l‖

/-- the residuals of one iteration (discrete_time_systems.py:646-648) -/
noncomputable def residuals (L : Lib) (J : Mat ℝ) (XA : Mat ℝ) (Xb : Vec ℝ) (O : Poly) : Py (List ℝ) :=
  (List.range XA.nr).mapM fun i => do
    let sol ← lpDefault L (J.row i).neg O.A O.b
    let m ← Poly.negMin sol
    return m - Xb.e i

/-- `[i for i, r in enumerate(residuals) if r > 0.]` (discrete_time_systems.py:657) -/
noncomputable def newFacets (res : List ℝ) : List ℕ := by
  classical exact (List.range res.length).filter fun i => 0 < res.getD i 0

/-- the while loop (discrete_time_systems.py:641-664), with at most `fuel` iterations: `none` if the
loop does not stop within these -/
noncomputable def mcaisLoop (L : Lib) (A XA : Mat ℝ) (Xb : Vec ℝ) : ℕ → Poly → ℕ → Py (Option Poly)
  | 0, _, _ => .ok none
  | fuel + 1, O, t => do
    let J ← np.dotMM XA (np.matrix_power A t)
    let res ← residuals L J XA Xb O
    let nf := newFacets res
    if nf = [] then return some O
    else do
      let Jn ← np.rows J nf
      let bn ← np.take Xb nf
      let O' ← Poly.runOn O (Poly.add_inequality Jn (.d1 bn))
      mcaisLoop L A XA Xb fuel O' (t + 1)

/-- the checks of `mcais` (discrete_time_systems.py:626-633), and the state of `X` after them.
`X.contains(np.zeros((nx, 1)))` is `contains` of the zero vector: the subtraction of `b` broadcasts to a
matrix whose columns are `-b`, which has the same maximum.  `np.linalg.eig` raises `LinAlgError` if `A`
is not square and `np.max` raises `ValueError` if there are no eigenvalues. -/
noncomputable def mcaisChecks (L : Lib) (A : Mat ℝ) (X : Poly) : Py Poly := by
  classical exact
  if A.nr ≠ A.nc then .error .linAlgError
  else if A.nr = 0 then .error .valueError
  else if HasEigAboveOne A then .error .valueError
  else do
    let c ← X.contains (Vec.zeros X.A.nc)
    if c = false then .error .valueError
    else
      match Poly.bounded L X with
      | (.error e, _) => .error e
      | (.ok false, _) => .error .valueError
      | (.ok true, X') => .ok X'

/-- `mcais(A, X)` (discrete_time_systems.py:584-674) up to the removal of redundant facets, for
`verbose = False` -/
noncomputable def mcaisBefore (L : Lib) (A : Mat ℝ) (X : Poly) (fuel : ℕ) : Py (Option Poly) := do
  let X' ← mcaisChecks L A X
  mcaisLoop L A X.A X.b fuel X' 1

/-- `mcais(A, X)` (discrete_time_systems.py:584-674), for `verbose = False`; `none` if the loop does not
stop within `fuel` iterations -/
noncomputable def mcais (L : Lib) (A : Mat ℝ) (X : Poly) (fuel : ℕ) : Py (Option Poly) := do
  let O ← mcaisBefore L A X fuel
  match O with
  | none => return none
  | some O => do
    let O' ← Poly.runOn O (Poly.remove_redundant_inequalities L)
    return some O'

/-- the closed loop matrices of `LinearSystem.mcais` (discrete_time_systems.py:149-155) -/
noncomputable def closedLoop (S : LinearSystem) (K : Mat ℝ) (D : Poly) : Py (Mat ℝ × Poly) := do
  let BK ← np.dotMM S.B K
  let A_cl ← np.addM S.A BK
  let DK ← np.dotMM (D.A.colsFrom S.nx) K
  let XA ← np.addM (D.A.colsTo S.nx) DK
  let X_cl ← Poly.init XA (.d1 D.b)
  return (A_cl, X_cl)

/-- `LinearSystem.mcais(K, D)` (discrete_time_systems.py:128-158) -/
noncomputable def LinearSystem.mcais (L : Lib) (S : LinearSystem) (K : Mat ℝ) (D : Poly) (fuel : ℕ) :
    Py (Option Poly) := do
  let (A_cl, X_cl) ← closedLoop S K D
  Dyn.mcais L A_cl X_cl fuel

/-- an element of the list given to `PieceWiseAffineSystem` -/
inductive Sys where
  | lin (S : LinearSystem)
  | aff (S : AffineSystem)

/-- the attributes that the constructor reads -/
def Sys.nx : Sys → ℕ
  | .lin S => S.nx
  | .aff S => S.nx
def Sys.nu : Sys → ℕ
  | .lin S => S.nu
  | .aff S => S.nu

/-- attributes of a `PieceWiseAffineSystem` (discrete_time_systems.py:459, 465, 483-485) -/
structure PWA where
  nx : ℕ
  nu : ℕ
  affine_systems : List AffineSystem
  domains : List Poly
  nm : ℕ

/-- `set(l)`, `len(..) != 1` raises `ValueError`, the element otherwise (discrete_time_systems.py:456-459,
462-465, 468-470) -/
def onlyElement (l : List ℕ) : Py ℕ :=
  match l.dedup with
  | [a] => .ok a
  | _ => .error .valueError

/-- conversion of linear systems (discrete_time_systems.py:477-480); the code writes the result into
the list of the caller -/
noncomputable def Sys.toAffine (nx : ℕ) : Sys → Py AffineSystem
  | .lin S => AffineSystem.init S.A S.B (.d1 (Vec.zeros nx))
  | .aff S => .ok S

namespace PWA

/-- `PieceWiseAffineSystem.__init__` (discrete_time_systems.py:439-485) -/
noncomputable def init (systems : List Sys) (domains : List Poly) : Py PWA := do
  if systems.length ≠ domains.length then .error .valueError
  let nx ← onlyElement (systems.map Sys.nx)
  let nu ← onlyElement (systems.map Sys.nu)
  let nxu ← onlyElement (domains.map (·.A.nc))
  if nxu ≠ nx + nu then .error .valueError
  let affine ← systems.mapM (Sys.toAffine nx)
  return ⟨nx, nu, affine, domains, affine.length⟩

/-- `condense(mode_sequence)` (discrete_time_systems.py:487-491) -/
def condense (P : PWA) (modes : List ℕ) : Py (Mat ℝ × Mat ℝ × Vec ℝ) := condense_pwa_system P.affine_systems modes

/-- the loop of `get_mode` over the domains from number `i` on (discrete_time_systems.py:552-556) -/
noncomputable def modeFrom (xu : Vec ℝ) : ℕ → List Poly → Py (Option ℕ)
  | _, [] => .ok none
  | i, D :: l => do
    let c ← D.contains xu
    if c then return some i else modeFrom xu (i + 1) l

/-- `get_mode(x, u)` (discrete_time_systems.py:533-556) -/
noncomputable def get_mode (P : PWA) (x u : Vec ℝ) : Py (Option ℕ) := do
  let xu ← np.concatenate [x, u]
  modeFrom xu 0 P.domains

/-- the loop of `simulate` from the current state (discrete_time_systems.py:518-531) -/
noncomputable def simulateFrom (P : PWA) (x : Vec ℝ) : List (Vec ℝ) → Py (List (Vec ℝ) × List ℕ)
  | [] => .ok ([x], [])
  | v :: u => do
    let mode ← P.get_mode x v
    match mode with
    | none => .error .valueError
    | some m => do
      let S ← np.listGet P.affine_systems m
      let Ax ← np.dotMV S.A x
      let Bv ← np.dotMV S.B v
      let s ← np.addV Ax Bv
      let y ← np.addV s S.c
      let (xs, ms) ← P.simulateFrom y u
      return (x :: xs, m :: ms)

/-- `simulate(x0, u)` (discrete_time_systems.py:493-531) -/
noncomputable def simulate (P : PWA) (x0 : Vec ℝ) (u : List (Vec ℝ)) : Py (List (Vec ℝ) × List ℕ) :=
  P.simulateFrom x0 u

/-- `Dij.radius > tol` (discrete_time_systems.py:576-579): `TypeError` if the radius is `None` -/
noncomputable def overlap (L : Lib) (Di Dj : Poly) (tol : ℝ) : Py Bool := do
  let Dij ← Di.intersection Dj
  let r ← (Poly.radius L Dij).1
  match r with
  | none => .error .typeError
  | some r => return decide (tol < r)

/-- the inner loop: no domain of the list overlaps with `Di` (discrete_time_systems.py:575-580) -/
noncomputable def noneOverlaps (L : Lib) (Di : Poly) (tol : ℝ) : List Poly → Py Bool
  | [] => .ok true
  | Dj :: l => do
    let o ← overlap L Di Dj tol
    if o then return false else noneOverlaps L Di tol l

/-- the outer loop (discrete_time_systems.py:574-582) -/
noncomputable def wellPosedFrom (L : Lib) (tol : ℝ) : List Poly → Py Bool
  | [] => .ok true
  | Di :: l => do
    let ok ← noneOverlaps L Di tol l
    if ok then wellPosedFrom L tol l else return false

/-- `is_well_posed(tol)` (discrete_time_systems.py:558-582) -/
noncomputable def is_well_posed (L : Lib) (P : PWA) (tol : ℝ := 1e-7) : Py Bool := wellPosedFrom L tol P.domains

end PWA
end Dyn
end Verif
