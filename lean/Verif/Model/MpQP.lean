import Verif.Model.Polyhedron
import Mathlib.Data.Finset.Sort
import Mathlib.Order.SymmDiff

/- Model of `/repo/pympc/optimization/parametric_programs.py`: multiparametric programs.  The projection
`get_feasible_set` is in another file. -/
namespace Verif
open Classical

/-- The attributes of a `MultiParametricQuadraticProgram` (parametric_programs.py:35-40); the
dictionaries `H`, `f`, `A` are spelled out. -/
structure MpQP where
  Huu : Mat ℝ
  Hux : Mat ℝ
  Hxx : Mat ℝ
  Huu_inv : Mat ℝ
  fu : Vec ℝ
  fx : Vec ℝ
  g : ℝ
  Au : Mat ℝ
  Ax : Mat ℝ
  b : Vec ℝ

/-- The attributes of a `CriticalRegion` (parametric_programs.py:286-290); the dictionaries `_u`, `_p`,
`_V` are spelled out. -/
structure CritReg where
  active_set : List ℕ
  ux : Mat ℝ
  u0 : Vec ℝ
  px : Mat ℝ
  p0 : Vec ℝ
  Vxx : Mat ℝ
  Vx : Vec ℝ
  V0 : ℝ
  polyhedron : Poly

namespace CritReg

/-- `contains(x)` (parametric_programs.py:292-306) -/
noncomputable def contains (cr : CritReg) (x : Vec ℝ) : Py Bool := cr.polyhedron.contains x

/-- `facet_center(i)` (parametric_programs.py:320-347).  In the one dimensional case the code returns a
scalar, which is broadcast when the step is added; here it is a vector with one entry. -/
noncomputable def facet_center (L : Lib) (cr : CritReg) (i : ℕ) : Py (Option (Vec ℝ)) :=
  if cr.polyhedron.A.nc = 1 then
    .ok (some (Vec.single (cr.polyhedron.b.e i / cr.polyhedron.A.e i 0)))
  else do
    let p := cr.polyhedron
    -- `facet = copy(self.polyhedron); facet.add_equality(facet.A[i:i+1, :], facet.b[i:i+1])`
    let facet ← Poly.runOn p (Poly.add_equality (p.A.rows [i]) (.d1 (p.b.take [i])))
    (Poly.center L facet).1

/-- `u(x)` (parametric_programs.py:349-364) -/
def u (cr : CritReg) (x : Vec ℝ) : Py (Vec ℝ) := do
  let a ← np.dotMV cr.ux x
  np.addV a cr.u0

/-- `p(x)` (parametric_programs.py:366-381) -/
def p (cr : CritReg) (x : Vec ℝ) : Py (Vec ℝ) := do
  let a ← np.dotMV cr.px x
  np.addV a cr.p0

/-- `V(x)` (parametric_programs.py:383-400) -/
noncomputable def V (cr : CritReg) (x : Vec ℝ) : Py ℝ := do
  let xV ← np.dotVM x cr.Vxx
  let xVx ← np.dotVV xV x
  let v ← np.dotVV cr.Vx x
  return 1 / 2 * xVx + v + cr.V0

end CritReg

/-- `ExplicitSolution` (parametric_programs.py:426-440): the list of critical regions -/
abbrev ExplicitSolution := List CritReg

namespace ExplicitSolution

/-- `get_critical_region(x)` (parametric_programs.py:442-463) -/
noncomputable def get_critical_region (x : Vec ℝ) : ExplicitSolution → Py (Option CritReg)
  | [] => .ok none
  | cr :: l => do
    let c ← cr.contains x
    if c then return some cr else get_critical_region x l

/-- `cr = self.get_critical_region(x)`, then the value of `m` if there is a region
(parametric_programs.py:480-486, 503-509, 526-532) -/
noncomputable def withRegion {α : Type} (s : ExplicitSolution) (x : Vec ℝ) (m : CritReg → Py α) :
    Py (Option α) := do
  let cr ← get_critical_region x s
  match cr with
  | some cr => do
    let a ← m cr
    return some a
  | none => return none

/-- `u(x)` (parametric_programs.py:465-486) -/
noncomputable def u (s : ExplicitSolution) (x : Vec ℝ) : Py (Option (Vec ℝ)) :=
  withRegion s x fun cr => cr.u x

/-- `p(x)` (parametric_programs.py:488-509) -/
noncomputable def p (s : ExplicitSolution) (x : Vec ℝ) : Py (Option (Vec ℝ)) :=
  withRegion s x fun cr => cr.p x

/-- `V(x)` (parametric_programs.py:511-532) -/
noncomputable def V (s : ExplicitSolution) (x : Vec ℝ) : Py (Option ℝ) :=
  withRegion s x fun cr => cr.V x

end ExplicitSolution

namespace MpQP

/-- `__init__` (parametric_programs.py:18-40) -/
noncomputable def init (Huu Hux Hxx : Mat ℝ) (fu fx : Vec ℝ) (g : ℝ) (Au Ax : Mat ℝ) (b : Vec ℝ) :
    Py MpQP := do
  let Huu_inv ← np.inv Huu
  return ⟨Huu, Hux, Hxx, Huu_inv, fu, fx, g, Au, Ax, b⟩

/-- `px = np.zeros((m, n)); px[idx] = P` (parametric_programs.py:87, 89).  If an index is repeated the
code keeps the last row and this definition the first; repeated indices do not pass the test on the
rank at line 72. -/
def scatterM (m n : ℕ) (idx : List ℕ) (P : Mat ℝ) : Mat ℝ :=
  ⟨m, n, fun i j => if i ∈ idx then P.e (idx.idxOf i) j else 0⟩

/-- `p0 = np.zeros(m); p0[idx] = v` (parametric_programs.py:88, 90) -/
def scatterV (m : ℕ) (idx : List ℕ) (v : Vec ℝ) : Vec ℝ :=
  ⟨m, fun i => if i ∈ idx then v.e (idx.idxOf i) else 0⟩

/-- the inactive inequalities (parametric_programs.py:76) -/
def inactive (q : MpQP) (active : List ℕ) : List ℕ :=
  (List.range q.Ax.nr).filter (· ∉ active)

/-- the multipliers `pax`, `pa0` (parametric_programs.py:83-86) -/
noncomputable def multipliers (q : MpQP) (Aua Axa : Mat ℝ) (ba : Vec ℝ) : Py (Mat ℝ × Vec ℝ) := do
  let AH ← np.dotMM Aua q.Huu_inv
  let AHA ← np.dotMM AH Aua.T
  let M ← np.inv AHA
  let AHH ← np.dotMM AH q.Hux
  let r ← np.subM Axa AHH
  let pax ← np.dotMM M r
  let AHf ← np.dotMV AH q.fu
  let s ← np.addV ba AHf
  let pa0 ← np.dotMV M s
  return (pax, pa0.neg)

/-- the primal solution `ux`, `u0` (parametric_programs.py:93-96) -/
def primal (q : MpQP) (Aua pax : Mat ℝ) (pa0 : Vec ℝ) : Py (Mat ℝ × Vec ℝ) := do
  let Ap ← np.dotMM Aua.T pax
  let s ← np.addM q.Hux Ap
  let ux ← np.dotMM q.Huu_inv s
  let Ap0 ← np.dotMV Aua.T pa0
  let s0 ← np.addV q.fu Ap0
  let u0 ← np.dotMV q.Huu_inv s0
  return (ux.neg, u0.neg)

/-- the critical region (parametric_programs.py:98-108) -/
noncomputable def region (Aui Axi : Mat ℝ) (bi : Vec ℝ) (pax : Mat ℝ) (pa0 : Vec ℝ) (ux : Mat ℝ)
    (u0 : Vec ℝ) : Py Poly := do
  let Aux ← np.dotMM Aui ux
  let lhs ← np.addM Aux Axi
  let Acr ← np.vstack [pax.neg, lhs]
  let Au0 ← np.dotMV Aui u0
  let rhs ← np.subV bi Au0
  let bcr ← np.concatenate [pa0, rhs]
  let cr ← Poly.init Acr (.d1 bcr)
  return cr.normalize

/-- the value function `Vxx`, `Vx`, `V0` (parametric_programs.py:110-114) -/
noncomputable def valueFunction (q : MpQP) (ux : Mat ℝ) (u0 : Vec ℝ) : Py (Mat ℝ × Vec ℝ × ℝ) := do
  let uH ← np.dotMM ux.T q.Huu
  let uHu ← np.dotMM uH ux
  let Hu ← np.dotMM q.Hux.T ux
  let a ← np.addM uHu (Hu.smul 2)
  let Vxx ← np.addM a q.Hxx
  let uHt ← np.dotMM ux.T q.Huu.T
  let c ← np.addM uHt q.Hux.T
  let cu ← np.dotMV c u0
  let uf ← np.dotMV ux.T q.fu
  let v ← np.addV cu uf
  let Vx ← np.addV v q.fx
  let u0H ← np.dotVM u0 q.Huu
  let u0Hu ← np.dotVV u0H u0
  let fu0 ← np.dotVV q.fu u0
  return (Vxx, Vx, 1 / 2 * u0Hu + fu0 + q.g)

/-- `len(active_set) > 0 and np.linalg.matrix_rank(Aua) < Aua.shape[0]` (parametric_programs.py:72) -/
noncomputable def dependentRows (active : List ℕ) (Aua : Mat ℝ) : Py Bool :=
  if 0 < active.length then do
    let r ← np.rank Aua
    return decide (r < Aua.nr)
  else return false

/-- `explicit_solve_given_active_set(active_set)` (parametric_programs.py:42-116); the entries of
`active_set` are nonnegative.  The assignments at lines 89-90 raise unless the sizes agree. -/
noncomputable def explicit_solve_given_active_set (q : MpQP) (active : List ℕ) :
    Py (Option CritReg) := do
  let Aua ← np.rows q.Au active
  let dep ← dependentRows active Aua
  if dep = true then return none
  else do
    let Aui ← np.rows q.Au (q.inactive active)
    let Axa ← np.rows q.Ax active
    let Axi ← np.rows q.Ax (q.inactive active)
    let ba ← np.take q.b active
    let bi ← np.take q.b (q.inactive active)
    let (pax, pa0) ← q.multipliers Aua Axa ba
    let (ux, u0) ← q.primal Aua pax pa0
    let cr ← region Aui Axi bi pax pa0 ux u0
    let (Vxx, Vx, V0) ← q.valueFunction ux u0
    return some ⟨active, ux, u0, scatterM q.Ax.nr q.Ax.nc active pax, scatterV q.Ax.nr active pa0,
      Vxx, Vx, V0, cr⟩

/-- `sol['min'] += .5 * x.dot(Hxx).dot(x) + fx.dot(x) + g` (parametric_programs.py:176-177) -/
noncomputable def liftMin (q : MpQP) (x : Vec ℝ) (sol : Sol) : Py Sol :=
  match sol.min with
  | none => .ok sol
  | some m => do
    let xH ← np.dotVM x q.Hxx
    let xHx ← np.dotVV xH x
    let fx ← np.dotVV q.fx x
    return { sol with min := some (m + (1 / 2 * xHx + fx + q.g)) }

/-- `solve(x)` (parametric_programs.py:155-179) -/
noncomputable def solve (L : Lib) (q : MpQP) (x : Vec ℝ) : Py Sol := do
  let Hx ← np.dotMV q.Hux x
  let f ← np.addV Hx q.fu
  let Ax ← np.dotMV q.Ax x
  let b ← np.subV q.b Ax
  let sol ← qpDefault L q.Huu f q.Au b
  q.liftMin x sol

/-- the part of `explicit_solve_given_point` after the guess (parametric_programs.py:144-153) -/
noncomputable def solveThenExplicit (L : Lib) (q : MpQP) (x : Vec ℝ) : Py (Option CritReg) := do
  let sol ← q.solve L x
  match sol.active_set with
  | none => return none
  | some a => q.explicit_solve_given_active_set a

/-- `explicit_solve_given_point(x, active_set_guess)` (parametric_programs.py:118-153) -/
noncomputable def explicit_solve_given_point (L : Lib) (q : MpQP) (x : Vec ℝ)
    (guess : Option (List ℕ) := none) : Py (Option CritReg) :=
  match guess with
  | none => q.solveThenExplicit L x
  | some a => do
    let cr ← q.explicit_solve_given_active_set a
    match cr with
    | none => q.solveThenExplicit L x
    | some cr => do
      let c ← cr.contains x
      if c then return some cr else q.solveThenExplicit L x

/-- the point beyond the facet `i` and the guess of its active set (parametric_programs.py:226-232) -/
noncomputable def beyondFacet (L : Lib) (step : ℝ) (cr : CritReg) (i : ℕ) : Py (Vec ℝ × List ℕ) := do
  let c ← cr.facet_center L i
  match c with
  | none => .error .typeError
  | some c => do
    let x ← np.addV c ((cr.polyhedron.A.row i).smul step)
    return (x, (symmDiff cr.active_set.toFinset {i}).sort (· ≤ ·))

/-- the loop over the minimal facets (parametric_programs.py:224-232): the points added to the buffer,
and the region with the attributes that are cached meanwhile -/
noncomputable def neighbours (L : Lib) (step : ℝ) (cr : CritReg) :
    Py (List (Vec ℝ × List ℕ) × CritReg) := do
  let mf ← (Poly.minimal_facets L 1e-7 cr.polyhedron).1
  let cr' := { cr with polyhedron := (Poly.minimal_facets L 1e-7 cr.polyhedron).2 }
  match mf with
  | none => .error .typeError
  | some mf => do
    let l ← mf.mapM (beyondFacet L step cr')
    return (l, cr')

/-- `any([cr.contains(x) for cr in crs_found])` (parametric_programs.py:213) -/
noncomputable def covered (found : List CritReg) (x : Vec ℝ) : Py Bool := do
  let cs ← found.mapM fun cr => cr.contains x
  return cs.any id

/-- the points of the buffer that are not covered yet (parametric_programs.py:213) -/
noncomputable def uncovered (found : List CritReg) : List (Vec ℝ × List ℕ) →
    Py (List (Vec ℝ × List ℕ))
  | [] => .ok []
  | xa :: l => do
    let c ← covered found xa.1
    let l' ← uncovered found l
    return if c then l' else xa :: l'

/-- the loop of `explicit_solve` (parametric_programs.py:209-237); `none` if the fuel, which bounds the
number of iterations, is not enough -/
noncomputable def explore (L : Lib) (q : MpQP) (step : ℝ) :
    ℕ → List (Vec ℝ × List ℕ) → List CritReg → Py (Option ExplicitSolution)
  | 0, _, _ => .ok none
  | fuel + 1, buffer, found => do
    let buffer ← uncovered found buffer
    match buffer with
    | [] => return some found
    | xa :: rest => do
      let cr ← q.explicit_solve_given_point L xa.1 (some xa.2)
      match cr with
      | none => explore L q step fuel rest found
      | some cr => do
        let (new, cr') ← neighbours L step cr
        explore L q step fuel (rest ++ new) (found ++ [cr'])

/-- `explicit_solve(step_size)` (parametric_programs.py:181-241) -/
noncomputable def explicit_solve (L : Lib) (q : MpQP) (fuel : ℕ) (step : ℝ := 1e-5) :
    Py (Option ExplicitSolution) :=
  explore L q step fuel [(Vec.zeros q.fx.n, [])] []

end MpQP

/-- The attributes of a `MultiParametricMixedIntegerQuadraticProgram` (parametric_programs.py:563-566) -/
structure MpMIQP where
  Huu : Mat ℝ
  Hzz : Mat ℝ
  Hxx : Mat ℝ
  Hzx : Mat ℝ
  Au : Mat ℝ
  Az : Mat ℝ
  Ad : Mat ℝ
  Ax : Mat ℝ
  b : Vec ℝ

/-- the dictionary returned by `MultiParametricMixedIntegerQuadraticProgram.solve`
(parametric_programs.py:611-616) -/
structure MiSol where
  min : Option ℝ
  u : Option (Vec ℝ)
  z : Option (Vec ℝ)
  d : Option (Vec ℝ)

namespace MpMIQP

/-- the program in standard form, `(nc, H, f, A, b)` (parametric_programs.py:583-605) -/
def standardForm (q : MpMIQP) (x : Vec ℝ) : Py (ℕ × Mat ℝ × Vec ℝ × Mat ℝ × Vec ℝ) := do
  let H := np.block_diag [q.Huu, q.Hzz, Mat.zeros q.Ad.nc q.Ad.nc]
  let Hx ← np.dotMV q.Hzx x
  let f ← np.concatenate [Vec.zeros q.Au.nc, Hx, Vec.zeros q.Ad.nc]
  let A ← np.hstack [q.Au, q.Az, q.Ad]
  let Axx ← np.dotMV q.Ax x
  let b ← np.subV q.b Axx
  return (q.Au.nc + q.Az.nc, H, f, A, b)

/-- the solution of the parametric program from the one of the standard form
(parametric_programs.py:610-625) -/
noncomputable def reshape (q : MpMIQP) (x : Vec ℝ) (s : Grb.MSol) : Py MiSol :=
  match s.min, s.argmin with
  | some m, some v => do
    let xH ← np.dotVM x q.Hxx
    let xHx ← np.dotVV xH x
    return ⟨some (m + 1 / 2 * xHx), some (v.slice 0 q.Au.nc),
      some (v.slice q.Au.nc (q.Au.nc + q.Az.nc)), some (v.dropN (q.Au.nc + q.Az.nc))⟩
  -- `None[:nu]` raises
  | some _, none => .error .typeError
  | none, _ => .ok ⟨none, none, none, none⟩

/-- `solve(x)` (parametric_programs.py:568-625) -/
noncomputable def solve (G : Gurobi) (q : MpMIQP) (x : Vec ℝ) : Py MiSol := do
  let (nc, H, f, A, b) ← q.standardForm x
  let s ← Grb.mixed_integer_quadratic_program G nc H f A b none none
  q.reshape x s

end MpMIQP
end Verif
