import Verif.Proofs.LP

/- The LP solver: optimality. -/
namespace Verif
open Finset Matrix Verif.Math

theorem sum_swap (m n : ℕ) (A : ℕ → ℕ → ℝ) (y x : ℕ → ℝ) :
    ∑ i ∈ range m, y i * ∑ j ∈ range n, A i j * x j
      = ∑ j ∈ range n, (∑ i ∈ range m, A i j * y i) * x j := by
  simp only [Finset.mul_sum, Finset.sum_mul]
  rw [Finset.sum_comm]
  exact Finset.sum_congr rfl fun j _ => Finset.sum_congr rfl fun i _ => by ring

theorem lpRes_nonneg (f : Vec ℝ) (AC : Mat ℝ) (bd : Vec ℝ) (y s x : ℕ → ℝ) :
    0 ≤ lpRes f AC bd y s x :=
  add_nonneg (_root_.sq_nonneg _) (add_nonneg (Finset.sum_nonneg fun _ _ => _root_.sq_nonneg _)
    (Finset.sum_nonneg fun _ _ => _root_.sq_nonneg _))

theorem lpRes_bounds {f : Vec ℝ} {AC : Mat ℝ} {bd : Vec ℝ} {y s x : ℕ → ℝ} {r : ℝ}
    (h : r = Real.sqrt (lpRes f AC bd y s x)) :
    |∑ i ∈ range AC.nr, bd.e i * y i + ∑ j ∈ range AC.nc, f.e j * x j| ≤ r ∧
    (∀ i < AC.nr, |s i + ∑ j ∈ range AC.nc, AC.e i j * x j - bd.e i| ≤ r) ∧
    ∀ j < AC.nc, |∑ i ∈ range AC.nr, AC.e i j * y i + f.e j| ≤ r := by
  have h2 : ∀ i ∈ range AC.nr, 0 ≤ (s i + ∑ j ∈ range AC.nc, AC.e i j * x j - bd.e i) ^ 2 :=
    fun _ _ => _root_.sq_nonneg _
  have h3 : ∀ j ∈ range AC.nc, 0 ≤ (∑ i ∈ range AC.nr, AC.e i j * y i + f.e j) ^ 2 :=
    fun _ _ => _root_.sq_nonneg _
  have s2 := Finset.sum_nonneg h2
  have s3 := Finset.sum_nonneg h3
  rw [h]
  refine ⟨Real.abs_le_sqrt ?_, fun i hi => Real.abs_le_sqrt ?_, fun j hj => Real.abs_le_sqrt ?_⟩
  · rw [lpRes]; linarith
  · have := Finset.single_le_sum h2 (mem_range.2 hi)
    rw [lpRes]
    linarith [_root_.sq_nonneg (∑ i ∈ range AC.nr, bd.e i * y i + ∑ j ∈ range AC.nc, f.e j * x j)]
  · have := Finset.single_le_sum h3 (mem_range.2 hj)
    rw [lpRes]
    linarith [_root_.sq_nonneg (∑ i ∈ range AC.nr, bd.e i * y i + ∑ j ∈ range AC.nc, f.e j * x j)]

/-- the KKT system of the stacked LP -/
structure LpKKT (f : Vec ℝ) (AC : Mat ℝ) (bd : Vec ℝ) (y x : ℕ → ℝ) : Prop where
  gap : ∑ i ∈ range AC.nr, bd.e i * y i + ∑ j ∈ range AC.nc, f.e j * x j = 0
  prim : ∀ i < AC.nr, ∑ j ∈ range AC.nc, AC.e i j * x j ≤ bd.e i
  dual : ∀ j < AC.nc, ∑ i ∈ range AC.nr, AC.e i j * y i + f.e j = 0
  nonneg : ∀ i < AC.nr, 0 ≤ y i

theorem LpKKT.opt {f : Vec ℝ} {AC : Mat ℝ} {bd : Vec ℝ} {y x : ℕ → ℝ} (h : LpKKT f AC bd y x)
    (x' : ℕ → ℝ) (hx' : ∀ i < AC.nr, ∑ j ∈ range AC.nc, AC.e i j * x' j ≤ bd.e i) :
    ∑ j ∈ range AC.nc, f.e j * x j ≤ ∑ j ∈ range AC.nc, f.e j * x' j := by
  have h1 : ∑ i ∈ range AC.nr, y i * ∑ j ∈ range AC.nc, AC.e i j * x' j
      ≤ ∑ i ∈ range AC.nr, bd.e i * y i := by
    refine Finset.sum_le_sum fun i hi => ?_
    rw [mul_comm (bd.e i)]
    exact mul_le_mul_of_nonneg_left (hx' i (mem_range.1 hi)) (h.nonneg i (mem_range.1 hi))
  rw [sum_swap] at h1
  have h2 : ∑ j ∈ range AC.nc, (∑ i ∈ range AC.nr, AC.e i j * y i) * x' j
      = - ∑ j ∈ range AC.nc, f.e j * x' j := by
    rw [← Finset.sum_neg_distrib]
    refine Finset.sum_congr rfl fun j hj => ?_
    have := h.dual j (mem_range.1 hj)
    rw [show ∑ i ∈ range AC.nr, AC.e i j * y i = - f.e j by linarith]; ring
  have := h.gap
  linarith

theorem LpKKT.compl {f : Vec ℝ} {AC : Mat ℝ} {bd : Vec ℝ} {y x : ℕ → ℝ} (h : LpKKT f AC bd y x)
    (i : ℕ) (hi : i < AC.nr) : y i * (bd.e i - ∑ j ∈ range AC.nc, AC.e i j * x j) = 0 := by
  have hs : ∑ i ∈ range AC.nr, y i * (bd.e i - ∑ j ∈ range AC.nc, AC.e i j * x j) = 0 := by
    simp only [mul_sub, Finset.sum_sub_distrib]
    rw [sum_swap]
    have h2 : ∑ j ∈ range AC.nc, (∑ i ∈ range AC.nr, AC.e i j * y i) * x j
        = - ∑ j ∈ range AC.nc, f.e j * x j := by
      rw [← Finset.sum_neg_distrib]
      refine Finset.sum_congr rfl fun j hj => ?_
      have := h.dual j (mem_range.1 hj)
      rw [show ∑ i ∈ range AC.nr, AC.e i j * y i = - f.e j by linarith]; ring
    rw [h2]
    have := h.gap
    have e : ∑ i ∈ range AC.nr, y i * bd.e i = ∑ i ∈ range AC.nr, bd.e i * y i :=
      Finset.sum_congr rfl fun i _ => mul_comm _ _
    rw [e]; linarith
  exact (Finset.sum_eq_zero_iff_of_nonneg (fun i hi => mul_nonneg (h.nonneg i (mem_range.1 hi))
    (by linarith [h.prim i (mem_range.1 hi)]))).1 hs i (mem_range.2 hi)

theorem ineqs_iff_fin (AC : Mat ℝ) (bd x : Vec ℝ) :
    Spec.Ineqs AC bd x ↔ ∀ i : Fin AC.nr, (AC.asM AC.nr AC.nc *ᵥ x.asV AC.nc) i ≤ bd.asV AC.nr i := by
  rw [Spec.Ineqs, ← forall_fin_iff]
  refine forall_congr' fun i => ?_
  simp [Matrix.mulVec, dotProduct, Finset.sum_range]

theorem lpCost_fin (f x : Vec ℝ) {n : ℕ} (h : f.n = n) :
    Spec.lpCost f x = f.asV n ⬝ᵥ x.asV n := Vec.dot_asV f x h

/-- an optimum of the stacked LP gives a solution of its KKT system -/
theorem exists_lpKKT {f : Vec ℝ} {AC : Mat ℝ} {bd : Vec ℝ} (hf : f.n = AC.nc) {x : Vec ℝ}
    (hx : Spec.Ineqs AC bd x)
    (hopt : ∀ x', Spec.Ineqs AC bd x' → Spec.lpCost f x ≤ Spec.lpCost f x') :
    ∃ y : ℕ → ℝ, LpKKT f AC bd y x.e := by
  obtain ⟨y, h1, h2, h3⟩ := strong_duality (A := AC.asM AC.nr AC.nc) (b := bd.asV AC.nr)
    (f := f.asV AC.nc) (x := x.asV AC.nc) ((ineqs_iff_fin _ _ _).1 hx) (fun x' hx' => by
      have := hopt (Vec.ofFn x') ((ineqs_iff_fin _ _ _).2 (by simpa using hx'))
      rwa [lpCost_fin _ _ hf, lpCost_fin _ _ hf, Vec.ofFn_asV] at this)
  refine ⟨(Vec.ofFn y).e, ⟨?_, hx, fun j hj => ?_, fun i hi => ?_⟩⟩
  · have e1 : ∑ i ∈ range AC.nr, bd.e i * (Vec.ofFn y).e i = bd.asV AC.nr ⬝ᵥ y := by
      rw [Finset.sum_range]; simp only [dotProduct, Vec.ofFn_e]; rfl
    have e2 : ∑ j ∈ range AC.nc, f.e j * x.e j = f.asV AC.nc ⬝ᵥ x.asV AC.nc := by
      rw [Finset.sum_range]; rfl
    rw [e1, e2, h3]; ring
  · have := congrFun h2 ⟨j, hj⟩
    rw [Finset.sum_range]
    simp only [Vec.ofFn_e]
    simp only [Matrix.mulVec, dotProduct, transpose_apply, Mat.asM_apply, Pi.neg_apply,
      Vec.asV_apply] at this
    linarith
  · rw [Vec.ofFn_e y ⟨i, hi⟩]; exact h1 _

/-- a point of a stacked LP that solves the KKT system with zero residual -/
theorem lpKKT_of_res {f : Vec ℝ} {AC : Mat ℝ} {bd : Vec ℝ} {y s x : ℕ → ℝ}
    (hy : ∀ i < AC.nr, 0 ≤ y i) (hs : ∀ i < AC.nr, 0 ≤ s i)
    (h : lpRes f AC bd y s x = 0) : LpKKT f AC bd y x := by
  have hb := lpRes_bounds (r := 0) (f := f) (AC := AC) (bd := bd) (y := y) (s := s) (x := x)
    (by rw [h]; simp)
  refine ⟨abs_nonpos_iff.1 hb.1, fun i hi => ?_, fun j hj => abs_nonpos_iff.1 (hb.2.2 j hj), hy⟩
  have := abs_nonpos_iff.1 (hb.2.1 i hi)
  linarith [hs i hi]

theorem LpKKT.res {f : Vec ℝ} {AC : Mat ℝ} {bd : Vec ℝ} {y x : ℕ → ℝ} (h : LpKKT f AC bd y x) :
    lpRes f AC bd y (fun i => bd.e i - ∑ j ∈ range AC.nc, AC.e i j * x j) x = 0 := by
  rw [lpRes, h.gap]
  have e1 : ∑ i ∈ range AC.nr, (bd.e i - ∑ j ∈ range AC.nc, AC.e i j * x j
      + ∑ j ∈ range AC.nc, AC.e i j * x j - bd.e i) ^ 2 = 0 :=
    Finset.sum_eq_zero fun i _ => by ring
  have e2 : ∑ j ∈ range AC.nc, (∑ i ∈ range AC.nr, AC.e i j * y i + f.e j) ^ 2 = 0 :=
    Finset.sum_eq_zero fun j hj => by rw [h.dual j (mem_range.1 hj)]; ring
  rw [e1, e2]; ring

/-- the multipliers of the inequalities (first `n_ineq` entries) -/
def mulIneq (A : Mat ℝ) (ys : Vec ℝ) : Vec ℝ := ⟨A.nr, ys.e⟩
/-- the multipliers of the equalities -/
def mulEq (A : Mat ℝ) (q : ℕ) (ys : Vec ℝ) : Option (Vec ℝ) :=
  if q > 0 then some ⟨q, fun i => ys.e (A.nr + i) + -(ys.e (A.nr + q + i))⟩ else none

theorem mulEq_size {n : ℕ} {A : Mat ℝ} {b : Vec ℝ} {C : Option (Mat ℝ)} {d : Option (Vec ℝ)}
    {q : ℕ} {AC : Mat ℝ} {bd : Vec ℝ} (hS : Stacked n A b C d q AC bd) (ys : Vec ℝ) :
    ∀ C', C = some C' → 0 < C'.nr → ∃ m, mulEq A q ys = some m ∧ m.n = C'.nr := by
  intro C' hC' h0
  have := hS.Cnr C' hC'
  exact ⟨_, if_pos (this ▸ h0), this.symm⟩

theorem slice_mulIneq (A : Mat ℝ) (ys : Vec ℝ) (h : A.nr ≤ ys.n) :
    ys.slice 0 A.nr = mulIneq A ys := by
  simp [Vec.slice, mulIneq, h]

/-- evaluation of the LP code -/
theorem lp_run {L : Lib} (hL : LibSpec L) {n : ℕ} {f : Vec ℝ} {A : Mat ℝ} {b : Vec ℝ}
    {C : Option (Mat ℝ)} {d : Option (Vec ℝ)} (hf : f.n = n) (hs : Spec.ConstrShape n A b C d)
    (tol : ℝ) :
    ∃ q AC bd ys x r, Stacked n A b C d q AC bd ∧ x.n = n ∧ ys.n = AC.nr + AC.nr ∧
      (∀ i < AC.nr, 0 ≤ ys.e i) ∧ (∀ i < AC.nr, 0 ≤ ys.e (AC.nr + i)) ∧
      r = Real.sqrt (lpRes f AC bd ys.e (fun i => ys.e (AC.nr + i)) x.e) ∧
      (∀ y s x' : ℕ → ℝ, (∀ i < AC.nr, 0 ≤ y i) → (∀ i < AC.nr, 0 ≤ s i) →
        lpRes f AC bd ys.e (fun i => ys.e (AC.nr + i)) x.e ≤ lpRes f AC bd y s x') ∧
      (Spec.HasConstr A C → Pnnls.linear_program L f A b C d tol = .ok (if r < tol then
        ⟨some (Spec.lpCost f x), some x, some (whereGt (mulIneq A ys) tol), some (mulIneq A ys),
          mulEq A q ys⟩ else Sol.none)) ∧
      (¬ Spec.HasConstr A C → Pnnls.linear_program L f A b C d tol = .error .runtimeError) := by
  obtain ⟨q, AC, bd, hst, hS⟩ := stackEqualities_ok hs
  have hb : bd.n = AC.nr := by rw [hS.bn, hS.nr]
  have hf' : f.n = AC.nc := by rw [hS.nc, hf]
  obtain ⟨ys, x, r, h1, h2, h3, h4, h5, h6, h7⟩ := lp_core hL hb hf'
  refine ⟨q, AC, bd, ys, x, r, hS, h3.trans hS.nc, h2, h4, h5, h6, h7, fun hc => ?_, fun hc => ?_⟩
  rotate_left
  · rw [← hS.hasConstr] at hc
    unfold Pnnls.linear_program
    simp only [hst, Py.ok_bind]
    rw [← hS.nr, lpData_ok hb hf']
    simp only [Py.ok_bind, lp_core_none hL hb hf' (by omega), Py.error_bind]
  have h1 := h1 (hS.hasConstr.2 hc)
  have hle : A.nr + 2 * q ≤ ys.n := by rw [h2, hS.nr]; omega
  unfold Pnnls.linear_program
  simp only [hst, Py.ok_bind]
  rw [← hS.nr, lpData_ok hb hf']
  simp only [Py.ok_bind, h1]
  by_cases hr : r < tol
  · simp only [if_pos hr]
    have e1 : np.dotVV f x = .ok (Spec.lpCost f x) := if_pos (by rw [h3, hf'])
    rw [e1, slice_mulIneq A ys (by omega)]
    simp only [Py.ok_bind]
    by_cases hq : q > 0
    · have e2 : np.addV (ys.slice A.nr (A.nr + q)) (ys.slice (A.nr + q) (A.nr + 2 * q)).neg
          = .ok ⟨q, fun i => ys.e (A.nr + i) + -(ys.e (A.nr + q + i))⟩ := by
        have : (ys.slice A.nr (A.nr + q)).n = (ys.slice (A.nr + q) (A.nr + 2 * q)).neg.n := by
          simp; omega
        rw [np.addV, if_pos this]
        have hq' : (ys.slice A.nr (A.nr + q)).n = q := by simp; omega
        simp only [Vec.add, hq']
        rfl
      rw [← hS.nr] at e2
      simp only [if_pos hq, e2, Py.ok_bind, mulEq]
      rfl
    · simp only [if_neg hq, mulEq]
      rfl
  · simp only [if_neg hr]; rfl

/-- KKT of the stacked problem gives the optimality and the multipliers of the original one -/
theorem lp_opt_of_kkt {n : ℕ} {f : Vec ℝ} {A : Mat ℝ} {b : Vec ℝ} {C : Option (Mat ℝ)}
    {d : Option (Vec ℝ)} (hf : f.n = n) (hs : Spec.ConstrShape n A b C d) {q : ℕ} {AC : Mat ℝ}
    {bd : Vec ℝ} (hS : Stacked n A b C d q AC bd) {ys x : Vec ℝ} (h : LpKKT f AC bd ys.e x.e) :
    Spec.IsLpOpt f A b C d x ∧ Spec.KKT f.e A b C x (mulIneq A ys) (mulEq A q ys) := by
  have hAn : A.nc = n := by
    cases C <;> cases d <;> simp only [Spec.ConstrShape] at hs
    · exact hs.1
    · exact hs.1
  have hfn : f.n = AC.nc := by rw [hf, hS.nc]
  refine ⟨⟨(hS.feas x).1 h.prim, fun x' hx' => ?_⟩, ⟨rfl, mulEq_size hS ys, fun j hj => ?_, fun i hi => ?_,
    fun i hi => ?_⟩⟩
  · have := h.opt x'.e ((hS.feas x').2 hx')
    simpa only [Spec.lpCost, hfn] using this
  · have := h.dual j (by rw [hS.nc, ← hAn]; exact hj)
    have g := hS.grad ys.e j
    rw [← hS.nr] at g
    have e : ∑ i ∈ range AC.nr, AC.e i j * ys.e i = ∑ i ∈ range AC.nr, ys.e i * AC.e i j :=
      Finset.sum_congr rfl fun i _ => mul_comm _ _
    rw [e, g] at this
    simp only [mulIneq, mulEq]
    linarith
  · exact h.nonneg i (by rw [hS.nr]; omega)
  · have := h.compl i (by rw [hS.nr]; omega)
    rw [hS.rowb i hi, hS.nc] at this
    simp only [hS.rowA i hi] at this
    rw [hAn]; exact this

/-- the code finds an optimum if there is one -/
theorem lp_finds {L : Lib} (hL : LibSpec L) {n : ℕ} {f : Vec ℝ} {A : Mat ℝ} {b : Vec ℝ}
    {C : Option (Mat ℝ)} {d : Option (Vec ℝ)} (hf : f.n = n) (hs : Spec.ConstrShape n A b C d)
    (hc : Spec.HasConstr A C) {tol : ℝ} (htol : 0 < tol) (hopt : ∃ x, Spec.IsLpOpt f A b C d x) :
    ∃ x lam mu, Pnnls.linear_program L f A b C d tol
      = .ok ⟨some (Spec.lpCost f x), some x, some (whereGt lam tol), some lam, mu⟩ ∧
      x.n = n ∧ Spec.IsLpOpt f A b C d x ∧ Spec.KKT f.e A b C x lam mu := by
  obtain ⟨q, AC, bd, ys, x, r, hS, h1, h2, h3, h4, h5, h6, h7, -⟩ := lp_run hL hf hs tol
  have hfn : f.n = AC.nc := by rw [hf, hS.nc]
  obtain ⟨x0, hx0, hopt0⟩ := hopt
  obtain ⟨y0, hy0⟩ := exists_lpKKT hfn ((hS.feas x0).2 hx0)
    (fun x' hx' => hopt0 x' ((hS.feas x').1 hx'))
  have hres0 := h6 y0 (fun i => bd.e i - ∑ j ∈ range AC.nc, AC.e i j * x0.e j) x0.e hy0.nonneg (fun i hi => by linarith [hy0.prim i hi])
  rw [hy0.res] at hres0
  have hz := le_antisymm hres0 (lpRes_nonneg _ _ _ _ _ _)
  have hr : r < tol := by rw [h5, hz]; simpa using htol
  have h7 := h7 hc
  rw [if_pos hr] at h7
  obtain ⟨k1, k2⟩ := lp_opt_of_kkt hf hs hS (lpKKT_of_res h3 h4 hz)
  exact ⟨x, mulIneq A ys, mulEq A q ys, h7, h1, k1, k2⟩

/-- the code does not raise on well shaped data with constraints -/
theorem lp_total {L : Lib} (hL : LibSpec L) {n : ℕ} {f : Vec ℝ} {A : Mat ℝ} {b : Vec ℝ}
    {C : Option (Mat ℝ)} {d : Option (Vec ℝ)} (hf : f.n = n) (hs : Spec.ConstrShape n A b C d)
    (hc : Spec.HasConstr A C) (tol : ℝ) :
    Pnnls.linear_program L f A b C d tol = .ok Sol.none ∨
    ∃ x lam mu, Pnnls.linear_program L f A b C d tol
      = .ok ⟨some (Spec.lpCost f x), some x, some (whereGt lam tol), some lam, mu⟩ ∧ x.n = n := by
  obtain ⟨q, AC, bd, ys, x, r, hS, h1, h2, h3, h4, h5, h6, h7, -⟩ := lp_run hL hf hs tol
  have h7 := h7 hc
  by_cases hr : r < tol
  · rw [if_pos hr] at h7; exact .inr ⟨x, _, _, h7, h1⟩
  · rw [if_neg hr] at h7; exact .inl h7

/-- without an optimum the program is infeasible or unbounded below -/
theorem no_lpOpt {n : ℕ} {f : Vec ℝ} {A : Mat ℝ} {b : Vec ℝ}
    {C : Option (Mat ℝ)} {d : Option (Vec ℝ)} (hf : f.n = n) (hs : Spec.ConstrShape n A b C d)
    (hno : ¬ ∃ x, Spec.IsLpOpt f A b C d x) :
    (∀ x, ¬ Spec.Feasible A b C d x) ∨
      ∀ M : ℝ, ∃ x, Spec.Feasible A b C d x ∧ Spec.lpCost f x < M := by
  obtain ⟨q, AC, bd, hst, hS⟩ := stackEqualities_ok hs
  have hfn : f.n = AC.nc := by rw [hS.nc, hf]
  by_contra hcon
  push Not at hcon
  obtain ⟨⟨x0, hx0⟩, M, hM⟩ := hcon
  obtain ⟨x, k1, k2⟩ := lp_attained_of_bounded (A := AC.asM AC.nr AC.nc) (b := bd.asV AC.nr)
    (f := f.asV AC.nc) (x0 := x0.asV AC.nc) ((ineqs_iff_fin _ _ _).1 ((hS.feas x0).2 hx0)) (M := M)
    (fun x hx => by
      have := hM (Vec.ofFn x) ((hS.feas _).1 ((ineqs_iff_fin _ _ _).2 (by simpa using hx)))
      rwa [lpCost_fin _ _ hfn, Vec.ofFn_asV] at this)
  apply hno
  refine ⟨Vec.ofFn x, (hS.feas _).1 ((ineqs_iff_fin _ _ _).2 (by simpa using k1)), fun x' hx' => ?_⟩
  rw [lpCost_fin _ _ hfn, lpCost_fin _ _ hfn, Vec.ofFn_asV]
  exact k2 _ ((ineqs_iff_fin _ _ _).1 ((hS.feas x').2 hx'))

end Verif
