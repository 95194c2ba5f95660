import Verif.Proofs.LPInexact
import Verif.Proofs.LibExists
import Verif.Spec.Opt

/- C168, C169: the LP solver when `scipy.optimize.nnls` stops before the minimum. -/
namespace Verif.Props
open Finset

/-- the rows of the certificate of an answer: the cost of `x` is at most that of a feasible `x'` plus the tolerance
times `1 + ‖x'‖₁` -/
theorem cert_subopt {n : ℕ} {f : Vec ℝ} {A : Mat ℝ} {b : Vec ℝ} {C : Option (Mat ℝ)} {d : Option (Vec ℝ)}
    (hf : f.n = n) (hs : Spec.ConstrShape n A b C d) {x lam : Vec ℝ} {mu : Option (Vec ℝ)} {ε : ℝ}
    (h0 : ∀ i < A.nr, 0 ≤ lam.e i)
    (hst : ∀ j < n, |f.e j + ∑ i ∈ range A.nr, lam.e i * A.e i j + Spec.eqGrad C mu j| ≤ ε)
    (hgap : |∑ i ∈ range A.nr, b.e i * lam.e i + Spec.eqValue d mu + Spec.lpCost f x| ≤ ε)
    {x' : Vec ℝ} (hx' : Spec.Feasible A b C d x') :
    Spec.lpCost f x ≤ Spec.lpCost f x' + ε * (1 + ∑ j ∈ range n, |x'.e j|) := by
  have hAn : A.nc = n := by
    cases C <;> cases d <;> simp only [Spec.ConstrShape] at hs
    · exact hs.1
    · exact hs.1
  -- the stationarity rows multiplied by x'
  have e1 : ∑ j ∈ range n, (f.e j + ∑ i ∈ range A.nr, lam.e i * A.e i j + Spec.eqGrad C mu j) * x'.e j
      ≥ -(ε * ∑ j ∈ range n, |x'.e j|) := by
    rw [ge_iff_le, Finset.mul_sum, ← Finset.sum_neg_distrib]
    refine Finset.sum_le_sum fun j hj => ?_
    have h1 := hst j (mem_range.1 hj)
    have h2 : |(f.e j + ∑ i ∈ range A.nr, lam.e i * A.e i j + Spec.eqGrad C mu j) * x'.e j| ≤ ε * |x'.e j| := by
      rw [abs_mul]; exact mul_le_mul_of_nonneg_right h1 (abs_nonneg _)
    exact (abs_le.1 h2).1
  have e2 : ∑ j ∈ range n, (f.e j + ∑ i ∈ range A.nr, lam.e i * A.e i j + Spec.eqGrad C mu j) * x'.e j
      = Spec.lpCost f x' + ∑ i ∈ range A.nr, lam.e i * ∑ j ∈ range A.nc, A.e i j * x'.e j
        + ∑ j ∈ range n, Spec.eqGrad C mu j * x'.e j := by
    simp only [add_mul, Finset.sum_add_distrib, Spec.lpCost, hf, hAn]
    congr 2
    simp only [Finset.sum_mul, Finset.mul_sum]
    rw [Finset.sum_comm]
    exact Finset.sum_congr rfl fun i _ => Finset.sum_congr rfl fun j _ => by ring
  have e3 : ∑ i ∈ range A.nr, lam.e i * ∑ j ∈ range A.nc, A.e i j * x'.e j ≤ ∑ i ∈ range A.nr, b.e i * lam.e i := by
    refine Finset.sum_le_sum fun i hi => ?_
    rw [mul_comm (b.e i)]
    exact mul_le_mul_of_nonneg_left (hx'.1 i (mem_range.1 hi)) (h0 i (mem_range.1 hi))
  have e4 : ∑ j ∈ range n, Spec.eqGrad C mu j * x'.e j = Spec.eqValue d mu := by
    cases C with
    | none =>
      cases d with
      | none => cases mu <;> simp [Spec.eqGrad, Spec.eqValue]
      | some d => exact absurd hs (by simp [Spec.ConstrShape])
    | some C' =>
      cases d with
      | none => exact absurd hs (by simp [Spec.ConstrShape])
      | some d =>
        simp only [Spec.ConstrShape] at hs
        cases mu with
        | none =>
          simp [Spec.eqGrad, Spec.eqValue]
        | some m =>
          simp only [Spec.eqGrad, Spec.eqValue, hs.2.2.2]
          simp only [Finset.sum_mul]
          rw [Finset.sum_comm]
          refine Finset.sum_congr rfl fun i hi => ?_
          have h := hx'.2 i (mem_range.1 hi)
          rw [hs.2.2.1] at h
          rw [← h, Finset.sum_mul]
          exact Finset.sum_congr rfl fun j _ => by ring
  have e5 := abs_le.1 hgap
  rw [e2, e4] at e1
  rw [mul_add, mul_one]
  linarith [e5.2]

/-- C168: whatever nonnegative vector `nnls` returns, with the norm of its residual, an answer of `linear_program`
satisfies the constraints within less than `tol`, carries nonnegative multipliers that satisfy stationarity and strong
duality within the same amount, and costs at most `ε (1 + ‖x'‖₁)` more than any feasible point `x'`. -/
theorem C168 (L : Lib) (hL : LibSound L) (n : ℕ) (f : Vec ℝ) (A : Mat ℝ) (b : Vec ℝ)
    (C : Option (Mat ℝ)) (d : Option (Vec ℝ)) (hf : f.n = n) (hs : Spec.ConstrShape n A b C d)
    (tol : ℝ) (s : Sol) (m : ℝ) (hrun : Pnnls.linear_program L f A b C d tol = .ok s)
    (hm : s.min = some m) :
    ∃ x lam ε, ε < tol ∧ s.argmin = some x ∧ x.n = n ∧ m = Spec.lpCost f x ∧
      s.multiplier_inequality = some lam ∧ (∀ i < A.nr, 0 ≤ lam.e i) ∧
      Spec.FeasibleTol ε A b C d x ∧
      (∀ j < n, |f.e j + ∑ i ∈ range A.nr, lam.e i * A.e i j
        + Spec.eqGrad C s.multiplier_equality j| ≤ ε) ∧
      |∑ i ∈ range A.nr, b.e i * lam.e i + Spec.eqValue d s.multiplier_equality
        + Spec.lpCost f x| ≤ ε ∧
      ∀ x', Spec.Feasible A b C d x' →
        Spec.lpCost f x ≤ Spec.lpCost f x' + ε * (1 + ∑ j ∈ range n, |x'.e j|) := by
  obtain ⟨q, AC, bd, ys, x, r, hS, h1, h2, h3, h4, h5, h6, h7, h8⟩ := lp_run_sound hL hf hs tol
  rw [h7 (by by_contra hc; rw [h8 hc] at hrun; cases hrun)] at hrun
  by_cases hr : r < tol
  · rw [if_pos hr] at hrun
    obtain ⟨k1, k2, k3⟩ := lpRes_bounds h5
    cases hrun
    have c0 : ∀ i < A.nr, 0 ≤ (mulIneq A ys).e i := fun i hi => h3 i (by rw [hS.nr]; omega)
    have c1 : ∀ j < n, |f.e j + ∑ i ∈ range A.nr, (mulIneq A ys).e i * A.e i j
        + Spec.eqGrad C (mulEq A q ys) j| ≤ r := by
      intro j hj
      have := k3 j (by rw [hS.nc]; exact hj)
      have g := hS.grad ys.e j
      rw [← hS.nr] at g
      have e : ∑ i ∈ range AC.nr, AC.e i j * ys.e i = ∑ i ∈ range AC.nr, ys.e i * AC.e i j :=
        Finset.sum_congr rfl fun i _ => mul_comm _ _
      rw [e, g] at this
      simp only [mulIneq, mulEq]
      rw [add_assoc, add_comm]
      exact this
    have c2 : |∑ i ∈ range A.nr, b.e i * (mulIneq A ys).e i + Spec.eqValue d (mulEq A q ys)
        + Spec.lpCost f x| ≤ r := by
      have g := hS.value ys.e
      rw [← hS.nr] at g
      rw [g] at k1
      simp only [mulIneq, mulEq, Spec.lpCost]
      rw [show f.n = AC.nc by rw [hf, hS.nc]]
      exact k1
    refine ⟨x, mulIneq A ys, r, hr, rfl, h1, by simpa using hm.symm, rfl, c0, ?_, c1, c2,
      fun x' hx' => cert_subopt hf hs c0 c1 c2 hx'⟩
    rw [← hS.feasTol]
    intro i hi
    have := abs_le.1 (k2 i hi)
    have := h4 i hi
    linarith
  · rw [if_neg hr] at hrun
    cases hrun
    simp [Sol.none] at hm

/-- C169: if the residual returned by `nnls` exceeds the smallest one by less than `tol`, then `linear_program` answers
whenever the LP has an optimal solution, so `None` is returned only for infeasible or unbounded programs. -/
theorem C169 (L : Lib) (hL : LibSound L) (δ : ℝ) (hδ : NnlsWithin L δ) (n : ℕ) (f : Vec ℝ) (A : Mat ℝ) (b : Vec ℝ)
    (C : Option (Mat ℝ)) (d : Option (Vec ℝ)) (hf : f.n = n) (hs : Spec.ConstrShape n A b C d)
    (hc : Spec.HasConstr A C) (tol : ℝ) (htol : δ < tol) :
    ∃ s, Pnnls.linear_program L f A b C d tol = .ok s ∧
      ((∃ x, Spec.IsLpOpt f A b C d x) → ∃ m, s.min = some m) ∧
      (s.min = none → (∀ x, ¬ Spec.Feasible A b C d x) ∨
        ∀ M : ℝ, ∃ x, Spec.Feasible A b C d x ∧ Spec.lpCost f x < M) := by
  obtain ⟨q, AC, bd, ys, x, r, hS, h1, h2, h3, h4, h5, h6, h7, -⟩ := lp_run_sound hL hf hs tol
  have h7 := h7 hc
  have hans : (∃ x, Spec.IsLpOpt f A b C d x) → r < tol := by
    intro hopt
    -- the KKT conditions of an optimum are a zero of the residual
    obtain ⟨x0, hx0, hopt0⟩ := hopt
    obtain ⟨y0, hy0⟩ := exists_lpKKT (by rw [hf, hS.nc]) ((hS.feas x0).2 hx0)
      (fun x' hx' => hopt0 x' ((hS.feas x').1 hx'))
    have := h6 δ hδ y0 (fun i => bd.e i - ∑ j ∈ range AC.nc, AC.e i j * x0.e j) x0.e hy0.nonneg
      (fun i hi => by linarith [hy0.prim i hi])
    rw [hy0.res] at this
    simp at this
    linarith
  refine ⟨_, h7, fun hopt => ?_, fun hn => ?_⟩
  · rw [if_pos (hans hopt)]; exact ⟨_, rfl⟩
  · refine no_lpOpt hf hs fun hopt => ?_
    rw [if_pos (hans hopt)] at hn
    simp at hn

end Verif.Props
