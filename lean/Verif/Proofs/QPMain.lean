import Verif.Proofs.QP

/- The QP solver: optimality. -/
namespace Verif
open Finset Matrix Verif.Math

theorem shape_nc {n : ℕ} {A : Mat ℝ} {b : Vec ℝ} {C : Option (Mat ℝ)} {d : Option (Vec ℝ)}
    (hs : Spec.ConstrShape n A b C d) : A.nc = n := by
  cases C <;> cases d <;> simp only [Spec.ConstrShape] at hs
  · exact hs.1
  · exact hs.1

theorem shape_bn {n : ℕ} {A : Mat ℝ} {b : Vec ℝ} {C : Option (Mat ℝ)} {d : Option (Vec ℝ)}
    (hs : Spec.ConstrShape n A b C d) : b.n = A.nr := by
  cases C <;> cases d <;> simp only [Spec.ConstrShape] at hs
  · exact hs.2
  · exact hs.2.1

theorem qp_opt_of_kkt {n : ℕ} {H : Mat ℝ} {f : Vec ℝ} {A : Mat ℝ} {b : Vec ℝ}
    {C : Option (Mat ℝ)} {d : Option (Vec ℝ)} (hH : Spec.SymPosDef n H) (hf : f.n = n)
    (hs : Spec.ConstrShape n A b C d) {q : ℕ} {AC : Mat ℝ} {bd : Vec ℝ}
    (hS : Stacked n A b C d q AC bd) {lam x : Vec ℝ} (h : QpKKT H f AC bd lam x) :
    Spec.IsQpOpt H f A b C d x ∧
    (∀ x', Spec.Feasible A b C d x' → Spec.qpCost H f x' ≤ Spec.qpCost H f x →
      ∀ j < n, x'.e j = x.e j) ∧
    Spec.KKT (Spec.qpGrad H f x) A b C x (mulIneq A lam) (mulEq A q lam) := by
  have hAn := shape_nc hs
  have hPD := posDef_asM hH
  have key : ∀ x', Spec.Feasible A b C d x' → _ := fun x' hx' =>
    kkt_opt (A := AC.asM AC.nr n) (b := bd.asV AC.nr) (f := f.asV n) (x := x.asV n)
      (lam := lam.asV AC.nr) hPD (by
        funext j
        have := h.stat j (by rw [hS.nc]; exact j.2)
        rw [hS.nc, Finset.sum_range, Finset.sum_range] at this
        simp only [Pi.add_apply, Matrix.mulVec, dotProduct, transpose_apply, Mat.asM_apply,
          Vec.asV_apply, Pi.zero_apply]
        rw [← this]
        congr 1
        exact Finset.sum_congr rfl fun i _ => mul_comm _ _) (fun i => h.nonneg i i.2)
      (fun i => by
        have := h.compl i i.2
        rw [hS.nc, Finset.sum_range] at this
        exact this)
      (x' := x'.asV n) (by
        have := (ineqs_iff_fin _ _ _).1 ((hS.feas x').2 hx')
        rw [hS.nc] at this; exact this)
  refine ⟨⟨(hS.feas x).1 h.prim, fun x' hx' => ?_⟩, fun x' hx' hle j hj => ?_, ?_⟩
  · rw [qpCost_fin hH.nr hH.nc hf, qpCost_fin hH.nr hH.nc hf]
    exact (key x' hx').1
  · rw [qpCost_fin hH.nr hH.nc hf, qpCost_fin hH.nr hH.nc hf] at hle
    exact congrFun ((key x' hx').2 hle) ⟨j, hj⟩
  · refine ⟨rfl, mulEq_size hS lam, fun j hj => ?_, fun i hi => h.nonneg i (by rw [hS.nr]; omega), fun i hi => ?_⟩
    · have := h.stat j (by rw [hS.nc, ← hAn]; exact hj)
      have g := hS.grad lam.e j
      rw [← hS.nr] at g
      rw [g, hS.nc] at this
      simp only [Spec.qpGrad, hH.nc, mulIneq, mulEq]
      linarith
    · have := h.compl i (by rw [hS.nr]; omega)
      rw [hS.rowb i hi, hS.nc] at this
      simp only [hS.rowA i hi] at this
      rw [hAn]; exact this

/-- the answer of the QP solver is the unique optimum -/
theorem qp_answer {L : Lib} (hL : LibSpec L) {n : ℕ} {H : Mat ℝ} {f : Vec ℝ} {A : Mat ℝ} {b : Vec ℝ}
    {C : Option (Mat ℝ)} {d : Option (Vec ℝ)} (hH : Spec.SymPosDef n H) (hf : f.n = n)
    (hs : Spec.ConstrShape n A b C d) (hc : Spec.HasConstr A C) {tol : ℝ} (htol : 0 ≤ tol) :
    Pnnls.quadratic_program L H f A b C d tol = .ok Sol.none ∨
    ∃ x lam mu, Pnnls.quadratic_program L H f A b C d tol
      = .ok ⟨some (Spec.qpCost H f x), some x, some (whereGt lam tol), some lam, mu⟩ ∧
      x.n = n ∧ Spec.IsQpOpt H f A b C d x ∧
      (∀ x', Spec.Feasible A b C d x' → Spec.qpCost H f x' ≤ Spec.qpCost H f x →
        ∀ j < n, x'.e j = x.e j) ∧
      Spec.KKT (Spec.qpGrad H f x) A b C x lam mu := by
  obtain ⟨q, AC, bd, lam, x, t, r, hS, h1, h2, h3, h4, h5, h6, h7, -⟩ := qp_run hL hH hf hs tol
  have h7 := h7 hc
  by_cases hr : r > tol
  · rw [if_pos hr] at h7
    have ht : 0 < t := by rw [← h3]; exact pow_pos (by linarith) 2
    obtain ⟨k1, k2, k3⟩ := qp_opt_of_kkt hH hf hs hS (h5 ht)
    exact .inr ⟨x, _, _, h7, h1, k1, k2, k3⟩
  · rw [if_neg hr] at h7
    exact .inl h7

/-- a feasible strictly convex QP has an optimum -/
theorem qp_exists_opt {L : Lib} (hL : LibSpec L) {n : ℕ} {H : Mat ℝ} {f : Vec ℝ} {A : Mat ℝ}
    {b : Vec ℝ} {C : Option (Mat ℝ)} {d : Option (Vec ℝ)} (hH : Spec.SymPosDef n H) (hf : f.n = n)
    (hs : Spec.ConstrShape n A b C d) (hfeas : ∃ x, Spec.Feasible A b C d x) :
    ∃ x, Spec.IsQpOpt H f A b C d x := by
  obtain ⟨q, AC, bd, lam, x, t, r, hS, h1, h2, h3, h4, h5, h6, h7⟩ := qp_run hL hH hf hs 0
  by_cases ht : t ≤ 0
  · obtain ⟨x', hx'⟩ := hfeas
    exact absurd ((hS.feas x').2 hx') (h4 ht x')
  · exact ⟨x, (qp_opt_of_kkt hH hf hs hS (h5 (not_le.1 ht))).1⟩

/-- when the QP solver gives no answer -/
theorem qp_none_iff {L : Lib} (hL : LibSpec L) {n : ℕ} {H : Mat ℝ} {f : Vec ℝ} {A : Mat ℝ}
    {b : Vec ℝ} {C : Option (Mat ℝ)} {d : Option (Vec ℝ)} (hH : Spec.SymPosDef n H) (hf : f.n = n)
    (hs : Spec.ConstrShape n A b C d) (hc : Spec.HasConstr A C) {tol : ℝ} (htol : 0 < tol) {x0 : ℕ → ℝ}
    (hx0 : ∀ j < n, ∑ k ∈ range n, H.e j k * x0 k + f.e j = 0) :
    Pnnls.quadratic_program L H f A b C d tol = .ok Sol.none ↔
      (∀ x, ¬ Spec.Feasible A b C d x) ∨ ∃ x, Spec.IsQpOpt H f A b C d x ∧
        1 / tol ^ 2 - 1 ≤ ∑ i ∈ range n, ∑ j ∈ range n, (x.e i - x0 i) * H.e i j * (x.e j - x0 j) := by
  obtain ⟨q, AC, bd, lam, x, t, r, hS, h1, h2, h3, h4, h5, h6, h7, -⟩ := qp_run hL hH hf hs tol
  have h7 := h7 hc
  have hcase : Pnnls.quadratic_program L H f A b C d tol = .ok Sol.none ↔ r ≤ tol := by
    rw [h7]
    by_cases hr : r > tol
    · rw [if_pos hr]
      constructor
      · intro h; simp [Sol.none] at h
      · intro h; linarith
    · rw [if_neg hr]; simp [not_lt.1 hr]
  rw [hcase]
  have hrt : r ≤ tol ↔ t ≤ tol ^ 2 := by
    rw [← h3, sq_le_sq₀ h2 htol.le]
  rw [hrt]
  by_cases ht : t ≤ 0
  · have hinf : ∀ x, ¬ Spec.Feasible A b C d x := fun x' hx' => h4 ht x' ((hS.feas x').2 hx')
    constructor
    · intro _; exact .inl hinf
    · intro _; exact ht.trans (by positivity)
  · have ht' := not_le.1 ht
    obtain ⟨k1, k2, k3⟩ := qp_opt_of_kkt hH hf hs hS (h5 ht')
    have hd := h6 ht' x0 hx0
    have hineq : t ≤ tol ^ 2 ↔ 1 / tol ^ 2 - 1 ≤ 1 / t - 1 := by
      rw [sub_le_sub_iff_right, one_div_le_one_div (by positivity) ht']
    rw [hineq]
    constructor
    · intro h
      exact .inr ⟨x, k1, by rw [hd]; exact h⟩
    · rintro (h | ⟨x', hx', hle⟩)
      · exact absurd k1.1 (h x)
      · have heq := k2 x' hx'.1 (hx'.2 x k1.1)
        rw [← hd]
        refine hle.trans (le_of_eq ?_)
        refine Finset.sum_congr rfl fun i hi => Finset.sum_congr rfl fun j hj => ?_
        rw [heq i (mem_range.1 hi), heq j (mem_range.1 hj)]

end Verif
