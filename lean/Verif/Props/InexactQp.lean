import Verif.Proofs.QPInexact
import Verif.Proofs.LibExists
import Verif.Spec.Opt

/- C170, C171: the QP solver when `scipy.optimize.nnls` stops before the minimum. -/
namespace Verif.Spec
open Finset

/-- `(x' - x)' H (x' - x)` -/
def distSq (H : Mat ℝ) (x' x : ℕ → ℝ) : ℝ :=
  ∑ i ∈ range H.nr, ∑ j ∈ range H.nc, (x' i - x i) * H.e i j * (x' j - x j)

/-- `∑_i |mu_i|`, zero when there are no equalities -/
def eqNorm : Option (Mat ℝ) → Option (Vec ℝ) → ℝ
  | some C, some mu => ∑ i ∈ range C.nr, |mu.e i|
  | _, _ => 0

end Verif.Spec

namespace Verif.Props
open Finset Matrix Verif.Math

theorem qp_expand {n : ℕ} {H : Mat ℝ} {f : Vec ℝ} (hH : Spec.SymPosDef n H) (hf : f.n = n) (x x' : Vec ℝ) :
    Spec.qpCost H f x' = Spec.qpCost H f x + ∑ j ∈ range n, Spec.qpGrad H f x j * (x'.e j - x.e j)
      + 1 / 2 * Spec.distSq H x'.e x.e := by
  have hsym : (H.asM n n)ᵀ = H.asM n n := by
    funext i j; exact hH.symm j j.2 i i.2
  rw [qpCost_fin hH.nr hH.nc hf, qpCost_fin hH.nr hH.nc hf, qcost_expand hsym (f.asV n) (x.asV n) (x'.asV n)]
  congr 2
  · congr 1
    rw [Finset.sum_range]
    refine Finset.sum_congr rfl fun j _ => ?_
    simp only [Spec.qpGrad, hH.nc, Finset.sum_range]
    rfl
  · simp only [Spec.distSq, hH.nr, hH.nc, Finset.sum_range, dotProduct, Matrix.mulVec, Mat.asM_apply, Finset.mul_sum]
    exact Finset.sum_congr rfl fun i _ => Finset.sum_congr rfl fun j _ => by
      simp only [Pi.sub_apply, Vec.asV_apply]; ring

/-- first order term at the answer -/
theorem within_first {β α : ℝ} {n : ℕ} {H : Mat ℝ} {f : Vec ℝ} {AC : Mat ℝ} {bd lam x x' : Vec ℝ}
    (hnc : AC.nc = n) (hH : H.nc = n) (h : QpKKTWithin α β H f AC bd lam x) (hx' : Spec.Ineqs AC bd x') :
    -β ≤ ∑ j ∈ range n, Spec.qpGrad H f x j * (x'.e j - x.e j) := by
  have e1 : ∑ j ∈ range n, Spec.qpGrad H f x j * (x'.e j - x.e j)
      = ∑ i ∈ range AC.nr, lam.e i * ((∑ j ∈ range AC.nc, AC.e i j * x.e j) - ∑ j ∈ range AC.nc, AC.e i j * x'.e j) := by
    have : ∀ j ∈ range n, Spec.qpGrad H f x j * (x'.e j - x.e j)
        = ∑ i ∈ range AC.nr, lam.e i * (AC.e i j * x.e j - AC.e i j * x'.e j) := by
      intro j hj
      have hs := h.stat j (by rw [hnc]; exact mem_range.1 hj)
      rw [hnc] at hs
      have hg : Spec.qpGrad H f x j = - ∑ i ∈ range AC.nr, lam.e i * AC.e i j := by
        simp only [Spec.qpGrad, hH]; linarith
      rw [hg, neg_mul, Finset.sum_mul, ← Finset.sum_neg_distrib]
      exact Finset.sum_congr rfl fun i _ => by ring
    rw [Finset.sum_congr rfl this, Finset.sum_comm]
    refine Finset.sum_congr rfl fun i _ => ?_
    rw [← Finset.mul_sum, Finset.sum_sub_distrib, hnc]
  rw [e1]
  have h2 := (abs_le.1 h.compl).2
  have h3 : ∑ i ∈ range AC.nr, lam.e i * ((∑ j ∈ range AC.nc, AC.e i j * x.e j) - ∑ j ∈ range AC.nc, AC.e i j * x'.e j)
      ≥ ∑ i ∈ range AC.nr, -(lam.e i * (bd.e i - ∑ j ∈ range AC.nc, AC.e i j * x.e j)) := by
    refine Finset.sum_le_sum fun i hi => ?_
    have := mul_le_mul_of_nonneg_left (hx' i (mem_range.1 hi)) (h.nonneg i (mem_range.1 hi))
    rw [mul_sub, mul_sub]; linarith
  rw [Finset.sum_neg_distrib] at h3
  linarith

/-- first order term at an optimum, for a point that satisfies the constraints within `α` -/
theorem opt_first {α : ℝ} {n : ℕ} {H : Mat ℝ} {f : Vec ℝ} {A : Mat ℝ} {b : Vec ℝ} {C : Option (Mat ℝ)} {d : Option (Vec ℝ)}
    (hs : Spec.ConstrShape n A b C d) {x xs ls : Vec ℝ} {ms : Option (Vec ℝ)}
    (hx : Spec.FeasibleTol α A b C d x) (hxs : Spec.Feasible A b C d xs)
    (hk : Spec.KKT (Spec.qpGrad H f xs) A b C xs ls ms) :
    -(α * (∑ i ∈ range A.nr, ls.e i + Spec.eqNorm C ms))
      ≤ ∑ j ∈ range n, Spec.qpGrad H f xs j * (x.e j - xs.e j) := by
  have hAn := shape_nc hs
  have e1 : ∑ j ∈ range n, Spec.qpGrad H f xs j * (x.e j - xs.e j)
      = - ∑ j ∈ range n, (∑ i ∈ range A.nr, ls.e i * A.e i j) * (x.e j - xs.e j)
        - ∑ j ∈ range n, Spec.eqGrad C ms j * (x.e j - xs.e j) := by
    rw [← Finset.sum_neg_distrib, ← Finset.sum_sub_distrib]
    refine Finset.sum_congr rfl fun j hj => ?_
    have := hk.stat j (by rw [hAn]; exact mem_range.1 hj)
    rw [show Spec.qpGrad H f xs j = -(∑ i ∈ range A.nr, ls.e i * A.e i j) - Spec.eqGrad C ms j by linarith]
    ring
  have e2 : ∑ j ∈ range n, (∑ i ∈ range A.nr, ls.e i * A.e i j) * (x.e j - xs.e j)
      = ∑ i ∈ range A.nr, ls.e i * (∑ j ∈ range A.nc, A.e i j * x.e j - ∑ j ∈ range A.nc, A.e i j * xs.e j) := by
    simp only [Finset.sum_mul]
    rw [Finset.sum_comm]
    refine Finset.sum_congr rfl fun i _ => ?_
    rw [← Finset.sum_sub_distrib, Finset.mul_sum, hAn]
    exact Finset.sum_congr rfl fun j _ => by ring
  have e3 : ∑ i ∈ range A.nr, ls.e i * (∑ j ∈ range A.nc, A.e i j * x.e j - ∑ j ∈ range A.nc, A.e i j * xs.e j)
      ≤ α * ∑ i ∈ range A.nr, ls.e i := by
    rw [Finset.mul_sum]
    refine Finset.sum_le_sum fun i hi => ?_
    have hi := mem_range.1 hi
    have h1 := hk.compl i hi
    have h2 := mul_le_mul_of_nonneg_left (hx.1 i hi) (hk.nonneg i hi)
    nlinarith
  have e4 : ∑ j ∈ range n, Spec.eqGrad C ms j * (x.e j - xs.e j) ≤ α * Spec.eqNorm C ms := by
    cases C with
    | none => cases ms <;> simp [Spec.eqGrad, Spec.eqNorm]
    | some C =>
      cases d with
      | none => exact absurd hs (by simp [Spec.ConstrShape])
      | some d =>
        cases ms with
        | none => simp [Spec.eqGrad, Spec.eqNorm]
        | some m =>
          simp only [Spec.eqGrad, Spec.eqNorm, Spec.ConstrShape] at hs ⊢
          simp only [Finset.sum_mul]
          rw [Finset.sum_comm, Finset.mul_sum]
          refine Finset.sum_le_sum fun i hi => ?_
          have h1 := hx.2 i (mem_range.1 hi)
          have h2 := hxs.2 i (mem_range.1 hi)
          rw [hs.2.2.1] at h1 h2
          have e : ∑ j ∈ range n, m.e i * C.e i j * (x.e j - xs.e j)
              = m.e i * (∑ j ∈ range n, C.e i j * x.e j - d.e i) := by
            rw [← h2, ← Finset.sum_sub_distrib, Finset.mul_sum]
            exact Finset.sum_congr rfl fun j _ => by ring
          rw [e]
          refine (le_abs_self _).trans ?_
          rw [abs_mul, mul_comm α]
          exact mul_le_mul_of_nonneg_left h1 (abs_nonneg _)
  rw [e1, e2, mul_add]
  linarith

/-- C170: let the vector `y ≥ 0` returned by `nnls` satisfy the conditions of optimality up to `δ` (gradient) and `ε < tol²`
(complementarity).  An answer of `quadratic_program` then violates the constraints by at most `δ / t` for some
`t > tol² - ε`, satisfies stationarity exactly with nonnegative multipliers, costs at most `ε / t²` more than any feasible
point, and its distance from an optimum with multipliers `ls`, `ms` is at most
`ε / t² + δ / t (‖ls‖₁ + ‖ms‖₁)` (squared, in the norm of `H`). -/
theorem C170 (L : Lib) (hL : LibSound L) (δ ε : ℝ) (hN : NnlsStops L δ ε) (n : ℕ) (H : Mat ℝ) (f : Vec ℝ) (A : Mat ℝ)
    (b : Vec ℝ) (C : Option (Mat ℝ)) (d : Option (Vec ℝ)) (hH : Spec.SymPosDef n H) (hf : f.n = n)
    (hs : Spec.ConstrShape n A b C d) (tol : ℝ) (htol : 0 ≤ tol) (hε : ε ≤ tol ^ 2) (s : Sol) (m : ℝ)
    (hrun : Pnnls.quadratic_program L H f A b C d tol = .ok s) (hm : s.min = some m) :
    ∃ x lam t, tol ^ 2 - ε < t ∧ 0 < t ∧ s.argmin = some x ∧ x.n = n ∧ m = Spec.qpCost H f x ∧
      s.multiplier_inequality = some lam ∧ lam.n = A.nr ∧ (∀ i < A.nr, 0 ≤ lam.e i) ∧
      Spec.FeasibleTol (δ / t) A b C d x ∧
      (∀ j < n, Spec.qpGrad H f x j + ∑ i ∈ range A.nr, lam.e i * A.e i j
        + Spec.eqGrad C s.multiplier_equality j = 0) ∧
      (∀ x', Spec.Feasible A b C d x' →
        Spec.qpCost H f x + 1 / 2 * Spec.distSq H x'.e x.e ≤ Spec.qpCost H f x' + ε / t ^ 2) ∧
      ∀ xs ls ms, Spec.Feasible A b C d xs → Spec.KKT (Spec.qpGrad H f xs) A b C xs ls ms →
        Spec.distSq H x.e xs.e ≤ ε / t ^ 2 + δ / t * (∑ i ∈ range A.nr, ls.e i + Spec.eqNorm C ms) := by
  obtain ⟨q, AC, bd, lam, x, t, r, hS, h1, h2, -, -, h5, h6, h7, h8⟩ := qp_run_sound hL hH hf hs tol
  rw [h7 (by by_contra hc; rw [h8 hc] at hrun; cases hrun)] at hrun
  by_cases hr : r > tol
  · rw [if_pos hr] at hrun
    obtain ⟨k1, k2⟩ := h5 δ ε hN
    have htr : tol ^ 2 < r ^ 2 := by nlinarith
    have ht0 : 0 < t := by linarith
    have hk := k2 ht0
    cases hrun
    have hAn := shape_nc hs
    have hfeas := (hS.feasTol (δ / t) x).1 hk.prim
    refine ⟨x, mulIneq A lam, t, by linarith, ht0, rfl, h1, by simpa using hm.symm, rfl, rfl,
      fun i hi => hk.nonneg i (by rw [hS.nr]; omega), hfeas, fun j hj => ?_, fun x' hx' => ?_,
      fun xs ls ms hxs hKs => ?_⟩
    · have := hk.stat j (by rw [hS.nc]; exact hj)
      have g := hS.grad lam.e j
      rw [← hS.nr] at g
      rw [g, hS.nc] at this
      simp only [Spec.qpGrad, hH.nc, mulIneq, mulEq]
      linarith
    · have := within_first hS.nc hH.nc hk ((hS.feas x').2 hx')
      rw [qp_expand hH hf x x']
      linarith
    · have a1 := within_first hS.nc hH.nc hk ((hS.feas xs).2 hxs)
      have a2 := opt_first hs hfeas hxs hKs
      have b1 := qp_expand hH hf x xs
      have b2 := qp_expand hH hf xs x
      have hsw : Spec.distSq H xs.e x.e = Spec.distSq H x.e xs.e := by
        refine Finset.sum_congr rfl fun i _ => Finset.sum_congr rfl fun j _ => by ring
      rw [hsw] at b1
      linarith
  · rw [if_neg hr] at hrun
    cases hrun
    simp [Sol.none] at hm

/-- C171: whatever nonnegative vector `nnls` returns, with the norm of its residual, `quadratic_program` does not raise if there
is a constraint, and answers `None` only if no feasible point is closer than `sqrt (1 / tol² - 1)` to the unconstrained
optimum `x0`, in the norm of `H`.  If the residual exceeds the smallest one by at most `tol`, it answers `None` on all the infeasible QPs. -/
theorem C171 (L : Lib) (hL : LibSound L) (n : ℕ) (H : Mat ℝ) (f : Vec ℝ) (A : Mat ℝ)
    (b : Vec ℝ) (C : Option (Mat ℝ)) (d : Option (Vec ℝ)) (hH : Spec.SymPosDef n H) (hf : f.n = n)
    (hs : Spec.ConstrShape n A b C d) (hc : Spec.HasConstr A C) (tol : ℝ) (htol : 0 < tol) (x0 : ℕ → ℝ)
    (hx0 : ∀ j < n, ∑ k ∈ range n, H.e j k * x0 k + f.e j = 0) :
    ∃ s, Pnnls.quadratic_program L H f A b C d tol = .ok s ∧
      (s.min = none ↔ s = Sol.none) ∧
      (s.min = none → ∀ x, Spec.Feasible A b C d x → 1 / tol ^ 2 - 1 ≤ Spec.distSq H x.e x0) ∧
      (NnlsWithin L tol → (∀ x, ¬ Spec.Feasible A b C d x) → s.min = none) := by
  obtain ⟨q, AC, bd, lam, x, t, r, hS, -, -, h3, h4, -, h6, h7, -⟩ := qp_run_sound hL hH hf hs tol
  have h7 := h7 hc
  refine ⟨_, h7, ?_, fun hn x' hx' => ?_, fun hN hinf => ?_⟩
  · by_cases hr : r > tol
    · rw [if_pos hr]; simp [Sol.none]
    · rw [if_neg hr]; simp [Sol.none]
  · have hr : ¬ r > tol := by
      intro hr; rw [if_pos hr] at hn; simp at hn
    have := h3 x' ((hS.feas x').2 hx') x0 hx0
    have hd : Spec.distSq H x'.e x0
        = ∑ i ∈ range n, ∑ j ∈ range n, (x'.e i - x0 i) * H.e i j * (x'.e j - x0 j) := by
      simp only [Spec.distSq, hH.nr, hH.nc]
    rw [← hd] at this
    have hr2 : r ^ 2 ≤ tol ^ 2 := pow_le_pow_left₀ h6 (not_lt.1 hr) 2
    have hpos : 0 < 1 + Spec.distSq H x'.e x0 := by
      by_contra hneg
      have := mul_nonpos_of_nonneg_of_nonpos (_root_.sq_nonneg r) (not_lt.1 hneg)
      linarith
    have : 1 ≤ tol ^ 2 * (1 + Spec.distSq H x'.e x0) :=
      this.trans (mul_le_mul_of_nonneg_right hr2 hpos.le)
    rw [sub_le_iff_le_add, div_le_iff₀ (by positivity)]
    linarith
  · have hr : ¬ r > tol := not_lt.2 (h4 tol hN fun x' hx' => hinf x' ((hS.feas x').1 hx'))
    rw [if_neg hr]; rfl

end Verif.Props
