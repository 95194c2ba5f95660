import Verif.Props.MpQPExplicit

/- The unconstrained optimizer of the parametric program, and `solve` in terms of costs only. -/
namespace Verif
open Finset Matrix Verif.Math
namespace MpQP

variable {P : Spec.ParamQP} {nu nx : ℕ}

/-- the unconstrained problem has an optimizer, the cost grows quadratically away from it -/
theorem free_opt (hs : P.Shape nu nx) (x : ℕ → ℝ) : ∃ u0 : ℕ → ℝ,
    (∀ j < nu, P.lagrangian nu nx u0 x (fun _ => 0) j = 0) ∧
    (∀ u, P.cost nu nx u x = P.cost nu nx u0 x
      + 1 / 2 * ∑ i ∈ range nu, ∑ j ∈ range nu, (u i - u0 i) * P.Huu.e i j * (u j - u0 j)) ∧
    ∀ u, P.cost nu nx u0 x ≤ P.cost nu nx u x := by
  have hpd := posDef_asM hs.Huu
  set H := P.Huu.asM nu nu with hH
  have hdet : IsUnit H.det := (Matrix.isUnit_iff_isUnit_det _).1 hpd.isUnit
  set f := (linAt P nu nx x).asV nu with hf
  let w : Fin nu → ℝ := H⁻¹ *ᵥ (-f)
  let u0 : ℕ → ℝ := fun j => if h : j < nu then w ⟨j, h⟩ else 0
  have hw : H *ᵥ w + f = 0 := by
    show H *ᵥ (H⁻¹ *ᵥ (-f)) + f = 0
    rw [mulVec_mulVec, mul_nonsing_inv _ hdet, one_mulVec]
    simp
  have hu0 : Vec.asV ⟨nu, u0⟩ nu = w := by
    funext i
    show u0 i = w i
    simp [u0]
  have hT : Hᵀ = H := by
    funext i j
    exact hs.Huu.symm j j.2 i i.2
  have hexp : ∀ u, P.cost nu nx u x = P.cost nu nx u0 x
      + 1 / 2 * ∑ i ∈ range nu, ∑ j ∈ range nu, (u i - u0 i) * P.Huu.e i j * (u j - u0 j) := by
    intro u
    have c1 := cost_eq hs ⟨nu, u⟩ x
    have c2 := cost_eq hs ⟨nu, u0⟩ x
    rw [qcost_asM hs.Huu.nr hs.Huu.nc rfl] at c1 c2
    have e := qcost_expand hT f w (Vec.asV ⟨nu, u⟩ nu)
    rw [hw, zero_dotProduct, add_zero] at e
    rw [hu0] at c2
    show P.cost nu nx (Vec.e ⟨nu, u⟩) x = P.cost nu nx (Vec.e ⟨nu, u0⟩) x + _
    rw [c1, c2, e]
    have : (Vec.asV ⟨nu, u⟩ nu - w) ⬝ᵥ H *ᵥ (Vec.asV ⟨nu, u⟩ nu - w)
        = ∑ i ∈ range nu, ∑ j ∈ range nu, (u i - u0 i) * P.Huu.e i j * (u j - u0 j) := by
      rw [← hu0]
      simp only [dotProduct, mulVec, Finset.sum_range, Finset.mul_sum]
      refine Finset.sum_congr rfl fun i _ => Finset.sum_congr rfl fun j _ => ?_
      show (u i - u0 i) * (P.Huu.e i j * (u j - u0 j)) = _
      ring
    rw [this]
    ring
  refine ⟨u0, fun j hj => ?_, hexp, fun u => ?_⟩
  · have := congrFun hw ⟨j, hj⟩
    rw [← hu0] at this
    simp only [Pi.add_apply, mulVec, dotProduct, Pi.zero_apply] at this
    unfold Spec.ParamQP.lagrangian
    simp only [zero_mul, Finset.sum_const_zero, add_zero, Finset.sum_range]
    rw [add_assoc, ← this]
    congr 1
    show _ = ∑ k ∈ range nx, P.Hux.e j k * x k + P.fu.e j
    rw [Finset.sum_range]
  · rw [hexp u]
    have : 0 ≤ ∑ i ∈ range nu, ∑ j ∈ range nu, (u i - u0 i) * P.Huu.e i j * (u j - u0 j) := by
      by_cases hc : ∃ i < nu, u i - u0 i ≠ 0
      · exact (hs.Huu.pos (fun i => u i - u0 i) hc).le
      · push Not at hc
        refine Finset.sum_nonneg fun i hi => Finset.sum_nonneg fun j _ => ?_
        rw [hc i (mem_range.1 hi)]
        simp
    linarith

/-- the answers of `solve` -/
theorem solve_cost {L : Lib} (hL : LibSpec L) {q : MpQP} (hs : q.data.Shape nu nx) (hrows : 0 < q.Au.nr) {x : Vec ℝ} (hx : x.n = nx) :
    ∃ s, q.solve L x = .ok s ∧
      (∀ m, s.min = some m → ∃ u : Vec ℝ, s.argmin = some u ∧ u.n = nu ∧ q.data.Opt nu nx u.e x.e ∧
        (∀ u', q.data.Opt nu nx u' x.e → ∀ j < nu, u' j = u.e j) ∧ m = q.data.cost nu nx u.e x.e) ∧
      (s.min = none ↔ (∀ u, ¬ q.data.Feas nu nx u x.e) ∨ ∃ u u0, q.data.Opt nu nx u x.e ∧
        (∀ u', q.data.cost nu nx u0 x.e ≤ q.data.cost nu nx u' x.e) ∧
        (1 / (1e-7 : ℝ) ^ 2 - 1) / 2 ≤ q.data.cost nu nx u x.e - q.data.cost nu nx u0 x.e) := by
  obtain ⟨u0, g1, g2, g3⟩ := free_opt hs x.e
  obtain ⟨s, h1, h2, h3, -⟩ := (Props.C45_partial L hL nu nx q hs x hx u0 g1).1 hrows
  refine ⟨s, h1, fun m hm => ?_, h3.trans (or_congr_right ⟨?_, ?_⟩)⟩
  · obtain ⟨u, lam, k1, k2, k3, k4, k5, -⟩ := h2 m hm
    exact ⟨u, k1, k2, k3, k4, k5⟩
  · rintro ⟨u, k1, k2⟩
    refine ⟨u, u0, k1, g3, ?_⟩
    rw [g2 u]
    change _ ≤ ∑ i ∈ range nu, ∑ j ∈ range nu, (u i - u0 i) * q.data.Huu.e i j * (u j - u0 j) at k2
    linarith
  · rintro ⟨u, v, k1, k2, k3⟩
    refine ⟨u, k1, ?_⟩
    have e := le_antisymm (k2 u0) (g3 v)
    rw [e, g2 u] at k3
    show _ ≤ ∑ i ∈ range nu, ∑ j ∈ range nu, (u i - u0 i) * q.data.Huu.e i j * (u j - u0 j)
    linarith

end MpQP
end Verif
