import Verif.Proofs.QPMain

/- Necessity of the KKT conditions for quadratic costs with linear constraints. -/
namespace Verif
open Finset Matrix Verif.Math

/-- multipliers from the first order condition -/
theorem kkt_of_first_order {n : ℕ} {g : Vec ℝ} {A : Mat ℝ} {b : Vec ℝ} {C : Option (Mat ℝ)}
    {d : Option (Vec ℝ)} (hg : g.n = n) (hs : Spec.ConstrShape n A b C d) {x : Vec ℝ}
    (hopt : Spec.IsLpOpt g A b C d x) : ∃ lam mu, Spec.KKT g.e A b C x lam mu := by
  obtain ⟨q, AC, bd, hst, hS⟩ := stackEqualities_ok hs
  have hgn : g.n = AC.nc := by rw [hg, hS.nc]
  obtain ⟨y, hy⟩ := exists_lpKKT hgn ((hS.feas x).2 hopt.1)
    (fun x' hx' => hopt.2 x' ((hS.feas x').1 hx'))
  have := (lp_opt_of_kkt hg hs hS (ys := ⟨AC.nr, y⟩) (x := x) hy).2
  exact ⟨_, _, this⟩

theorem feasible_convex {n : ℕ} {A : Mat ℝ} {b : Vec ℝ} {C : Option (Mat ℝ)} {d : Option (Vec ℝ)}
    (hs : Spec.ConstrShape n A b C d) {x x' : Vec ℝ} (hx : Spec.Feasible A b C d x)
    (hx' : Spec.Feasible A b C d x') {t : ℝ} (h0 : 0 ≤ t) (h1 : t ≤ 1) (k : ℕ) :
    Spec.Feasible A b C d ⟨k, fun i => x.e i + t * (x'.e i - x.e i)⟩ := by
  have key : ∀ (M : Mat ℝ) (i : ℕ), ∑ j ∈ range M.nc, M.e i j * (x.e j + t * (x'.e j - x.e j))
      = (1 - t) * (∑ j ∈ range M.nc, M.e i j * x.e j) + t * ∑ j ∈ range M.nc, M.e i j * x'.e j := by
    intro M i
    rw [Finset.mul_sum, Finset.mul_sum, ← Finset.sum_add_distrib]
    exact Finset.sum_congr rfl fun j _ => by ring
  refine ⟨fun i hi => ?_, ?_⟩
  · simp only []
    rw [key]
    have a1 := hx.1 i hi
    have a2 := hx'.1 i hi
    nlinarith
  · match C, d, hx.2, hx'.2 with
    | none, none, _, _ => trivial
    | none, some _, _, _ => trivial
    | some _, none, _, _ => trivial
    | some C, some d, a1, a2 =>
      intro i hi
      simp only []
      rw [key, a1 i hi, a2 i hi]; ring

/-- at an optimum of a quadratic cost (not necessarily convex) the gradient is an LP cost minimized
at the same point -/
theorem qp_first_order {n : ℕ} {H : Mat ℝ} {f : Vec ℝ} {A : Mat ℝ} {b : Vec ℝ}
    {C : Option (Mat ℝ)} {d : Option (Vec ℝ)} (hr : H.nr = n) (hc : H.nc = n)
    (hsym : ∀ i < n, ∀ j < n, H.e i j = H.e j i) (hf : f.n = n)
    (hs : Spec.ConstrShape n A b C d) {x : Vec ℝ} (hopt : Spec.IsQpOpt H f A b C d x) :
    Spec.IsLpOpt ⟨n, Spec.qpGrad H f x⟩ A b C d x := by
  refine ⟨hopt.1, fun x' hx' => ?_⟩
  have hT : (H.asM n n)ᵀ = H.asM n n := by
    funext i j; exact hsym j j.2 i i.2
  set g := (H.asM n n) *ᵥ (x.asV n) + f.asV n with hg
  have hgrad : ∀ w : Vec ℝ, Spec.lpCost ⟨n, Spec.qpGrad H f x⟩ w = g ⬝ᵥ w.asV n := by
    intro w
    simp only [Spec.lpCost, Spec.qpGrad, hc, Finset.sum_range, dotProduct, hg, Pi.add_apply,
      Matrix.mulVec, Mat.asM_apply, Vec.asV_apply]
  rw [hgrad, hgrad]
  set v := x'.asV n - x.asV n with hv
  have hp : 0 ≤ g ⬝ᵥ v := by
    apply quad_first_order one_pos (abs_nonneg (1 / 2 * (v ⬝ᵥ (H.asM n n *ᵥ v))))
    intro t h0 h1
    have := hopt.2 _ (feasible_convex hs hopt.1 hx' h0 h1 n)
    rw [qpCost_fin hr hc hf, qpCost_fin hr hc hf, 
      qcost_expand hT _ (x.asV n) (Vec.asV ⟨n, fun i => x.e i + t * (x'.e i - x.e i)⟩ n)] at this
    have e : (⟨n, fun i => x.e i + t * (x'.e i - x.e i)⟩ : Vec ℝ).asV n - x.asV n = t • v := by
      funext i; simp [Vec.asV, hv]
    rw [e, ← hg, dotProduct_smul, mulVec_smul, dotProduct_smul, smul_dotProduct] at this
    simp only [smul_eq_mul] at this
    have := le_abs_self (1 / 2 * (v ⬝ᵥ (H.asM n n *ᵥ v)))
    nlinarith [_root_.sq_nonneg t]
  rw [hv, dotProduct_sub] at hp
  linarith

/-- necessity of the KKT conditions -/
theorem qp_kkt_necessary {n : ℕ} {H : Mat ℝ} {f : Vec ℝ} {A : Mat ℝ} {b : Vec ℝ}
    {C : Option (Mat ℝ)} {d : Option (Vec ℝ)} (hr : H.nr = n) (hc : H.nc = n)
    (hsym : ∀ i < n, ∀ j < n, H.e i j = H.e j i) (hf : f.n = n)
    (hs : Spec.ConstrShape n A b C d) {x : Vec ℝ} (hopt : Spec.IsQpOpt H f A b C d x) :
    ∃ lam mu, Spec.KKT (Spec.qpGrad H f x) A b C x lam mu :=
  kkt_of_first_order rfl hs (qp_first_order hr hc hsym hf hs hopt)

end Verif
