import Verif.Proofs.Ocp
import Mathlib.Tactic.Linarith

/- Facts about the linear optimal control problem of the specification. -/
namespace Verif.Spec.LinOcp
open Finset Verif.Control

/-- the data have consistent sizes -/
structure Shape (p : LinOcp) : Prop where
  A : p.A.nr = p.nx ∧ p.A.nc = p.nx
  B : p.B.nr = p.nx ∧ p.B.nc = p.nu
  Q : p.Q.nr = p.nx ∧ p.Q.nc = p.nx
  R : p.R.nr = p.nu ∧ p.R.nc = p.nu
  P : p.P.nr = p.nx ∧ p.P.nc = p.nx
  D : p.DA.nc = p.nx + p.nu
  XN : p.XA.nc = p.nx

variable {p : LinOcp}

theorem next_congr (h : p.Shape) {x x' u u' : ℕ → ℝ} (hx : ∀ i < p.nx, x i = x' i) (hu : ∀ s < p.nu, u s = u' s) :
    p.next x u = p.next x' u' := by
  funext i
  simp only [next, affine]
  congr 2
  · exact Finset.sum_congr rfl fun j hj => by rw [hx j (h.A.2 ▸ mem_range.1 hj)]
  · exact Finset.sum_congr rfl fun j hj => by rw [hu j (h.B.2 ▸ mem_range.1 hj)]

theorem x_zero (x0 : ℕ → ℝ) (u : ℕ → ℕ → ℝ) : p.x x0 u 0 = x0 := rfl

theorem x_succ (x0 : ℕ → ℝ) (u : ℕ → ℕ → ℝ) (t : ℕ) : p.x x0 u (t + 1) = p.next (p.x x0 u t) (u t) := rfl

theorem x_congr (h : p.Shape) {x0 x0' : ℕ → ℝ} {u u' : ℕ → ℕ → ℝ} {N : ℕ} (hx : ∀ i < p.nx, x0 i = x0' i)
    (hu : ∀ t < N, ∀ s < p.nu, u t s = u' t s) : ∀ t ≤ N, ∀ i < p.nx, p.x x0 u t i = p.x x0' u' t i := by
  intro t
  induction t with
  | zero => intro _; exact hx
  | succ t ih =>
    intro ht i _
    rw [x_succ, x_succ, next_congr h (ih (by omega)) (hu t (by omega))]

theorem stage_congr (h : p.Shape) {x x' u u' : ℕ → ℝ} (hx : ∀ i < p.nx, x i = x' i) (hu : ∀ s < p.nu, u s = u' s) :
    p.Stage x u ↔ p.Stage x' u' := by
  unfold Stage IneqHold
  refine forall_congr' fun i => forall_congr' fun _ => ?_
  rw [rowVal_congr' (y := pair p.nx x' u') i fun j hj => ?_]
  unfold pair
  rw [h.D] at hj
  by_cases hc : j < p.nx
  · rw [if_pos hc, if_pos hc, hx j hc]
  · rw [if_neg hc, if_neg hc, hu _ (by omega)]

theorem term_congr (h : p.Shape) {x x' : ℕ → ℝ} (hx : ∀ i < p.nx, x i = x' i) :
    IneqHold p.XA p.Xb x ↔ IneqHold p.XA p.Xb x' := by
  unfold IneqHold
  refine forall_congr' fun i => forall_congr' fun _ => ?_
  rw [rowVal_congr' (y := x') i fun j hj => hx j (h.XN ▸ hj)]

theorem feas_congr (h : p.Shape) {x0 x0' : ℕ → ℝ} {u u' : ℕ → ℕ → ℝ} (hx : ∀ i < p.nx, x0 i = x0' i)
    (hu : ∀ t < p.N, ∀ s < p.nu, u t s = u' t s) : p.Feas x0 u ↔ p.Feas x0' u' := by
  have hh := x_congr h hx hu
  unfold Feas
  rw [term_congr h (hh p.N le_rfl)]
  refine and_congr_left fun _ => forall_congr' fun t => forall_congr' fun ht => ?_
  exact stage_congr h (hh t ht.le) (hu t ht)

theorem stageCost_congr (h : p.Shape) {x x' u u' : ℕ → ℝ} (hx : ∀ i < p.nx, x i = x' i) (hu : ∀ s < p.nu, u s = u' s) :
    p.stageCost x u = p.stageCost x' u' := by
  unfold stageCost
  rw [quad_congr h.Q.1 h.Q.2 hx, quad_congr h.R.1 h.R.2 hu]

theorem cost_eq (x0 : ℕ → ℝ) (u : ℕ → ℕ → ℝ) :
    p.cost x0 u = ∑ t ∈ range p.N, p.stageCost (p.x x0 u t) (u t) + 1 / 2 * quad p.P (p.x x0 u p.N) := by
  unfold cost lqCost stageCost
  rw [Finset.mul_sum]

theorem cost_congr (h : p.Shape) {x0 x0' : ℕ → ℝ} {u u' : ℕ → ℕ → ℝ} (hx : ∀ i < p.nx, x0 i = x0' i)
    (hu : ∀ t < p.N, ∀ s < p.nu, u t s = u' t s) : p.cost x0 u = p.cost x0' u' := by
  have hh := x_congr h hx hu
  rw [cost_eq, cost_eq, quad_congr h.P.1 h.P.2 (hh p.N le_rfl)]
  congr 1
  exact Finset.sum_congr rfl fun t ht => stageCost_congr h (hh t (mem_range.1 ht).le) (hu t (mem_range.1 ht))

theorem opt_congr (h : p.Shape) {x0 x0' : ℕ → ℝ} {u u' : ℕ → ℕ → ℝ} (hx : ∀ i < p.nx, x0 i = x0' i)
    (hu : ∀ t < p.N, ∀ s < p.nu, u t s = u' t s) : p.Opt x0 u ↔ p.Opt x0' u' := by
  unfold Opt
  rw [feas_congr h hx hu, cost_congr h hx hu]
  refine and_congr_right fun _ => forall_congr' fun v => ?_
  rw [feas_congr h hx (u := v) (u' := v) fun _ _ _ _ => rfl, cost_congr h hx (u := v) (u' := v) fun _ _ _ _ => rfl]

/-- the state after the first step -/
theorem x_shift (x0 : ℕ → ℝ) (u : ℕ → ℕ → ℝ) (t : ℕ) :
    p.x (p.next x0 (u 0)) (fun t => u (t + 1)) t = p.x x0 u (t + 1) := by
  induction t with
  | zero => rfl
  | succ t ih => rw [x_succ, ih, x_succ (t := t + 1)]

/-- the inputs without the first one, followed by `K x(N)` -/
def shifted (p : LinOcp) (K : Mat ℝ) (x0 : ℕ → ℝ) (u : ℕ → ℕ → ℝ) : ℕ → ℕ → ℝ :=
  fun t => if t + 1 < p.N then u (t + 1) else gain K (p.x x0 u p.N)

theorem shifted_x (h : p.Shape) (hN : 0 < p.N) (K : Mat ℝ) (x0 : ℕ → ℝ) (u : ℕ → ℕ → ℝ) :
    (∀ t, t + 1 ≤ p.N → p.x (p.next x0 (u 0)) (p.shifted K x0 u) t = p.x x0 u (t + 1)) ∧
    p.x (p.next x0 (u 0)) (p.shifted K x0 u) p.N = p.next (p.x x0 u p.N) (gain K (p.x x0 u p.N)) := by
  have h1 : ∀ t, t + 1 ≤ p.N → p.x (p.next x0 (u 0)) (p.shifted K x0 u) t = p.x x0 u (t + 1) := by
    intro t
    induction t with
    | zero => intro _; rfl
    | succ t ih =>
      intro ht
      rw [x_succ, ih (by omega), x_succ (t := t + 1)]
      congr 1
      exact if_pos (by omega)
  refine ⟨h1, ?_⟩
  obtain ⟨M, hM⟩ : ∃ M, p.N = M + 1 := ⟨p.N - 1, by omega⟩
  have e : p.shifted K x0 u M = gain K (p.x x0 u p.N) := if_neg (by omega)
  have : p.x (p.next x0 (u 0)) (p.shifted K x0 u) p.N
      = p.next (p.x (p.next x0 (u 0)) (p.shifted K x0 u) M) (p.shifted K x0 u M) := by
    rw [hM]; rfl
  rw [this, e, h1 M (by omega), ← hM]

/-- with an invariant terminal set the shifted inputs are feasible at the next state -/
theorem shifted_feas (h : p.Shape) (hN : 0 < p.N) {K : Mat ℝ} (hK : p.TerminalInvariant K) {x0 : ℕ → ℝ}
    {u : ℕ → ℕ → ℝ} (hu : p.Feas x0 u) : p.Feas (p.next x0 (u 0)) (p.shifted K x0 u) := by
  obtain ⟨h1, h2⟩ := shifted_x h hN K x0 u
  obtain ⟨k1, k2⟩ := hK _ hu.2
  refine ⟨fun t ht => ?_, by rw [h2]; exact k2⟩
  rw [h1 t ht]
  by_cases hc : t + 1 < p.N
  · rw [show p.shifted K x0 u t = u (t + 1) from if_pos hc]
    exact hu.1 _ hc
  · rw [show p.shifted K x0 u t = gain K (p.x x0 u p.N) from if_neg hc, show t + 1 = p.N by omega]
    exact k1

/-- the cost of the shifted inputs -/
theorem shifted_cost (h : p.Shape) (hN : 0 < p.N) (K : Mat ℝ) (x0 : ℕ → ℝ) (u : ℕ → ℕ → ℝ) :
    p.cost (p.next x0 (u 0)) (p.shifted K x0 u) = p.cost x0 u - p.stageCost x0 (u 0)
      + (1 / 2 * quad p.P (p.next (p.x x0 u p.N) (gain K (p.x x0 u p.N)))
        + p.stageCost (p.x x0 u p.N) (gain K (p.x x0 u p.N)) - 1 / 2 * quad p.P (p.x x0 u p.N)) := by
  obtain ⟨h1, h2⟩ := shifted_x h hN K x0 u
  rw [cost_eq, cost_eq, h2]
  obtain ⟨M, hM⟩ : ∃ M, p.N = M + 1 := ⟨p.N - 1, by omega⟩
  have s1 : ∑ t ∈ range p.N, p.stageCost (p.x (p.next x0 (u 0)) (p.shifted K x0 u) t) (p.shifted K x0 u t)
      = ∑ t ∈ range M, p.stageCost (p.x x0 u (t + 1)) (u (t + 1))
        + p.stageCost (p.x x0 u p.N) (gain K (p.x x0 u p.N)) := by
    have g1 : ∀ t ∈ range M, p.stageCost (p.x (p.next x0 (u 0)) (p.shifted K x0 u) t) (p.shifted K x0 u t)
        = p.stageCost (p.x x0 u (t + 1)) (u (t + 1)) := by
      intro t ht
      have ht := mem_range.1 ht
      rw [h1 t (by omega), show p.shifted K x0 u t = u (t + 1) from if_pos (by omega)]
    have g2 : p.stageCost (p.x (p.next x0 (u 0)) (p.shifted K x0 u) M) (p.shifted K x0 u M)
        = p.stageCost (p.x x0 u p.N) (gain K (p.x x0 u p.N)) := by
      rw [h1 M (by omega), show p.shifted K x0 u M = gain K (p.x x0 u p.N) from if_neg (by omega), hM]
    have : ∀ f : ℕ → ℝ, ∑ t ∈ range p.N, f t = ∑ t ∈ range M, f t + f M := by
      intro f; rw [hM, Finset.sum_range_succ]
    rw [this, g2, Finset.sum_congr rfl g1]
  have s2 : ∑ t ∈ range p.N, p.stageCost (p.x x0 u t) (u t)
      = ∑ t ∈ range M, p.stageCost (p.x x0 u (t + 1)) (u (t + 1)) + p.stageCost x0 (u 0) := by
    have : ∀ f : ℕ → ℝ, ∑ t ∈ range p.N, f t = ∑ t ∈ range M, f (t + 1) + f 0 := by
      intro f; rw [hM, Finset.sum_range_succ']
    rw [this]
    rfl
  rw [s1, s2]
  ring

theorem stageCost_nonneg (hw : Weights p.nx p.nu p.Q p.R p.P) (x u : ℕ → ℝ) : 0 ≤ p.stageCost x u := by
  have h1 := hw.Q0 x
  have h2 : 0 ≤ quad p.R u := by
    by_cases hc : ∃ s < p.nu, u s ≠ 0
    · exact (hw.Rpos u hc).le
    · push Not at hc
      rw [quad_congr hw.symR.1 hw.symR.2.1 (x' := fun _ => 0) hc]
      simp [quad]
  unfold stageCost
  linarith

theorem cost_nonneg (hw : Weights p.nx p.nu p.Q p.R p.P) (x0 : ℕ → ℝ) (u : ℕ → ℕ → ℝ) : 0 ≤ p.cost x0 u := by
  rw [cost_eq]
  have h1 := hw.P0 (p.x x0 u p.N)
  have h2 := Finset.sum_nonneg fun t (_ : t ∈ range p.N) => stageCost_nonneg hw (p.x x0 u t) (u t)
  linarith

end Verif.Spec.LinOcp
