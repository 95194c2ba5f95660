import Verif.Spec.HybridLoop
import Verif.Proofs.Hybrid
import Mathlib.Tactic.Linarith

/- Shifting a trajectory of a piecewise affine system by one step. -/
namespace Verif.Spec.HybOcp
open Finset Verif.Control

variable {p : HybOcp}

theorem TerminalDecrease.invariant (h : p.TerminalDecrease) : p.TerminalInvariant := fun x hx => by
  obtain ⟨i, hi, v, h1, h2, -⟩ := h x hx
  exact ⟨i, hi, v, h1, h2⟩

theorem x_zero (x0 : ℕ → ℝ) (m : ℕ → ℕ) (u : ℕ → ℕ → ℝ) : p.x x0 m u 0 = x0 := rfl

theorem x_succ (x0 : ℕ → ℝ) (m : ℕ → ℕ) (u : ℕ → ℕ → ℝ) (t : ℕ) : p.x x0 m u (t + 1) = p.next (m t) (p.x x0 m u t) (u t) := rfl

theorem feas_iff (x0 : ℕ → ℝ) (m : ℕ → ℕ) (u : ℕ → ℕ → ℝ) : p.Feas x0 m u ↔
    (∀ t < p.N, m t < p.s ∧ p.Stage (m t) (p.x x0 m u t) (u t)) ∧ p.Term (p.x x0 m u p.N) := by
  constructor
  · rintro ⟨⟨h1, h2, h3⟩, h4, h5⟩
    exact ⟨fun t ht => ⟨h1 t ht, h2 t ht, h4 t ht⟩, h3, h5⟩
  · rintro ⟨h1, h2, h3⟩
    exact ⟨⟨fun t ht => (h1 t ht).1, fun t ht => (h1 t ht).2.1, h2⟩, fun t ht => (h1 t ht).2.2, h3⟩

theorem cost_eq (x0 : ℕ → ℝ) (m : ℕ → ℕ) (u : ℕ → ℕ → ℝ) :
    p.cost x0 m u = ∑ t ∈ range p.N, p.stageCost (p.x x0 m u t) (u t) + 1 / 2 * quad p.P (p.x x0 m u p.N) := by
  unfold cost lqCost stageCost
  rw [Finset.mul_sum]

/-- the values without the first one, followed by `a` -/
def shift {α : Type} (N : ℕ) (f : ℕ → α) (a : α) : ℕ → α := fun t => if t + 1 < N then f (t + 1) else a

theorem shift_lt {α : Type} {N : ℕ} {f : ℕ → α} {a : α} {t : ℕ} (h : t + 1 < N) : shift N f a t = f (t + 1) := if_pos h

theorem shift_last {α : Type} {N : ℕ} {f : ℕ → α} {a : α} {t : ℕ} (h : ¬ t + 1 < N) : shift N f a t = a := if_neg h

theorem shifted_x (hN : 0 < p.N) (x0 : ℕ → ℝ) (m : ℕ → ℕ) (u : ℕ → ℕ → ℝ) (i : ℕ) (v : ℕ → ℝ) :
    (∀ t, t + 1 ≤ p.N → p.x (p.next (m 0) x0 (u 0)) (shift p.N m i) (shift p.N u v) t = p.x x0 m u (t + 1)) ∧
    p.x (p.next (m 0) x0 (u 0)) (shift p.N m i) (shift p.N u v) p.N = p.next i (p.x x0 m u p.N) v := by
  have h1 : ∀ t, t + 1 ≤ p.N → p.x (p.next (m 0) x0 (u 0)) (shift p.N m i) (shift p.N u v) t = p.x x0 m u (t + 1) := by
    intro t
    induction t with
    | zero => intro _; rfl
    | succ t ih =>
      intro ht
      rw [x_succ, ih (by omega), x_succ (t := t + 1), shift_lt (by omega), shift_lt (by omega)]
  refine ⟨h1, ?_⟩
  obtain ⟨M, hM⟩ : ∃ M, p.N = M + 1 := ⟨p.N - 1, by omega⟩
  have e : p.x (p.next (m 0) x0 (u 0)) (shift p.N m i) (shift p.N u v) (M + 1)
      = p.next (shift p.N m i M) (p.x (p.next (m 0) x0 (u 0)) (shift p.N m i) (shift p.N u v) M) (shift p.N u v M) := rfl
  have e1 : shift p.N m i M = i := shift_last (by omega)
  have e2 : shift p.N u v M = v := shift_last (by omega)
  have e3 : p.x (p.next (m 0) x0 (u 0)) (shift p.N m i) (shift p.N u v) p.N
      = p.x (p.next (m 0) x0 (u 0)) (shift p.N m i) (shift p.N u v) (M + 1) := by rw [← hM]
  rw [e3, e, e1, e2, h1 M (by omega), ← hM]

/-- the shifted trajectory is feasible -/
theorem shifted_feas (hN : 0 < p.N) {x0 : ℕ → ℝ} {m : ℕ → ℕ} {u : ℕ → ℕ → ℝ} (hf : p.Feas x0 m u) {i : ℕ} (hi : i < p.s) {v : ℕ → ℝ}
    (h1 : p.Stage i (p.x x0 m u p.N) v) (h2 : p.Term (p.next i (p.x x0 m u p.N) v)) :
    p.Feas (p.next (m 0) x0 (u 0)) (shift p.N m i) (shift p.N u v) := by
  obtain ⟨k1, k2⟩ := shifted_x hN x0 m u i v
  rw [feas_iff] at hf ⊢
  refine ⟨fun t ht => ?_, by rw [k2]; exact h2⟩
  rw [k1 t ht]
  by_cases hc : t + 1 < p.N
  · rw [shift_lt hc, shift_lt hc]
    exact hf.1 _ hc
  · rw [shift_last hc, shift_last hc, show t + 1 = p.N by omega]
    exact ⟨hi, h1⟩

/-- the cost of the shifted trajectory -/
theorem shifted_cost (hN : 0 < p.N) (x0 : ℕ → ℝ) (m : ℕ → ℕ) (u : ℕ → ℕ → ℝ) (i : ℕ) (v : ℕ → ℝ) :
    p.cost (p.next (m 0) x0 (u 0)) (shift p.N m i) (shift p.N u v) = p.cost x0 m u - p.stageCost x0 (u 0)
      + (1 / 2 * quad p.P (p.next i (p.x x0 m u p.N) v) + p.stageCost (p.x x0 m u p.N) v - 1 / 2 * quad p.P (p.x x0 m u p.N)) := by
  obtain ⟨h1, h2⟩ := shifted_x hN x0 m u i v
  rw [cost_eq, cost_eq, h2]
  obtain ⟨M, hM⟩ : ∃ M, p.N = M + 1 := ⟨p.N - 1, by omega⟩
  have s1 : ∑ t ∈ range p.N, p.stageCost (p.x (p.next (m 0) x0 (u 0)) (shift p.N m i) (shift p.N u v) t) (shift p.N u v t)
      = ∑ t ∈ range M, p.stageCost (p.x x0 m u (t + 1)) (u (t + 1)) + p.stageCost (p.x x0 m u p.N) v := by
    have g1 : ∀ t ∈ range M, p.stageCost (p.x (p.next (m 0) x0 (u 0)) (shift p.N m i) (shift p.N u v) t) (shift p.N u v t)
        = p.stageCost (p.x x0 m u (t + 1)) (u (t + 1)) := by
      intro t ht
      have ht := mem_range.1 ht
      rw [h1 t (by omega), shift_lt (by omega)]
    have g2 : p.stageCost (p.x (p.next (m 0) x0 (u 0)) (shift p.N m i) (shift p.N u v) M) (shift p.N u v M)
        = p.stageCost (p.x x0 m u p.N) v := by
      rw [h1 M (by omega), shift_last (by omega), hM]
    have : ∀ f : ℕ → ℝ, ∑ t ∈ range p.N, f t = ∑ t ∈ range M, f t + f M := by
      intro f; rw [hM, Finset.sum_range_succ]
    rw [this, g2, Finset.sum_congr rfl g1]
  have s2 : ∑ t ∈ range p.N, p.stageCost (p.x x0 m u t) (u t)
      = ∑ t ∈ range M, p.stageCost (p.x x0 m u (t + 1)) (u (t + 1)) + p.stageCost x0 (u 0) := by
    have : ∀ f : ℕ → ℝ, ∑ t ∈ range p.N, f t = ∑ t ∈ range M, f (t + 1) + f 0 := by
      intro f; rw [hM, Finset.sum_range_succ']
    rw [this]
    rfl
  rw [s1, s2]
  ring

theorem stageCost_nonneg (hw : Weights p.nx p.nu p.Q p.R p.P) (x u : ℕ → ℝ) : 0 ≤ p.stageCost x u := by
  have h1 := hw.Q0 x
  have h2 : 0 ≤ quad p.R u := by
    by_cases hc : ∃ s < p.nu, u s ≠ 0
    · exact (hw.Rpos u hc).le
    · push Not at hc
      rw [quad_congr hw.symR.1 hw.symR.2.1 (x' := fun _ => 0) hc]
      simp [quad]
  unfold stageCost
  linarith

theorem cost_nonneg (hw : Weights p.nx p.nu p.Q p.R p.P) (x0 : ℕ → ℝ) (m : ℕ → ℕ) (u : ℕ → ℕ → ℝ) : 0 ≤ p.cost x0 m u := by
  rw [cost_eq]
  have h1 := hw.P0 (p.x x0 m u p.N)
  have h2 := Finset.sum_nonneg fun t (_ : t ∈ range p.N) => stageCost_nonneg hw (p.x x0 m u t) (u t)
  linarith

end Verif.Spec.HybOcp

namespace Verif.Control
open Finset Spec Dyn

/-- trajectories from the same state -/
theorem hyb_x_start {S : PWA} (h : PwaShape S) {N : ℕ} {Q R P : Mat ℝ} {X_N : Poly} {x0 y0 : ℕ → ℝ} (hxy : ∀ k < S.nx, x0 k = y0 k) {m : ℕ → ℕ}
    {u : ℕ → ℕ → ℝ} (hm : ∀ t < N, m t < S.nm) :
    ∀ t ≤ N, ∀ k < S.nx, (hyb S N Q R P X_N).x x0 m u t k = (hyb S N Q R P X_N).x y0 m u t k := by
  intro t
  induction t with
  | zero => intro _ k hk; exact hxy k hk
  | succ t ih =>
    intro ht k _
    show Spec.affine (sysAt S (m t)).A (sysAt S (m t)).B (sysAt S (m t)).c ((hyb S N Q R P X_N).x x0 m u t) (u t) k
      = Spec.affine (sysAt S (m t)).A (sysAt S (m t)).B (sysAt S (m t)).c ((hyb S N Q R P X_N).x y0 m u t) (u t) k
    have hT := (h.sys (sysAt S (m t)) (getD_mem _ (by rw [h.lenS]; exact hm t (by omega)))).1
    exact affine_congr' k (fun j hj => ih (by omega) j (by rw [hT.2.1] at hj; exact hj)) fun j _ => rfl

theorem hyb_ineq_start {S : PWA} {N : ℕ} {Q R P : Mat ℝ} {X_N : Poly} (h : HybArgs S N Q R P X_N) {x0 y0 : ℕ → ℝ} (hxy : ∀ k < S.nx, x0 k = y0 k)
    {m : ℕ → ℕ} {u : ℕ → ℕ → ℝ} (hf : (hyb S N Q R P X_N).IneqFeas x0 m u) :
    (hyb S N Q R P X_N).IneqFeas y0 m u ∧ (hyb S N Q R P X_N).cost x0 m u = (hyb S N Q R P X_N).cost y0 m u := by
  obtain ⟨f1, f2, f3⟩ := hf
  have hx := hyb_x_start (N := N) (Q := Q) (R := R) (P := P) (X_N := X_N) h.pwa hxy (u := u) f1
  refine ⟨⟨f1, fun t ht => ?_, ?_⟩, lqCost_congr ⟨h.Q.1, h.Q.2.1⟩ h.R ⟨h.P.1, h.P.2.1⟩ hx fun _ _ _ _ => rfl⟩
  · have hD := h.pwa.dom (domAt S (m t)) (getD_mem _ (by rw [h.pwa.lenD]; exact f1 t ht))
    have ht' : t < N := ht
    exact (ineq_congr hD.1 (pair_congr (hx t ht'.le) fun _ _ => rfl)).1 (f2 t ht)
  · exact (ineq_congr h.XN.1 (hx N le_rfl)).1 f3

end Verif.Control
