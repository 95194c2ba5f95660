import Verif.Props.MpcExamples

/- Controllers of `/repo/pympc/control/controllers.py` that differ in the horizon (C129). -/
namespace Verif.Props
open Finset Spec Dyn Control

/-- one more step with `u = K x` -/
theorem extend_one {S : LinearSystem} {N : ℕ} {Q R P K : Mat ℝ} {D X_N : Poly}
    (hI : (problem S N Q R P D X_N).TerminalInvariant K) (hD : (problem S N Q R P D X_N).TerminalDecrease K) {x : ℕ → ℝ} {u : ℕ → ℕ → ℝ}
    (hu : (problem S N Q R P D X_N).Feas x u) :
    ∃ v, (problem S (N + 1) Q R P D X_N).Feas x v ∧ (problem S (N + 1) Q R P D X_N).cost x v ≤ (problem S N Q R P D X_N).cost x u := by
  set p := problem S N Q R P D X_N with hp
  set p' := problem S (N + 1) Q R P D X_N with hp'
  let v : ℕ → ℕ → ℝ := fun t => if t < N then u t else LinOcp.gain K (p.x x u N)
  have hv : ∀ t < N, v t = u t := fun t ht => if_pos ht
  have hvN : v N = LinOcp.gain K (p.x x u N) := if_neg (lt_irrefl _)
  have hx : ∀ t ≤ N, p.x x v t = p.x x u t := by
    intro t
    induction t with
    | zero => intro _; rfl
    | succ t ih =>
      intro ht
      rw [LinOcp.x_succ, LinOcp.x_succ, ih (by omega), hv t (by omega)]
  have hx' : ∀ t, p'.x x v t = p.x x v t := fun _ => rfl
  have hN1 : p.x x v (N + 1) = p.next (p.x x u N) (LinOcp.gain K (p.x x u N)) := by
    rw [LinOcp.x_succ, hx N le_rfl, hvN]
  obtain ⟨k1, k2⟩ := hI _ hu.2
  have k3 := hD _ hu.2
  refine ⟨v, ⟨fun t ht => ?_, ?_⟩, ?_⟩
  · have ht' : t < N + 1 := ht
    rw [hx', hx t (by omega)]
    by_cases hc : t < N
    · rw [hv t hc]
      exact hu.1 t hc
    · obtain rfl : t = N := by omega
      rw [hvN]
      exact k1
  · show IneqHold p.XA p.Xb (p.x x v (N + 1))
    rw [hN1]
    exact k2
  · rw [LinOcp.cost_eq, LinOcp.cost_eq]
    show ∑ t ∈ range (N + 1), p.stageCost (p.x x v t) (v t) + 1 / 2 * quad p.P (p.x x v (N + 1)) ≤
      ∑ t ∈ range N, p.stageCost (p.x x u t) (u t) + 1 / 2 * quad p.P (p.x x u N)
    have e : ∑ t ∈ range N, p.stageCost (p.x x v t) (v t) = ∑ t ∈ range N, p.stageCost (p.x x u t) (u t) :=
      Finset.sum_congr rfl fun t ht => by
        have := mem_range.1 ht
        rw [hx t (by omega), hv t this]
    rw [Finset.sum_range_succ, e, hx N le_rfl, hvN, hN1]
    have k3' : 1 / 2 * quad p.P (p.next (p.x x u N) (LinOcp.gain K (p.x x u N))) + p.stageCost (p.x x u N) (LinOcp.gain K (p.x x u N))
      ≤ 1 / 2 * quad p.P (p.x x u N) := k3
    linarith

theorem MpcArgs.horizon {S : LinearSystem} {N : ℕ} {Q R P : Mat ℝ} {D X_N : Poly} (h : MpcArgs S N Q R P D X_N) {M : ℕ} (hM : N ≤ M) :
    MpcArgs S M Q R P D X_N :=
  ⟨⟨h.sys, lt_of_lt_of_le h.N hM, h.w, h.D, h.XN⟩, h.rows⟩

/-- more steps with `u = K x` -/
theorem extend {S : LinearSystem} {N : ℕ} {Q R P K : Mat ℝ} {D X_N : Poly} (h : MpcArgs S N Q R P D X_N)
    (hI : (problem S N Q R P D X_N).TerminalInvariant K) (hD : (problem S N Q R P D X_N).TerminalDecrease K) {x : ℕ → ℝ} {u : ℕ → ℕ → ℝ}
    (hu : (problem S N Q R P D X_N).Feas x u) (M : ℕ) (hM : N ≤ M) :
    ∃ v, (problem S M Q R P D X_N).Feas x v ∧ (problem S M Q R P D X_N).cost x v ≤ (problem S N Q R P D X_N).cost x u := by
  induction M, hM using Nat.le_induction with
  | base => exact ⟨u, hu, le_rfl⟩
  | succ M hM ih =>
    obtain ⟨v, h1, h2⟩ := ih
    obtain ⟨w, h3, h4⟩ := extend_one (N := M) (K := K) hI hD h1
    exact ⟨w, h3, h4.trans h2⟩

/-- C129: with an invariant terminal set on which the terminal cost decreases by the stage cost, a controller with a longer horizon is feasible
wherever a controller with a shorter one is, and where both return inputs its value is not larger.  It returns inputs if the value of the
controller with the shorter horizon is below the threshold of the solver. -/
theorem C129 (L : Lib) (hL : LibSpec L) (S : LinearSystem) (N M : ℕ) (hM : N ≤ M) (Q R P K : Mat ℝ) (D X_N : Poly)
    (h : MpcArgs S N Q R P D X_N) (hI : (problem S N Q R P D X_N).TerminalInvariant K) (hD : (problem S N Q R P D X_N).TerminalDecrease K) :
    ∃ c c', MPC.init S N Q R P D X_N = .ok c ∧ MPC.init S M Q R P D X_N = .ok c' ∧ ∀ x : Vec ℝ, x.n = S.nx →
      ((∃ u, (problem S N Q R P D X_N).Feas x.e u) → ∃ u, (problem S M Q R P D X_N).Feas x.e u) ∧
      ∀ us V, c.feedforward L x = .ok (some us, some V) →
        (∀ us' V', c'.feedforward L x = .ok (some us', some V') → V' ≤ V) ∧
        (V < (1 / (1e-7 : ℝ) ^ 2 - 1) / 2 → ∃ us' V', c'.feedforward L x = .ok (some us', some V') ∧ V' ≤ V) := by
  obtain ⟨c, h1, h2⟩ := C64_partial L hL _ _ _ _ _ _ _ h
  obtain ⟨c', h1', h2'⟩ := C64_partial L hL _ _ _ _ _ _ _ (MpcArgs.horizon h hM)
  refine ⟨c, c', h1, h1', fun x hx => ⟨fun ⟨u, hu⟩ => ?_, fun us V hV => ?_⟩⟩
  · obtain ⟨v, hv, -⟩ := extend h hI hD hu M hM
    exact ⟨v, hv⟩
  · obtain ⟨k, -, -⟩ := h2 x hx
    rcases k with k | ⟨us0, V0, k, -, -, ko, kV, -⟩
    · rw [hV] at k; cases k
    rw [hV] at k
    cases k
    obtain ⟨v, f1, f2⟩ := extend h hI hD ko.1 M hM
    obtain ⟨k', -, k3⟩ := h2' x hx
    have le : ∀ us' V', c'.feedforward L x = .ok (some us', some V') → V' ≤ V := by
      intro us' V' hV'
      rcases k' with k' | ⟨us1, V1, k', -, -, ko', kV', -⟩
      · rw [hV'] at k'; cases k'
      rw [hV'] at k'
      cases k'
      rw [kV', kV]
      exact (ko'.2 v f1).trans f2
    refine ⟨le, fun hthr => ?_⟩
    obtain ⟨us', V', g⟩ := k3 ⟨v, f1, by rw [← kV] at f2; linarith⟩
    exact ⟨us', V', g, le _ _ g⟩

/-- C129 on the integrator: with `N = 3` the inputs `-1, -1, 0` are feasible from `3`, so all controllers with longer horizons answer there -/
example (L : Lib) (hL : LibSpec L) (M : ℕ) (hM : 3 ≤ M) : ∃ c c' us V us' V', MPC.init integrator 3 half1 one1 one1 boxXU interval1 = .ok c ∧
    MPC.init integrator M half1 one1 one1 boxXU interval1 = .ok c' ∧ c.feedforward L ⟨1, fun _ => 3⟩ = .ok (some us, some V) ∧
    c'.feedforward L ⟨1, fun _ => 3⟩ = .ok (some us', some V') ∧ V' ≤ V := by
  obtain ⟨c, h1, h2⟩ := C64_partial L hL _ _ _ _ _ _ _ (integrator_args 3 (by norm_num))
  obtain ⟨c0, c', h1', h1'', h3⟩ := C129 L hL _ 3 M hM _ _ _ gain1 _ _ (integrator_args 3 (by norm_num)) (integrator_invariant 3) (integrator_decrease 3)
  rw [h1] at h1'
  cases h1'
  have hF : (problem integrator 3 half1 one1 one1 boxXU interval1).Feas (fun _ => 3) fun t _ => if t < 2 then -1 else 0 := by
    refine ⟨fun t ht i hi => ?_, fun i hi => ?_⟩
    · have hi' : i < 4 := hi
      have ht' : t < 3 := ht
      interval_cases t <;> interval_cases i <;>
        norm_num [problem, integrator, boxXU, Poly.fresh, rowVal, pair, LinOcp.x, Spec.traj, Spec.affine, one1, Finset.sum_range_succ]
    · have hi' : i < 2 := hi
      interval_cases i <;>
        norm_num [problem, integrator, interval1, Poly.fresh, rowVal, LinOcp.x, Spec.traj, Spec.affine, one1, Finset.sum_range_succ]
  have hC : (problem integrator 3 half1 one1 one1 boxXU interval1).cost (fun _ => 3) (fun t _ => if t < 2 then -1 else 0)
      < (1 / (1e-7 : ℝ) ^ 2 - 1) / 2 := by
    rw [LinOcp.cost_eq]
    simp only [LinOcp.stageCost, problem, half1_quad, one1_quad]
    norm_num [integrator, LinOcp.x, Spec.traj, Spec.affine, one1, Finset.sum_range_succ]
  obtain ⟨k1, -, k3⟩ := h2 ⟨1, fun _ => 3⟩ rfl
  obtain ⟨us, V, g⟩ := k3 ⟨_, hF, hC⟩
  have hV : V < (1 / (1e-7 : ℝ) ^ 2 - 1) / 2 := by
    rcases k1 with k | ⟨us0, V0, k, -, -, ko, kV, -⟩
    · rw [g] at k; cases k
    · rw [g] at k
      cases k
      rw [kV]
      exact (ko.2 _ hF).trans_lt hC
  obtain ⟨us', V', g', le⟩ := ((h3 ⟨1, fun _ => 3⟩ rfl).2 us V g).2 hV
  exact ⟨c, c', us, V, us', V', h1, h1'', g, g', le⟩

end Verif.Props
