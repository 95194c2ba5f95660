import Verif.Props.MpQPLipschitz
import Verif.Props.MpcConvex

/- The inputs of the linear controller of `/repo/pympc/control/controllers.py` are Lipschitz functions of the state (C144). -/
namespace Verif.Props
open Finset Spec Dyn Control

/-- C144 for the linear controller: there is a constant, which depends on the controller only, such that the inputs that `feedforward` returns at two states
differ by at most the constant times the distance of the states; so do the inputs that `feedback` returns -/
theorem C144_mpc (S : LinearSystem) (N : ℕ) (Q R P : Mat ℝ) (D X_N : Poly) (h : MpcArgs S N Q R P D X_N) :
    ∃ c, MPC.init S N Q R P D X_N = .ok c ∧ ∃ K, 0 ≤ K ∧ ∀ L, LibSpec L → ∀ x y : Vec ℝ, x.n = S.nx → y.n = S.nx →
      (∀ us vs V W, c.feedforward L x = .ok (some us, some V) → c.feedforward L y = .ok (some vs, some W) →
        ∀ t < N, ∀ s < S.nu, |inputsOf us t s - inputsOf vs t s| ≤ K * ∑ l ∈ range S.nx, |x.e l - y.e l|) ∧
      ∀ u v, c.feedback L x = .ok (some u) → c.feedback L y = .ok (some v) →
        u.n = S.nu ∧ v.n = S.nu ∧ ∀ s < S.nu, |u.e s - v.e s| ≤ K * ∑ l ∈ range S.nx, |x.e l - y.e l| := by
  obtain ⟨q, h1, -, hq, hF, hC, -⟩ := init_run h.toMpcSizes
  obtain ⟨K, hK, hlip⟩ := optimizer_lipschitz hq
  refine ⟨_, h1, K, hK, fun L hL x y hx hy => ?_⟩
  obtain ⟨q', h1', h2⟩ := feedforward_run hL h
  rw [h1] at h1'
  cases h1'
  set p := problem S N Q R P D X_N with hp
  set c : MPC := ⟨S, N, Q, R, P, D, X_N, none, q⟩ with hc
  have hsh : p.Shape := problem_shape h.toMpcSizes
  -- the optimal inputs are the optimizers of the multiparametric program
  have opt : ∀ (x : ℕ → ℝ) u, p.Opt x u → q.data.Opt (S.nu * N) S.nx (flat S.nu u) x := by
    intro x u hu
    have e1 : ∀ t < N, ∀ s < S.nu, unflat S.nu (flat S.nu u) t s = u t s := fun t _ s hs => unflat_flat u t hs
    refine ⟨(hF _ _).2 ((LinOcp.feas_congr hsh (fun _ _ => rfl) e1).2 hu.1), fun v hv => ?_⟩
    rw [hC, hC, LinOcp.cost_congr hsh (fun _ _ => rfl) e1]
    exact hu.2 _ ((hF _ _).1 hv)
  have ans : ∀ (x : Vec ℝ) us V, x.n = S.nx → c.feedforward L x = .ok (some us, some V) →
      us.length = N ∧ (∀ u ∈ us, u.n = S.nu) ∧ p.Opt x.e (inputsOf us) := by
    intro x us V hx hV
    obtain ⟨k1, -⟩ := h2 none x hx
    rcases k1 with k | ⟨us', V', k, k1, k2, k3, -⟩
    · rw [hV] at k; cases k
    · rw [hV] at k
      cases k
      exact ⟨k1, k2, k3⟩
  have main : ∀ us vs V W, c.feedforward L x = .ok (some us, some V) → c.feedforward L y = .ok (some vs, some W) →
        ∀ t < N, ∀ s < S.nu, |inputsOf us t s - inputsOf vs t s| ≤ K * ∑ l ∈ range S.nx, |x.e l - y.e l| := by
    intro us vs V W hV hW t ht s hs
    have := hlip x.e y.e _ _ (opt _ _ (ans x us V hx hV).2.2) (opt _ _ (ans y vs W hy hW).2.2) (S.nu * t + s) (by nlinarith)
    have e : ∀ u : ℕ → ℕ → ℝ, flat S.nu u (S.nu * t + s) = u t s := fun u => unflat_flat u t hs
    rwa [e, e] at this
  refine ⟨main, fun u v hu hv => ?_⟩
  have first : ∀ (x : Vec ℝ) u, x.n = S.nx → c.feedback L x = .ok (some u) → ∃ us V, c.feedforward L x = .ok (some us, some V) ∧ u.n = S.nu ∧
      inputsOf us 0 = u.e := by
    intro x u hx hu
    obtain ⟨k1, -⟩ := h2 none x hx
    obtain ⟨-, f1, f2, -⟩ := C65_linear L c h.N x
    rcases k1 with k | ⟨us, V, k, l1, l2, -⟩
    · rw [f2 _ k] at hu
      cases hu
    · obtain ⟨u', g1, g2⟩ := f1 _ _ k
      rw [hu] at g2
      cases g2
      refine ⟨us, V, k, l2 u (List.mem_of_getElem? g1), ?_⟩
      unfold inputsOf
      rw [List.getD_eq_getElem?_getD, g1]
      rfl
  obtain ⟨us, V, a1, a2, a3⟩ := first x u hx hu
  obtain ⟨vs, W, b1, b2, b3⟩ := first y v hy hv
  refine ⟨a2, b2, fun s hs => ?_⟩
  have := main us vs V W a1 b1 0 h.N s hs
  rwa [a3, b3] at this

/-- C144 on the integrator: the controller answers at all states between `-3` and `3`, and its feedback is a Lipschitz function there -/
example : ∃ c, MPC.init integrator 3 half1 one1 one1 boxXU interval1 = .ok c ∧ ∃ K, 0 ≤ K ∧ ∀ L, LibSpec L → ∀ r r' : ℝ, |r| ≤ 3 → |r'| ≤ 3 →
    ∃ u v, c.feedback L ⟨1, fun _ => r⟩ = .ok (some u) ∧ c.feedback L ⟨1, fun _ => r'⟩ = .ok (some v) ∧ |u.e 0 - v.e 0| ≤ K * |r - r'| := by
  obtain ⟨c, h1, K, hK, h2⟩ := C144_mpc _ _ _ _ _ _ _ (integrator_args 3 (by norm_num))
  refine ⟨c, h1, K, hK, fun L hL r r' hr hr' => ?_⟩
  have ans : ∀ r : ℝ, |r| ≤ 3 → ∃ u, c.feedback L ⟨1, fun _ => r⟩ = .ok (some u) := by
    intro r hr
    obtain ⟨c', us, vs, V, W, k1, -, -, k2⟩ := integrator_answers L hL
    rw [h1] at k1
    cases k1
    obtain ⟨ws, T, k3, -⟩ := k2 r hr
    have hN : 0 < c.N := by
      obtain ⟨q, e, -⟩ := init_run (integrator_args 3 (by norm_num)).toMpcSizes
      rw [h1] at e
      cases e
      norm_num
    obtain ⟨u, -, k4⟩ := (C65_linear L c hN ⟨1, fun _ => r⟩).2.1 _ _ k3
    exact ⟨u, k4⟩
  obtain ⟨u, hu⟩ := ans r hr
  obtain ⟨v, hv⟩ := ans r' hr'
  refine ⟨u, v, hu, hv, ?_⟩
  have := ((h2 L hL ⟨1, fun _ => r⟩ ⟨1, fun _ => r'⟩ rfl rfl).2 u v hu hv).2.2 0 (by norm_num [integrator])
  simpa [integrator] using this

end Verif.Props
