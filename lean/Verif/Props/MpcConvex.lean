import Verif.Props.MpcExamples

/- The states for which the linear controller of `/repo/pympc/control/controllers.py` answers, and its value function, are convex (C127). -/
namespace Verif.Props
open Finset Spec Dyn Control

/-- `x M y` -/
def bil (M : Mat ℝ) (x y : ℕ → ℝ) : ℝ := ∑ i ∈ range M.nr, ∑ j ∈ range M.nc, x i * M.e i j * y j

theorem bil_left (M : Mat ℝ) (a c : ℝ) (x y z : ℕ → ℝ) : bil M (fun i => a * x i + c * y i) z = a * bil M x z + c * bil M y z := by
  unfold bil
  simp only [Finset.mul_sum, ← Finset.sum_add_distrib]
  exact Finset.sum_congr rfl fun i _ => Finset.sum_congr rfl fun j _ => by ring

theorem bil_right (M : Mat ℝ) (a c : ℝ) (x y z : ℕ → ℝ) : bil M z (fun i => a * x i + c * y i) = a * bil M z x + c * bil M z y := by
  unfold bil
  simp only [Finset.mul_sum, ← Finset.sum_add_distrib]
  exact Finset.sum_congr rfl fun i _ => Finset.sum_congr rfl fun j _ => by ring

/-- the cost as a bilinear form -/
noncomputable def costBil (p : LinOcp) (x : ℕ → ℝ) (u : ℕ → ℕ → ℝ) (y : ℕ → ℝ) (v : ℕ → ℕ → ℝ) : ℝ :=
  1 / 2 * ∑ t ∈ range p.N, (bil p.Q (p.x x u t) (p.x y v t) + bil p.R (u t) (v t)) + 1 / 2 * bil p.P (p.x x u p.N) (p.x y v p.N)

theorem cost_bil (p : LinOcp) (x : ℕ → ℝ) (u : ℕ → ℕ → ℝ) : p.cost x u = costBil p x u x u := rfl

/-- the trajectories are linear in initial state and inputs -/
theorem x_comb (p : LinOcp) (a c : ℝ) (x y : ℕ → ℝ) (u v : ℕ → ℕ → ℝ) (t : ℕ) :
    p.x (fun i => a * x i + c * y i) (fun t s => a * u t s + c * v t s) t = fun i => a * p.x x u t i + c * p.x y v t i := by
  induction t with
  | zero => rfl
  | succ t ih =>
    funext i
    rw [LinOcp.x_succ, LinOcp.x_succ, LinOcp.x_succ, ih]
    simp only [LinOcp.next, Spec.affine, add_zero, mul_add, Finset.mul_sum, Finset.sum_add_distrib]
    simp only [mul_left_comm _ a, mul_left_comm _ c]
    ring

theorem costBil_left (p : LinOcp) (a c : ℝ) (x y z : ℕ → ℝ) (u v w : ℕ → ℕ → ℝ) :
    costBil p (fun i => a * x i + c * y i) (fun t s => a * u t s + c * v t s) z w = a * costBil p x u z w + c * costBil p y v z w := by
  unfold costBil
  simp only [x_comb, bil_left, Finset.sum_add_distrib, ← Finset.mul_sum]
  ring

theorem costBil_right (p : LinOcp) (a c : ℝ) (x y z : ℕ → ℝ) (u v w : ℕ → ℕ → ℝ) :
    costBil p z w (fun i => a * x i + c * y i) (fun t s => a * u t s + c * v t s) = a * costBil p z w x u + c * costBil p z w y v := by
  unfold costBil
  simp only [x_comb, bil_right, Finset.sum_add_distrib, ← Finset.mul_sum]
  ring

/-- the cost of a combination -/
theorem cost_comb (p : LinOcp) (a c : ℝ) (x y : ℕ → ℝ) (u v : ℕ → ℕ → ℝ) :
    p.cost (fun i => a * x i + c * y i) (fun t s => a * u t s + c * v t s) =
      a ^ 2 * p.cost x u + a * c * (costBil p x u y v + costBil p y v x u) + c ^ 2 * p.cost y v := by
  simp only [cost_bil, costBil_left, costBil_right]
  ring

/-- the cost is convex -/
theorem cost_convex {p : LinOcp} (hw : Weights p.nx p.nu p.Q p.R p.P) {a c : ℝ} (ha : 0 ≤ a) (hc : 0 ≤ c) (hac : a + c = 1) (x y : ℕ → ℝ)
    (u v : ℕ → ℕ → ℝ) : p.cost (fun i => a * x i + c * y i) (fun t s => a * u t s + c * v t s) ≤ a * p.cost x u + c * p.cost y v := by
  have h1 := LinOcp.cost_nonneg hw (fun i => 1 * x i + (-1) * y i) (fun t s => 1 * u t s + (-1) * v t s)
  rw [cost_comb] at h1
  rw [cost_comb]
  obtain rfl : c = 1 - a := by linarith
  nlinarith [mul_nonneg ha hc]

/-- the inequalities are kept by convex combinations -/
theorem ineq_comb {A : Mat ℝ} {b : Vec ℝ} {a c : ℝ} (ha : 0 ≤ a) (hc : 0 ≤ c) (hac : a + c = 1) {x y : ℕ → ℝ} (h : IneqHold A b x)
    (h' : IneqHold A b y) : IneqHold A b fun i => a * x i + c * y i := by
  intro i hi
  have h1 := mul_le_mul_of_nonneg_left (h i hi) ha
  have h2 := mul_le_mul_of_nonneg_left (h' i hi) hc
  have e : rowVal A i (fun i => a * x i + c * y i) = a * rowVal A i x + c * rowVal A i y := by
    unfold rowVal
    simp only [Finset.mul_sum, ← Finset.sum_add_distrib]
    exact Finset.sum_congr rfl fun j _ => by ring
  rw [e]
  calc _ ≤ a * b.e i + c * b.e i := add_le_add h1 h2
    _ = b.e i := by rw [← add_mul, hac, one_mul]

theorem feas_comb {p : LinOcp} {a c : ℝ} (ha : 0 ≤ a) (hc : 0 ≤ c) (hac : a + c = 1) {x y : ℕ → ℝ} {u v : ℕ → ℕ → ℝ}
    (h : p.Feas x u) (h' : p.Feas y v) : p.Feas (fun i => a * x i + c * y i) fun t s => a * u t s + c * v t s := by
  refine ⟨fun t ht => ?_, ?_⟩
  · rw [x_comb]
    have := ineq_comb ha hc hac (h.1 t ht) (h'.1 t ht)
    unfold LinOcp.Stage
    convert this using 1
    funext i
    simp only [pair]
    split_ifs <;> rfl
  · rw [x_comb]
    exact ineq_comb ha hc hac h.2 h'.2

/-- a nonnegative quadratic without constant term has no linear term -/
theorem lin_zero {l q : ℝ} (h : ∀ s : ℝ, 0 ≤ s * l + s ^ 2 * q) : l = 0 := by
  by_contra hl
  have hq : 0 ≤ q := by
    have h1 := h 1
    have h2 := h (-1)
    nlinarith
  have h1 := h (-l / (q + 1))
  have hq1 : 0 < q + 1 := by linarith
  have e : -l / (q + 1) * l + (-l / (q + 1)) ^ 2 * q = -(l ^ 2 / (q + 1) ^ 2) := by
    field_simp
    ring
  rw [e] at h1
  have : 0 < l ^ 2 / (q + 1) ^ 2 := by positivity
  linarith

/-- the cost beyond the least unconstrained one is the cost of the difference of the inputs from the origin -/
theorem cost_excess {p : LinOcp} {x : ℕ → ℝ} {u0 : ℕ → ℕ → ℝ} (h : ∀ v, p.cost x u0 ≤ p.cost x v) (w : ℕ → ℕ → ℝ) :
    costBil p x u0 (fun _ => 0) w + costBil p (fun _ => 0) w x u0 = 0 := by
  refine lin_zero (q := p.cost (fun _ => 0) w) fun s => ?_
  have h1 := h fun t k => 1 * u0 t k + s * w t k
  have h2 := cost_comb p 1 s x (fun _ => 0) u0 w
  rw [show (fun i => 1 * x i + s * (0 : ℝ)) = x from by funext i; ring] at h2
  rw [h2] at h1
  nlinarith

theorem cost_excess_eq {p : LinOcp} {x : ℕ → ℝ} {u0 : ℕ → ℕ → ℝ}
    (h : ∀ w, costBil p x u0 (fun _ => 0) w + costBil p (fun _ => 0) w x u0 = 0) (u : ℕ → ℕ → ℝ) :
    p.cost x u = p.cost x u0 + p.cost (fun _ => 0) fun t s => u t s - u0 t s := by
  have h2 := cost_comb p 1 1 x (fun _ => 0) u0 fun t s => u t s - u0 t s
  rw [h, show (fun i => 1 * x i + 1 * (0 : ℝ)) = x from by funext i; ring,
    show (fun t s => 1 * u0 t s + 1 * (u t s - u0 t s)) = u from by funext t s; ring] at h2
  linarith

/-- C127: the states for which `feedforward` returns inputs form a convex set, on which the returned value is a convex function of the state -/
theorem C127 (L : Lib) (hL : LibSpec L) (S : LinearSystem) (N : ℕ) (Q R P : Mat ℝ) (D X_N : Poly) (h : MpcArgs S N Q R P D X_N) :
    ∃ c, MPC.init S N Q R P D X_N = .ok c ∧ ∀ (x y z : Vec ℝ) (a : ℝ), x.n = S.nx → y.n = S.nx → z.n = S.nx → 0 ≤ a → a ≤ 1 →
      (∀ i < S.nx, z.e i = a * x.e i + (1 - a) * y.e i) → ∀ us vs V W, c.feedforward L x = .ok (some us, some V) →
      c.feedforward L y = .ok (some vs, some W) →
      ∃ ws T, c.feedforward L z = .ok (some ws, some T) ∧ T ≤ a * V + (1 - a) * W := by
  obtain ⟨q, h1, -, hq, hF, hC, -⟩ := init_run h.toMpcSizes
  obtain ⟨q', h1', h2⟩ := feedforward_run hL h
  rw [h1] at h1'
  cases h1'
  refine ⟨_, h1, fun x y z a hx hy hz ha0 ha1 hzc us vs V W hV hW => ?_⟩
  set p := problem S N Q R P D X_N with hp
  have hsh : p.Shape := problem_shape h.toMpcSizes
  have hw : Weights p.nx p.nu p.Q p.R p.P := h.w
  have hc0 : 0 ≤ 1 - a := by linarith
  have hac : a + (1 - a) = 1 := by ring
  -- the least unconstrained costs
  have free : ∀ x0 : ℕ → ℝ, ∃ u0, ∀ v, p.cost x0 u0 ≤ p.cost x0 v := fun x0 => by
    obtain ⟨u0, -, -, g⟩ := MpQP.free_opt hq x0
    refine ⟨unflat S.nu u0, fun v => ?_⟩
    have := g (flat S.nu v)
    rw [hC, hC] at this
    refine this.trans_eq (LinOcp.cost_congr hsh (fun _ _ => rfl) fun t _ s hs => unflat_flat v t hs)
  -- the answers at `x` and `y`
  have ans : ∀ (x : Vec ℝ) us V, x.n = S.nx → (⟨S, N, Q, R, P, D, X_N, none, q⟩ : MPC).feedforward L x = .ok (some us, some V) →
      p.Opt x.e (inputsOf us) ∧ V = p.cost x.e (inputsOf us) ∧ ∀ u0, (∀ v, p.cost x.e u0 ≤ p.cost x.e v) →
        p.cost x.e (inputsOf us) - p.cost x.e u0 < (1 / (1e-7 : ℝ) ^ 2 - 1) / 2 := by
    intro x us V hx hV
    obtain ⟨k1, k2⟩ := h2 none x hx
    rcases k1 with k | ⟨us', V', k, -, -, k3, k4, -⟩
    · rw [hV] at k; cases k
    · rw [hV] at k
      cases k
      refine ⟨k3, k4, fun u0 hu0 => ?_⟩
      by_contra hcon
      have := k2.2 (.inr ⟨_, u0, k3, hu0, not_lt.1 hcon⟩)
      rw [hV] at this
      cases this
  obtain ⟨o1, v1, e1⟩ := ans x us V hx hV
  obtain ⟨o2, v2, e2⟩ := ans y vs W hy hW
  have zF : ∀ w, p.Feas z.e w ↔ p.Feas (fun i => a * x.e i + (1 - a) * y.e i) w := fun w => LinOcp.feas_congr hsh hzc fun _ _ _ _ => rfl
  have zC : ∀ w, p.cost z.e w = p.cost (fun i => a * x.e i + (1 - a) * y.e i) w := fun w => LinOcp.cost_congr hsh hzc fun _ _ _ _ => rfl
  have f := feas_comb ha0 hc0 hac o1.1 o2.1
  obtain ⟨k1, k2⟩ := h2 none z hz
  rcases k1 with k | ⟨ws, T, k, -, -, k3, k4, -⟩
  · exfalso
    rcases k2.1 k with k3 | ⟨uz, u0z, g1, g2, g3⟩
    · exact k3 _ ((zF _).2 f)
    · obtain ⟨u0x, hx0⟩ := free x.e
      obtain ⟨u0y, hy0⟩ := free y.e
      have sx := cost_excess hx0
      have sy := cost_excess hy0
      have sz : ∀ w, costBil p (fun i => a * x.e i + (1 - a) * y.e i) (fun t s => a * u0x t s + (1 - a) * u0y t s) (fun _ => 0) w
          + costBil p (fun _ => 0) w (fun i => a * x.e i + (1 - a) * y.e i) (fun t s => a * u0x t s + (1 - a) * u0y t s) = 0 := fun w => by
        rw [costBil_left, costBil_right]
        linear_combination a * sx w + (1 - a) * sy w
      have lx := e1 u0x hx0
      have ly := e2 u0y hy0
      rw [cost_excess_eq sx (inputsOf us)] at lx
      rw [cost_excess_eq sy (inputsOf vs)] at ly
      have b1 := g1.2 _ ((zF _).2 f)
      rw [zC, zC] at b1
      rw [zC, zC] at g3
      -- the unconstrained cost at `z`
      have b2 := cost_excess_eq sz u0z
      have b3 := LinOcp.cost_nonneg hw (fun _ => 0) fun t s => u0z t s - (a * u0x t s + (1 - a) * u0y t s)
      have b4 := cost_excess_eq sz fun t s => a * inputsOf us t s + (1 - a) * inputsOf vs t s
      have b5 := cost_convex hw ha0 hc0 hac (fun _ => 0) (fun _ => 0) (fun t s => inputsOf us t s - u0x t s) fun t s => inputsOf vs t s - u0y t s
      rw [show (fun _ : ℕ => a * (0 : ℝ) + (1 - a) * 0) = fun _ => 0 from by funext i; ring,
        show (fun t s => a * (inputsOf us t s - u0x t s) + (1 - a) * (inputsOf vs t s - u0y t s)) =
          fun t s => a * inputsOf us t s + (1 - a) * inputsOf vs t s - (a * u0x t s + (1 - a) * u0y t s) from by funext t s; ring] at b5
      have m1 : a * p.cost (fun _ => 0) (fun t s => inputsOf us t s - u0x t s) ≤ a * ((1 / (1e-7 : ℝ) ^ 2 - 1) / 2) :=
        mul_le_mul_of_nonneg_left (by linarith) ha0
      have m2 : (1 - a) * p.cost (fun _ => 0) (fun t s => inputsOf vs t s - u0y t s) ≤ (1 - a) * ((1 / (1e-7 : ℝ) ^ 2 - 1) / 2) :=
        mul_le_mul_of_nonneg_left (by linarith) hc0
      have m3 : a * p.cost (fun _ => 0) (fun t s => inputsOf us t s - u0x t s) + (1 - a) * p.cost (fun _ => 0) (fun t s => inputsOf vs t s - u0y t s)
          < (1 / (1e-7 : ℝ) ^ 2 - 1) / 2 := by
        rcases ha0.lt_or_eq with h0 | h0
        · have := mul_lt_mul_of_pos_left (show p.cost (fun _ => 0) (fun t s => inputsOf us t s - u0x t s) < (1 / (1e-7 : ℝ) ^ 2 - 1) / 2 by linarith) h0
          linarith
        · rw [← h0]
          linarith
      linarith
  · refine ⟨ws, T, k, ?_⟩
    rw [k4, v1, v2]
    refine (k3.2 _ ((zF _).2 f)).trans ?_
    rw [zC]
    exact cost_convex hw ha0 hc0 hac _ _ _ _

/-- C127 on the integrator: the controller answers at `3` and `-3`, hence at all states in between, where the value is at most the interpolated one -/
theorem integrator_answers (L : Lib) (hL : LibSpec L) : ∃ c us vs V W, MPC.init integrator 3 half1 one1 one1 boxXU interval1 = .ok c ∧
    c.feedforward L ⟨1, fun _ => 3⟩ = .ok (some us, some V) ∧ c.feedforward L ⟨1, fun _ => -3⟩ = .ok (some vs, some W) ∧
    ∀ r : ℝ, |r| ≤ 3 → ∃ ws T, c.feedforward L ⟨1, fun _ => r⟩ = .ok (some ws, some T) ∧ T ≤ (3 + r) / 6 * V + (3 - r) / 6 * W := by
  obtain ⟨c, h1, h2⟩ := C64_partial L hL _ _ _ _ _ _ _ (integrator_args 3 (by norm_num))
  obtain ⟨c', h1', h2'⟩ := C127 L hL _ _ _ _ _ _ _ (integrator_args 3 (by norm_num))
  rw [h1] at h1'
  cases h1'
  have key : ∀ σ : ℝ, σ = 1 ∨ σ = -1 → ∃ us V, c.feedforward L ⟨1, fun _ => 3 * σ⟩ = .ok (some us, some V) := by
    intro σ hσ
    refine (h2 ⟨1, fun _ => 3 * σ⟩ rfl).2.2 ⟨fun t _ => if t < 2 then -σ else 0, ⟨fun t ht i hi => ?_, fun i hi => ?_⟩, ?_⟩
    · have hi' : i < 4 := hi
      have ht' : t < 3 := ht
      rcases hσ with rfl | rfl <;> interval_cases t <;> interval_cases i <;>
        norm_num [problem, integrator, boxXU, Poly.fresh, rowVal, pair, LinOcp.x, Spec.traj, Spec.affine, one1, Finset.sum_range_succ]
    · have hi' : i < 2 := hi
      rcases hσ with rfl | rfl <;> interval_cases i <;>
        norm_num [problem, integrator, interval1, Poly.fresh, rowVal, LinOcp.x, Spec.traj, Spec.affine, one1, Finset.sum_range_succ]
    · rw [LinOcp.cost_eq]
      simp only [LinOcp.stageCost, problem, half1_quad, one1_quad]
      rcases hσ with rfl | rfl <;> norm_num [integrator, LinOcp.x, Spec.traj, Spec.affine, one1, Finset.sum_range_succ]
  obtain ⟨us, V, k⟩ := key 1 (.inl rfl)
  obtain ⟨vs, W, k'⟩ := key (-1) (.inr rfl)
  norm_num at k k'
  refine ⟨c, us, vs, V, W, h1, k, k', fun r hr => ?_⟩
  obtain ⟨r1, r2⟩ := abs_le.1 hr
  obtain ⟨ws, T, g1, g2⟩ := h2' ⟨1, fun _ => 3⟩ ⟨1, fun _ => -3⟩ ⟨1, fun _ => r⟩ ((3 + r) / 6) rfl rfl rfl (by linarith) (by linarith)
    (fun i _ => by show r = _; ring) us vs V W k k'
  exact ⟨ws, T, g1, by rw [show (3 - r) / 6 = 1 - (3 + r) / 6 by ring]; exact g2⟩

end Verif.Props
