import Verif.Props.MpcExponential
import Verif.Props.MpcHorizon

/- The closed loop of the linear controller of `/repo/pympc/control/controllers.py` with a plant that differs from the model (C154). -/
namespace Verif.Props
open Finset Spec Dyn Control

/-- `x`, `u` is the loop of the controller with the system and the disturbances `w` during the first `T` steps: `x(t+1) = A x(t) + B u(t) + w(t)` -/
def DisturbedLoop (L : Lib) (c : MPC) (p : LinOcp) (w : ℕ → ℕ → ℝ) (x u : ℕ → Vec ℝ) (T : ℕ) : Prop :=
  (x 0).n = p.nx ∧ ∀ t < T, c.feedback L (x t) = .ok (some (u t)) ∧ (x (t + 1)).n = p.nx ∧
    ∀ i < p.nx, (x (t + 1)).e i = p.next (x t).e (u t).e i + w t i

theorem DisturbedLoop.size {L : Lib} {c : MPC} {p : LinOcp} {w : ℕ → ℕ → ℝ} {x u : ℕ → Vec ℝ} {T : ℕ} (h : DisturbedLoop L c p w x u T) :
    ∀ t ≤ T, (x t).n = p.nx := by
  intro t ht
  cases t with
  | zero => exact h.1
  | succ t => exact (h.2 t (by omega)).2.1

/-- the cost at a sum, with any weights of the two terms -/
theorem cost_young {p : LinOcp} (hw : Weights p.nx p.nu p.Q p.R p.P) {θ : ℝ} (hθ : 0 < θ) (x y : ℕ → ℝ) (u v : ℕ → ℕ → ℝ) :
    p.cost y v ≤ (1 + θ) * p.cost x u + (1 + 1 / θ) * p.cost (fun i => y i - x i) fun t s => v t s - u t s := by
  have e1 : p.cost y v = p.cost (fun i => 1 * x i + 1 * (y i - x i)) fun t s => 1 * u t s + 1 * (v t s - u t s) := by
    congr 1
    · funext i; ring
    · funext t s; ring
  have h1 := LinOcp.cost_nonneg hw (fun i => θ * x i + (-1) * (y i - x i)) fun t s => θ * u t s + (-1) * (v t s - u t s)
  rw [cost_comb p θ (-1) x (fun i => y i - x i) u fun t s => v t s - u t s] at h1
  rw [e1, cost_comb p 1 1 x (fun i => y i - x i) u fun t s => v t s - u t s]
  set X := p.cost x u
  set Y := p.cost (fun i => y i - x i) fun t s => v t s - u t s
  set Z := costBil p x u (fun i => y i - x i) (fun t s => v t s - u t s) + costBil p (fun i => y i - x i) (fun t s => v t s - u t s) x u
  have h2 : Z ≤ θ * X + 1 / θ * Y := by
    have h3 : θ * Z ≤ θ ^ 2 * X + Y := by linarith
    have h4 : θ * (θ * X + 1 / θ * Y) = θ ^ 2 * X + Y := by
      field_simp
    exact le_of_mul_le_mul_left (by rw [h4]; exact h3) hθ
  linarith

/-- there are optimal inputs where some are feasible -/
theorem mpc_opt_exists {S : LinearSystem} {N : ℕ} {Q R P : Mat ℝ} {D X_N : Poly} (h : MpcArgs S N Q R P D X_N) {x : ℕ → ℝ} {u : ℕ → ℕ → ℝ}
    (hu : (problem S N Q R P D X_N).Feas x u) : ∃ v, (problem S N Q R P D X_N).Opt x v := by
  obtain ⟨q, -, -, hq, hF, hC, -⟩ := init_run h.toMpcSizes
  have hsh : (problem S N Q R P D X_N).Shape := problem_shape h.toMpcSizes
  have e1 : ∀ u : ℕ → ℕ → ℝ, ∀ t < N, ∀ s < S.nu, unflat S.nu (flat S.nu u) t s = u t s := fun u t _ s hs => unflat_flat u t hs
  obtain ⟨v, hv⟩ := opt_exists hq ⟨_, (hF x (flat S.nu u)).2 ((LinOcp.feas_congr hsh (fun _ _ => rfl) (e1 u)).2 hu)⟩
  refine ⟨unflat S.nu v, (hF _ _).1 hv.1, fun u' hu' => ?_⟩
  have := hv.2 (flat S.nu u') ((hF x _).2 ((LinOcp.feas_congr hsh (fun _ _ => rfl) (e1 u')).2 hu'))
  rwa [hC, hC, LinOcp.cost_congr hsh (fun _ _ => rfl) (e1 u')] at this

/-- in the terminal set the inputs `u = K x` are feasible, at most at the terminal cost -/
theorem terminal_inputs {S : LinearSystem} {Q R P K : Mat ℝ} {D X_N : Poly} (N : ℕ) (hI : (problem S N Q R P D X_N).TerminalInvariant K)
    (hD : (problem S N Q R P D X_N).TerminalDecrease K) {x : ℕ → ℝ} (hx : IneqHold X_N.A X_N.b x) :
    ∃ v, (problem S N Q R P D X_N).Feas x v ∧ (problem S N Q R P D X_N).cost x v ≤ 1 / 2 * quad P x := by
  have hI' : ∀ M, (problem S M Q R P D X_N).TerminalInvariant K := fun M => hI
  have hD' : ∀ M, (problem S M Q R P D X_N).TerminalDecrease K := fun M => hD
  clear hI hD
  induction N with
  | zero =>
    refine ⟨fun _ _ => 0, ⟨fun t ht => absurd ht (by show ¬ t < 0; omega), hx⟩, le_of_eq ?_⟩
    rw [LinOcp.cost_eq]
    show ∑ t ∈ range 0, _ + 1 / 2 * quad P x = _
    simp
  | succ N ih =>
    obtain ⟨v, h1, h2⟩ := ih
    obtain ⟨v', h3, h4⟩ := extend_one (hI' N) (hD' N) h1
    exact ⟨v', h3, h4.trans h2⟩

/-- the constants of the controller: the optimal inputs are Lipschitz, and the value is between multiples of the square of the state -/
structure Rates (p : LinOcp) (k l C : ℝ) : Prop where
  k0 : 0 ≤ k
  l0 : 0 < l
  lC : l ≤ C
  lip : ∀ x y u v, p.Opt x u → p.Opt y v → ∀ t < p.N, ∀ s < p.nu, |u t s - v t s| ≤ k * ∑ i ∈ range p.nx, |x i - y i|
  inp : ∀ x u, p.Opt x u → ∀ t < p.N, ∀ s < p.nu, |u t s| ≤ k * ∑ i ∈ range p.nx, |x i|
  up : ∀ x u, p.Opt x u → p.cost x u ≤ C * (∑ i ∈ range p.nx, |x i|) ^ 2
  stage : ∀ x u, l / 2 * (∑ i ∈ range p.nx, |x i|) ^ 2 ≤ p.stageCost x u
  diff : ∀ (d : ℕ → ℝ) (e : ℕ → ℕ → ℝ), (∀ t < p.N, ∀ s < p.nu, |e t s| ≤ k * ∑ i ∈ range p.nx, |d i|) → p.cost d e ≤ C * (∑ i ∈ range p.nx, |d i|) ^ 2

theorem rates {S : LinearSystem} {N : ℕ} {Q R P K : Mat ℝ} {D X_N : Poly} (h : MpcArgs S N Q R P D X_N)
    (hQ : ∀ x, (∃ i < S.nx, x i ≠ 0) → 0 < quad Q x)
    (hK : (problem S N Q R P D X_N).TerminalInvariant K) (hd : (problem S N Q R P D X_N).TerminalDecrease K) (hne : ∃ x, IneqHold X_N.A X_N.b x) :
    ∃ k l C, Rates (problem S N Q R P D X_N) k l C := by
  obtain ⟨q, h1, -, hq, hF, hC, -⟩ := init_run h.toMpcSizes
  set p := problem S N Q R P D X_N with hp
  have hsh : p.Shape := problem_shape h.toMpcSizes
  have hw : Weights p.nx p.nu p.Q p.R p.P := h.w
  obtain ⟨k, hk, hlip⟩ := optimizer_lipschitz hq
  have opt : ∀ (x : ℕ → ℝ) u, p.Opt x u → q.data.Opt (S.nu * N) S.nx (flat S.nu u) x := by
    intro x u hu
    have e1 : ∀ t < N, ∀ s < S.nu, unflat S.nu (flat S.nu u) t s = u t s := fun t _ s hs => unflat_flat u t hs
    refine ⟨(hF _ _).2 ((LinOcp.feas_congr hsh (fun _ _ => rfl) e1).2 hu.1), fun v hv => ?_⟩
    rw [hC, hC, LinOcp.cost_congr hsh (fun _ _ => rfl) e1]
    exact hu.2 _ ((hF _ _).1 hv)
  have lip : ∀ x y u v, p.Opt x u → p.Opt y v → ∀ t < p.N, ∀ s < p.nu, |u t s - v t s| ≤ k * ∑ i ∈ range p.nx, |x i - y i| := by
    intro x y u v hu hv t ht s hs
    have ht' : t < N := ht
    have hs' : s < S.nu := hs
    have := hlip x y _ _ (opt _ _ hu) (opt _ _ hv) (S.nu * t + s) (by nlinarith)
    have e : ∀ u : ℕ → ℕ → ℝ, flat S.nu u (S.nu * t + s) = u t s := fun u => unflat_flat u t hs
    rwa [e, e] at this
  have h0 : IneqHold X_N.A X_N.b fun _ => 0 := by
    obtain ⟨x0, hx0⟩ := hne
    exact origin_terminal hsh hw hQ hK hd hx0
  have hgain : LinOcp.gain K (fun _ => 0) = fun _ => 0 := by
    funext s
    simp [LinOcp.gain, rowVal]
  have hx0 : ∀ t, p.x (fun _ => 0) (fun _ _ => 0) t = fun _ => 0 := by
    intro t
    induction t with
    | zero => rfl
    | succ t ih =>
      rw [LinOcp.x_succ, ih]
      funext i
      simp [LinOcp.next, Spec.affine]
  have hst : p.Stage (fun _ => 0) fun _ => 0 := by
    have := (hK _ h0).1
    rwa [hgain] at this
  have hq0 : ∀ M : Mat ℝ, quad M (fun _ => 0) = 0 := fun M => by simp [quad]
  have hopt0 : p.Opt (fun _ => 0) fun _ _ => 0 := by
    refine ⟨⟨fun t _ => ?_, ?_⟩, fun v _ => ?_⟩
    · rw [hx0]; exact hst
    · rw [hx0]; exact h0
    · have : p.cost (fun _ => 0) (fun _ _ => 0) = 0 := by
        rw [LinOcp.cost_eq]
        simp only [hx0, LinOcp.stageCost, hq0]
        simp
      rw [this]
      exact LinOcp.cost_nonneg hw _ _
  have inp : ∀ x u, p.Opt x u → ∀ t < p.N, ∀ s < p.nu, |u t s| ≤ k * ∑ i ∈ range p.nx, |x i| := by
    intro x u hu t ht s hs
    simpa using lip x (fun _ => 0) _ _ hu hopt0 t ht s hs
  obtain ⟨C0, hC0, hcost⟩ := cost_bound hsh hk
  obtain ⟨l, hl, hlow⟩ := quad_lower_sum hsh.Q.1 hsh.Q.2 h.w.Q0 hQ
  have habs : ∀ (x : ℕ → ℝ), 0 ≤ ∑ l ∈ range p.nx, |x l| := fun x => Finset.sum_nonneg fun _ _ => abs_nonneg _
  have hle : ∀ (x : ℕ → ℝ), ∀ i < p.nx, |x i| ≤ ∑ l ∈ range p.nx, |x l| := fun x i hi =>
    Finset.single_le_sum (f := fun l => |x l|) (fun _ _ => abs_nonneg _) (mem_range.2 hi)
  have diff : ∀ (d : ℕ → ℝ) (e : ℕ → ℕ → ℝ), (∀ t < p.N, ∀ s < p.nu, |e t s| ≤ k * ∑ i ∈ range p.nx, |d i|) →
      p.cost d e ≤ (C0 + l) * (∑ i ∈ range p.nx, |d i|) ^ 2 := fun d e he =>
    (hcost _ _ _ (habs _) (hle _) he).trans (mul_le_mul_of_nonneg_right (by linarith) (sq_nonneg _))
  refine ⟨k, l, C0 + l, hk, hl, by linarith, lip, inp, fun x u hu => diff x u (inp x u hu), fun x u => ?_, diff⟩
  have a1 := hlow x
  have b3 : 0 ≤ quad p.R u := by
    have := LinOcp.stageCost_nonneg hw (fun _ => 0) u
    unfold LinOcp.stageCost at this
    rw [hq0] at this
    linarith
  unfold LinOcp.stageCost
  linarith

/-- one step of the loop: the value at the next state -/
theorem disturbed_step {S : LinearSystem} {N : ℕ} {Q R P K : Mat ℝ} {D X_N : Poly} (h : MpcArgs S N Q R P D X_N)
    (hK : (problem S N Q R P D X_N).TerminalInvariant K) (hd : (problem S N Q R P D X_N).TerminalDecrease K) {k l C : ℝ}
    (hr : Rates (problem S N Q R P D X_N) k l C) {x y w : ℕ → ℝ} {u v : ℕ → ℕ → ℝ} (hu : (problem S N Q R P D X_N).Opt x u)
    (hv : (problem S N Q R P D X_N).Opt y v) (hy : ∀ i < S.nx, y i = (problem S N Q R P D X_N).next x (u 0) i + w i) :
    (problem S N Q R P D X_N).cost y v ≤ (1 - l / (4 * C)) * (problem S N Q R P D X_N).cost x u + (1 + 4 * C / l) * (C * (∑ i ∈ range S.nx, |w i|) ^ 2) := by
  set p := problem S N Q R P D X_N with hp
  have hsh : p.Shape := problem_shape h.toMpcSizes
  have hw : Weights p.nx p.nu p.Q p.R p.P := h.w
  have hl := hr.l0
  have hC : 0 < C := lt_of_lt_of_le hr.l0 hr.lC
  have hf := LinOcp.shifted_feas hsh h.N hK hu.1
  have hcst := LinOcp.shifted_cost hsh h.N K x u
  have hdec := hd _ hu.1.2
  obtain ⟨v', hv'⟩ := mpc_opt_exists h hf
  have h1 : p.cost (p.next x (u 0)) v' ≤ p.cost x u - p.stageCost x (u 0) := by
    have := hv'.2 _ hf
    rw [hcst] at this
    linarith
  have h2 : l / (2 * C) * p.cost x u ≤ p.stageCost x (u 0) := by
    calc l / (2 * C) * p.cost x u ≤ l / (2 * C) * (C * (∑ i ∈ range p.nx, |x i|) ^ 2) := mul_le_mul_of_nonneg_left (hr.up x u hu) (by positivity)
      _ = l / 2 * (∑ i ∈ range p.nx, |x i|) ^ 2 := by field_simp
      _ ≤ _ := hr.stage x (u 0)
  have hdw : ∑ i ∈ range p.nx, |y i - p.next x (u 0) i| = ∑ i ∈ range S.nx, |w i| :=
    Finset.sum_congr rfl fun i hi => by rw [hy i (mem_range.1 hi)]; congr 1; ring
  have h3 := hr.diff (fun i => y i - p.next x (u 0) i) (fun t s => v t s - v' t s) fun t ht s hs => hr.lip y _ v v' hv hv' t ht s hs
  simp only [hdw] at h3
  set θ := l / (4 * C) with hθ
  have hθ0 : 0 < θ := by positivity
  have h4 := cost_young hw hθ0 (p.next x (u 0)) y v' v
  have e1 : 1 / θ = 4 * C / l := by rw [hθ]; field_simp
  have e2 : l / (2 * C) = 2 * θ := by rw [hθ]; field_simp; norm_num
  rw [e1] at h4
  rw [e2] at h2
  have h5 : (1 + 4 * C / l) * p.cost (fun i => y i - p.next x (u 0) i) (fun t s => v t s - v' t s)
      ≤ (1 + 4 * C / l) * (C * (∑ i ∈ range S.nx, |w i|) ^ 2) := mul_le_mul_of_nonneg_left h3 (by positivity)
  have h6 : p.cost (p.next x (u 0)) v' ≤ (1 - 2 * θ) * p.cost x u := by linarith
  have h7 : (1 + θ) * p.cost (p.next x (u 0)) v' ≤ (1 + θ) * ((1 - 2 * θ) * p.cost x u) := mul_le_mul_of_nonneg_left h6 (by positivity)
  have h8 : (1 + θ) * ((1 - 2 * θ) * p.cost x u) ≤ (1 - θ) * p.cost x u := by
    have := LinOcp.cost_nonneg hw x u
    nlinarith [mul_nonneg (sq_nonneg θ) this]
  linarith

/-- the answer of `feedback` is the first of optimal inputs -/
theorem feedback_opt {L : Lib} (hL : LibSpec L) {S : LinearSystem} {N : ℕ} {Q R P : Mat ℝ} {D X_N : Poly} (h : MpcArgs S N Q R P D X_N)
    {c : MPC} (hc : MPC.init S N Q R P D X_N = .ok c) {x : Vec ℝ} (hx : x.n = S.nx) {u : Vec ℝ} (hu : c.feedback L x = .ok (some u)) :
    ∃ v, (problem S N Q R P D X_N).Opt x.e v ∧ v 0 = u.e := by
  obtain ⟨us, V, -, -, k2, k3, -⟩ := closed_step hL h hc hx hu
  exact ⟨_, k3, k2⟩

/-- the state is bounded by the value -/
theorem Rates.low {S : LinearSystem} {N : ℕ} {Q R P : Mat ℝ} {D X_N : Poly} (h : MpcArgs S N Q R P D X_N) {k l C : ℝ}
    (hr : Rates (problem S N Q R P D X_N) k l C) (x : ℕ → ℝ) (u : ℕ → ℕ → ℝ) :
    l / 2 * (∑ i ∈ range S.nx, |x i|) ^ 2 ≤ (problem S N Q R P D X_N).cost x u := by
  have hw : Weights (problem S N Q R P D X_N).nx (problem S N Q R P D X_N).nu (problem S N Q R P D X_N).Q (problem S N Q R P D X_N).R
    (problem S N Q R P D X_N).P := h.w
  refine (hr.stage x (u 0)).trans ?_
  rw [LinOcp.cost_eq]
  have a3 := hw.P0 ((problem S N Q R P D X_N).x x u (problem S N Q R P D X_N).N)
  have a4 := Finset.single_le_sum (f := fun τ => (problem S N Q R P D X_N).stageCost ((problem S N Q R P D X_N).x x u τ) (u τ))
    (fun τ _ => LinOcp.stageCost_nonneg hw _ _) (mem_range.2 (show 0 < (problem S N Q R P D X_N).N from h.N))
  simp only [LinOcp.x_zero] at a4
  linarith

/-- a sum of squares is at most the square of the sum -/
theorem size_add {s a b c d l V : ℝ} (hl : 0 < l) (ha : 0 ≤ a) (hb : 0 ≤ b) (h1 : l / 2 * s ^ 2 ≤ V) (h2 : V ≤ c * a ^ 2 + d * b ^ 2)
    (hc : 0 ≤ c) (hd : 0 ≤ d) : s ≤ Real.sqrt (2 * c / l) * a + Real.sqrt (2 * d / l) * b := by
  refine abs_le_of_sq_le_sq' ?_ (by positivity) |>.2
  have e1 := Real.sq_sqrt (show 0 ≤ 2 * c / l by positivity)
  have e2 := Real.sq_sqrt (show 0 ≤ 2 * d / l by positivity)
  have e3 : (Real.sqrt (2 * c / l) * a + Real.sqrt (2 * d / l) * b) ^ 2 = 2 * c / l * a ^ 2 + 2 * d / l * b ^ 2 +
      2 * (Real.sqrt (2 * c / l) * a * (Real.sqrt (2 * d / l) * b)) := by
    have : (Real.sqrt (2 * c / l) * a + Real.sqrt (2 * d / l) * b) ^ 2 = Real.sqrt (2 * c / l) ^ 2 * a ^ 2 + Real.sqrt (2 * d / l) ^ 2 * b ^ 2 +
      2 * (Real.sqrt (2 * c / l) * a * (Real.sqrt (2 * d / l) * b)) := by ring
    rw [this, e1, e2]
  rw [e3]
  have e4 : 0 ≤ Real.sqrt (2 * c / l) * a * (Real.sqrt (2 * d / l) * b) := by positivity
  have e5 : s ^ 2 ≤ 2 / l * (c * a ^ 2 + d * b ^ 2) := by
    have := h1.trans h2
    rw [div_mul_eq_mul_div, le_div_iff₀ hl]
    linarith
  have e6 : 2 / l * (c * a ^ 2 + d * b ^ 2) = 2 * c / l * a ^ 2 + 2 * d / l * b ^ 2 := by ring
  linarith

/-- a sequence of states with optimal inputs, in which each state is the next one up to a disturbance -/
theorem opt_sequence {S : LinearSystem} {N : ℕ} {Q R P K : Mat ℝ} {D X_N : Poly} (h : MpcArgs S N Q R P D X_N)
    (hQ : ∀ x, (∃ i < S.nx, x i ≠ 0) → 0 < quad Q x)
    (hK : (problem S N Q R P D X_N).TerminalInvariant K) (hd : (problem S N Q R P D X_N).TerminalDecrease K) (hne : ∃ x, IneqHold X_N.A X_N.b x) :
    ∃ M r G : ℝ, 0 ≤ M ∧ 0 ≤ r ∧ r < 1 ∧ 0 ≤ G ∧ ∀ (x w : ℕ → ℕ → ℝ) (u : ℕ → ℕ → ℕ → ℝ) (T : ℕ) (W : ℝ), 0 ≤ W →
      (∀ t < T, (problem S N Q R P D X_N).Opt (x t) (u t)) → (∀ t, t + 1 < T → ∀ i < S.nx, x (t + 1) i = (problem S N Q R P D X_N).next (x t) (u t 0) i + w t i) →
      (∀ t, t + 1 < T → ∑ i ∈ range S.nx, |w t i| ≤ W) →
      ∀ t < T, ∑ i ∈ range S.nx, |x t i| ≤ M * r ^ t * ∑ l ∈ range S.nx, |x 0 l| + G * W ∧
        ∀ s < S.nu, |u t 0 s| ≤ M * r ^ t * ∑ l ∈ range S.nx, |x 0 l| + G * W := by
  obtain ⟨k, l, C, hr⟩ := rates h hQ hK hd hne
  set p := problem S N Q R P D X_N with hp
  have hl := hr.l0
  have hC : 0 < C := lt_of_lt_of_le hr.l0 hr.lC
  have hk := hr.k0
  set σ := 1 - l / (4 * C) with hσ
  have hσ1 : σ < 1 := by
    have : 0 < l / (4 * C) := by positivity
    linarith
  have hσ0 : 0 ≤ σ := by
    have : l / (4 * C) ≤ 1 := by
      rw [div_le_one (by positivity)]
      linarith [hr.lC]
    linarith
  set g := (1 + 4 * C / l) * C with hg
  have hg0 : 0 ≤ g := by positivity
  set B := g * (4 * C / l) with hB
  have hB0 : 0 ≤ B := by positivity
  have hBσ : σ * B + g = B := by
    rw [hσ, hB]
    field_simp
    ring
  refine ⟨Real.sqrt (2 * C / l) * (1 + k), Real.sqrt σ, Real.sqrt (2 * B / l) * (1 + k), by positivity, Real.sqrt_nonneg _,
    by rw [Real.sqrt_lt' one_pos]; simpa using hσ1, by positivity, fun x w u T W hW0 hopt hnext hW => ?_⟩
  have habs : ∀ (x : ℕ → ℝ), 0 ≤ ∑ l ∈ range S.nx, |x l| := fun x => Finset.sum_nonneg fun _ _ => abs_nonneg _
  have hle : ∀ (x : ℕ → ℝ), ∀ i < S.nx, |x i| ≤ ∑ l ∈ range S.nx, |x l| := fun x i hi =>
    Finset.single_le_sum (f := fun l => |x l|) (fun _ _ => abs_nonneg _) (mem_range.2 hi)
  have val : ∀ t < T, p.cost (x t) (u t) ≤ σ ^ t * (C * (∑ l ∈ range S.nx, |x 0 l|) ^ 2) + B * W ^ 2 := by
    intro t
    induction t with
    | zero =>
      intro ht
      have := hr.up _ _ (hopt 0 ht)
      have e : 0 ≤ B * W ^ 2 := by positivity
      rw [pow_zero, one_mul]
      have e' : ∑ i ∈ range p.nx, |x 0 i| = ∑ i ∈ range S.nx, |x 0 i| := rfl
      rw [e'] at this
      linarith
    | succ t ih =>
      intro ht
      have h1 := disturbed_step h hK hd hr (w := w t) (hopt t (by omega)) (hopt (t + 1) ht) (hnext t ht)
      have h2 := mul_le_mul_of_nonneg_left (ih (by omega)) hσ0
      have h3 : (∑ i ∈ range S.nx, |w t i|) ^ 2 ≤ W ^ 2 := pow_le_pow_left₀ (habs _) (hW t ht) 2
      have h4 := mul_le_mul_of_nonneg_left h3 hg0
      have e1 : (1 + 4 * C / l) * (C * (∑ i ∈ range S.nx, |w t i|) ^ 2) = g * (∑ i ∈ range S.nx, |w t i|) ^ 2 := by rw [hg]; ring
      rw [e1] at h1
      have e2 : σ * (σ ^ t * (C * (∑ l ∈ range S.nx, |x 0 l|) ^ 2) + B * W ^ 2) + g * W ^ 2
          = σ ^ (t + 1) * (C * (∑ l ∈ range S.nx, |x 0 l|) ^ 2) + (σ * B + g) * W ^ 2 := by rw [pow_succ]; ring
      rw [hBσ] at e2
      linarith
  intro t ht
  have hs : ∑ i ∈ range S.nx, |x t i| ≤ Real.sqrt (2 * C / l) * (Real.sqrt σ ^ t * ∑ l ∈ range S.nx, |x 0 l|) + Real.sqrt (2 * B / l) * W := by
    refine size_add hl (by have := habs (x 0); positivity) hW0 (hr.low h (x t) (u t)) (?_ : _ ≤ C * _ + B * _) hC.le hB0
    have e : (Real.sqrt σ ^ t * ∑ l ∈ range S.nx, |x 0 l|) ^ 2 = σ ^ t * (∑ l ∈ range S.nx, |x 0 l|) ^ 2 := by
      rw [mul_pow, ← pow_mul, mul_comm t 2, pow_mul, Real.sq_sqrt hσ0]
    rw [e]
    have := val t ht
    linarith
  have hs0 := habs (x t)
  have hks := mul_nonneg hk hs0
  have hE : Real.sqrt (2 * C / l) * (1 + k) * Real.sqrt σ ^ t * ∑ l ∈ range S.nx, |x 0 l| + Real.sqrt (2 * B / l) * (1 + k) * W
      = (1 + k) * (Real.sqrt (2 * C / l) * (Real.sqrt σ ^ t * ∑ l ∈ range S.nx, |x 0 l|) + Real.sqrt (2 * B / l) * W) := by ring
  have hbig : (1 + k) * ∑ i ∈ range S.nx, |x t i| ≤ Real.sqrt (2 * C / l) * (1 + k) * Real.sqrt σ ^ t * ∑ l ∈ range S.nx, |x 0 l|
      + Real.sqrt (2 * B / l) * (1 + k) * W := by
    rw [hE]
    exact mul_le_mul_of_nonneg_left hs (by linarith)
  refine ⟨?_, fun s hs' => ?_⟩
  · linarith
  · have := hr.inp _ _ (hopt t ht) 0 h.N s hs'
    have e' : ∑ i ∈ range p.nx, |x t i| = ∑ i ∈ range S.nx, |x t i| := rfl
    rw [e'] at this
    linarith

/-- C154: let `Q` be positive definite, the terminal set invariant and admissible for some gain `K`, and let the terminal cost decrease by the stage cost there.  Then there
are `M`, `G` and `r < 1`, which depend on the controller only, such that in each loop with a plant whose next state differs from the one of the model by at most `W`, as long as the
controller answers, the states and inputs are at most `M r^t` times the size of the initial state plus `G W`. -/
theorem C154 (S : LinearSystem) (N : ℕ) (Q R P K : Mat ℝ) (D X_N : Poly) (h : MpcArgs S N Q R P D X_N)
    (hQ : ∀ x, (∃ i < S.nx, x i ≠ 0) → 0 < quad Q x)
    (hK : (problem S N Q R P D X_N).TerminalInvariant K) (hd : (problem S N Q R P D X_N).TerminalDecrease K)
    (c : MPC) (hc : MPC.init S N Q R P D X_N = .ok c) :
    ∃ M r G : ℝ, 0 ≤ M ∧ 0 ≤ r ∧ r < 1 ∧ 0 ≤ G ∧ ∀ L, LibSpec L → ∀ (w : ℕ → ℕ → ℝ) (x u : ℕ → Vec ℝ) (T : ℕ) (W : ℝ),
      DisturbedLoop L c (problem S N Q R P D X_N) w x u T → (∀ t < T, ∑ i ∈ range S.nx, |w t i| ≤ W) →
      ∀ t < T, (∀ i < S.nx, |(x t).e i| ≤ M * r ^ t * ∑ l ∈ range S.nx, |(x 0).e l| + G * W) ∧
        ∀ s < S.nu, |(u t).e s| ≤ M * r ^ t * ∑ l ∈ range S.nx, |(x 0).e l| + G * W := by
  by_cases hne : ∃ x, IneqHold X_N.A X_N.b x
  swap
  · refine ⟨0, 0, 0, le_rfl, le_rfl, one_pos, le_rfl, fun L hL w x u T W hcl _ t ht => ?_⟩
    obtain ⟨v, k2, -⟩ := feedback_opt hL h hc (hcl.size t ht.le) (hcl.2 t ht).1
    exact (hne ⟨_, k2.1.2⟩).elim
  obtain ⟨M, r, G, hM, hr0, hr1, hG, hmain⟩ := opt_sequence h hQ hK hd hne
  refine ⟨M, r, G, hM, hr0, hr1, hG, fun L hL w x u T W hcl hW t ht => ?_⟩
  have step : ∀ t, ∃ v, t < T → (problem S N Q R P D X_N).Opt (x t).e v ∧ v 0 = (u t).e := by
    intro t
    by_cases ht : t < T
    · obtain ⟨v, hv⟩ := feedback_opt hL h hc (hcl.size t ht.le) (hcl.2 t ht).1
      exact ⟨v, fun _ => hv⟩
    · exact ⟨fun _ _ => 0, fun h => absurd h ht⟩
  choose v hv using step
  obtain ⟨h1, h2⟩ := hmain (fun t => (x t).e) w v T W ((Finset.sum_nonneg fun _ _ => abs_nonneg _).trans (hW t ht)) (fun t ht => (hv t ht).1)
    (fun t ht => by rw [(hv t (by omega)).2]; exact (hcl.2 t (by omega)).2.2) (fun t ht => hW t (by omega)) t ht
  refine ⟨fun i hi => le_trans ?_ h1, fun s hs => ?_⟩
  · exact Finset.single_le_sum (f := fun l => |(x t).e l|) (fun _ _ => abs_nonneg _) (mem_range.2 hi)
  · have := h2 s hs
    rwa [(hv t ht).2] at this

/-- from a level set of the value around which there are feasible states the loop with small disturbances runs forever, and stays in it -/
theorem level_loop {S : LinearSystem} {N : ℕ} {Q R P K : Mat ℝ} {D X_N : Poly} (h : MpcArgs S N Q R P D X_N)
    (hK : (problem S N Q R P D X_N).TerminalInvariant K) (hd : (problem S N Q R P D X_N).TerminalDecrease K)
    {c : MPC} (hc : MPC.init S N Q R P D X_N = .ok c) {k l C : ℝ} (hr : Rates (problem S N Q R P D X_N) k l C) {a ε : ℝ} (ha : 0 < a)
    (ha1 : a < (1 / (1e-7 : ℝ) ^ 2 - 1) / 2) (hε : 0 < ε)
    (hin : ∀ x u, (problem S N Q R P D X_N).Opt x u → (problem S N Q R P D X_N).cost x u ≤ a → ∀ y : ℕ → ℝ,
      ∑ i ∈ range S.nx, |y i - (problem S N Q R P D X_N).next x (u 0) i| ≤ ε → ∃ v, (problem S N Q R P D X_N).Feas y v) :
    ∃ δ > 0, ∀ L, LibSpec L → ∀ (x0 : Vec ℝ) (u0 : ℕ → ℕ → ℝ) (w : ℕ → ℕ → ℝ), x0.n = S.nx → (problem S N Q R P D X_N).Opt x0.e u0 →
      (problem S N Q R P D X_N).cost x0.e u0 ≤ a → (∀ t, ∑ i ∈ range S.nx, |w t i| ≤ δ) →
      ∃ x u : ℕ → Vec ℝ, x 0 = x0 ∧ ∀ T, DisturbedLoop L c (problem S N Q R P D X_N) w x u T ∧
        ∃ v, (problem S N Q R P D X_N).Opt (x T).e v ∧ v 0 = (u T).e ∧ (problem S N Q R P D X_N).cost (x T).e v ≤ a := by
  set p := problem S N Q R P D X_N with hp
  have hsh : p.Shape := problem_shape h.toMpcSizes
  have hl := hr.l0
  have hC : 0 < C := lt_of_lt_of_le hr.l0 hr.lC
  set θ := l / (4 * C) with hθ
  have hθ0 : 0 < θ := by positivity
  set g := (1 + 4 * C / l) * C with hg
  have hg0 : 0 < g := by positivity
  have hσ0 : 0 ≤ 1 - θ := by
    have : l / (4 * C) ≤ 1 := by
      rw [div_le_one (by positivity)]
      linarith [hr.lC]
    linarith
  refine ⟨min ε (Real.sqrt (θ * a / g)), lt_min hε (Real.sqrt_pos.2 (by positivity)), fun L hL x0 u0 w hn hu0 hc0 hw => ?_⟩
  have habs : ∀ (x : ℕ → ℝ), 0 ≤ ∑ l ∈ range S.nx, |x l| := fun x => Finset.sum_nonneg fun _ _ => abs_nonneg _
  have hcN : c.N = N := by
    obtain ⟨q, h1, -⟩ := feedforward_run hL h
    rw [h1] at hc
    cases hc
    rfl
  obtain ⟨c', hc', h64⟩ := C64_partial L hL S N Q R P D X_N h
  rw [hc] at hc'
  obtain rfl : c = c' := by injection hc'
  let fb : Vec ℝ → Vec ℝ := fun y => match c.feedback L y with
    | .ok (some u) => u
    | _ => ⟨0, fun _ => 0⟩
  -- the answer at a state of the level set
  have ans : ∀ y : Vec ℝ, y.n = S.nx → (∃ v, p.Opt y.e v ∧ p.cost y.e v ≤ a) → c.feedback L y = .ok (some (fb y)) ∧
      ∃ v, p.Opt y.e v ∧ v 0 = (fb y).e ∧ p.cost y.e v ≤ a := by
    rintro y hy ⟨v, hv, hva⟩
    obtain ⟨us, V, hf⟩ := (h64 y hy).2.2 ⟨v, hv.1, lt_of_le_of_lt hva ha1⟩
    obtain ⟨u, -, hu⟩ := (C65_linear L c (hcN ▸ h.N) y).2.1 _ _ hf
    have hfb : fb y = u := by simp only [fb, hu]
    obtain ⟨v', h1, h2⟩ := feedback_opt hL h hc hy hu
    exact ⟨by rw [hfb]; exact hu, v', h1, by rw [hfb]; exact h2, (h1.2 v hv.1).trans hva⟩
  let x : ℕ → Vec ℝ := fun t => Nat.rec x0 (fun t y => ⟨S.nx, fun i => p.next y.e (fb y).e i + w t i⟩) t
  have inv : ∀ t, (x t).n = S.nx ∧ ∃ v, p.Opt (x t).e v ∧ p.cost (x t).e v ≤ a := by
    intro t
    induction t with
    | zero => exact ⟨hn, u0, hu0, hc0⟩
    | succ t ih =>
      obtain ⟨-, v, h1, h2, h3⟩ := ans (x t) ih.1 ih.2
      refine ⟨rfl, ?_⟩
      have hx1 : ∀ i, (x (t + 1)).e i = p.next (x t).e (v 0) i + w t i := fun i => by rw [h2]
      have hdist : ∑ i ∈ range S.nx, |(x (t + 1)).e i - p.next (x t).e (v 0) i| = ∑ i ∈ range S.nx, |w t i| :=
        Finset.sum_congr rfl fun i _ => by rw [hx1]; congr 1; ring
      obtain ⟨z, hz⟩ := hin (x t).e v h1 h3 (x (t + 1)).e (by rw [hdist]; exact (hw t).trans (min_le_left _ _))
      obtain ⟨v', hv'⟩ := mpc_opt_exists h hz
      refine ⟨v', hv', ?_⟩
      have h4 := disturbed_step h hK hd hr (w := w t) h1 hv' fun i _ => hx1 i
      have h5 : (∑ i ∈ range S.nx, |w t i|) ^ 2 ≤ θ * a / g := by
        have := pow_le_pow_left₀ (habs _) ((hw t).trans (min_le_right _ _)) 2
        rwa [Real.sq_sqrt (by positivity)] at this
      have h6 : g * (∑ i ∈ range S.nx, |w t i|) ^ 2 ≤ θ * a := by
        have := mul_le_mul_of_nonneg_left h5 hg0.le
        rwa [mul_div_cancel₀ _ hg0.ne'] at this
      have e1 : (1 + 4 * C / l) * (C * (∑ i ∈ range S.nx, |w t i|) ^ 2) = g * (∑ i ∈ range S.nx, |w t i|) ^ 2 := by rw [hg]; ring
      rw [e1] at h4
      have h7 := mul_le_mul_of_nonneg_left h3 hσ0
      linarith
  refine ⟨x, fun t => fb (x t), rfl, fun T => ⟨⟨hn, fun t _ => ⟨(ans _ (inv t).1 (inv t).2).1, rfl, fun i _ => rfl⟩⟩, (ans _ (inv T).1 (inv T).2).2⟩⟩

/-- C154, near the origin: if moreover the terminal set contains a neighbourhood of the origin, then there are `η`, `δ > 0`, which depend on the controller only, such that from each
state with entries at most `η`, whatever the disturbances with entries at most `δ`, the loop runs forever and never violates the constraints. -/
theorem C154_forever (S : LinearSystem) (N : ℕ) (Q R P K : Mat ℝ) (D X_N : Poly) (h : MpcArgs S N Q R P D X_N)
    (hQ : ∀ x, (∃ i < S.nx, x i ≠ 0) → 0 < quad Q x)
    (hK : (problem S N Q R P D X_N).TerminalInvariant K) (hd : (problem S N Q R P D X_N).TerminalDecrease K)
    (hball : ∃ ε > 0, ∀ x : ℕ → ℝ, (∀ i < S.nx, |x i| ≤ ε) → IneqHold X_N.A X_N.b x)
    (c : MPC) (hc : MPC.init S N Q R P D X_N = .ok c) :
    ∃ η > 0, ∃ δ > 0, ∀ L, LibSpec L → ∀ (x0 : Vec ℝ) (w : ℕ → ℕ → ℝ), x0.n = S.nx → (∀ i < S.nx, |x0.e i| ≤ η) → (∀ t, ∀ i < S.nx, |w t i| ≤ δ) →
      ∃ x u : ℕ → Vec ℝ, x 0 = x0 ∧ (∀ T, DisturbedLoop L c (problem S N Q R P D X_N) w x u T) ∧
        ∀ t, (problem S N Q R P D X_N).Stage (x t).e (u t).e := by
  obtain ⟨ε, hε, hb⟩ := hball
  obtain ⟨k, l, C, hr⟩ := rates h hQ hK hd ⟨fun _ => 0, hb _ fun i _ => by simpa using hε.le⟩
  set p := problem S N Q R P D X_N with hp
  have hsh : p.Shape := problem_shape h.toMpcSizes
  have hl := hr.l0
  have hk := hr.k0
  have hC : 0 < C := lt_of_lt_of_le hr.l0 hr.lC
  have habs : ∀ (x : ℕ → ℝ), 0 ≤ ∑ l ∈ range S.nx, |x l| := fun x => Finset.sum_nonneg fun _ _ => abs_nonneg _
  have hle : ∀ (x : ℕ → ℝ), ∀ i < S.nx, |x i| ≤ ∑ l ∈ range S.nx, |x l| := fun x i hi =>
    Finset.single_le_sum (f := fun l => |x l|) (fun _ _ => abs_nonneg _) (mem_range.2 hi)
  -- the next state is bounded by a multiple of the state
  set b := (∑ i ∈ range p.nx, ∑ j ∈ range p.nx, |p.A.e i j|) + (∑ i ∈ range p.nx, ∑ j ∈ range p.nu, |p.B.e i j|) * k + 1 with hbdef
  have hsA : 0 ≤ ∑ i ∈ range p.nx, ∑ j ∈ range p.nx, |p.A.e i j| := Finset.sum_nonneg fun i _ => Finset.sum_nonneg fun j _ => abs_nonneg _
  have hsB : 0 ≤ ∑ i ∈ range p.nx, ∑ j ∈ range p.nu, |p.B.e i j| := Finset.sum_nonneg fun i _ => Finset.sum_nonneg fun j _ => abs_nonneg _
  have hb0 : 0 < b := by positivity
  set a := min (l / 2 * (ε / (2 * b)) ^ 2) 1 with hadef
  have ha : 0 < a := lt_min (by positivity) one_pos
  obtain ⟨δ, hδ, hmain⟩ := level_loop h hK hd hc hr (a := a) (ε := ε / 2) ha (lt_of_le_of_lt (min_le_right _ _) (by norm_num)) (by positivity) (by
    intro x u hu hua y hy
    have h1 := (hr.low h x u).trans (hua.trans (min_le_left _ _))
    have h2 : ∑ i ∈ range S.nx, |x i| ≤ ε / (2 * b) := by
      refine abs_le_of_sq_le_sq' ?_ (by positivity) |>.2
      exact le_of_mul_le_mul_left h1 (by positivity)
    suffices hs : ∀ i < S.nx, |y i| ≤ ε by
      obtain ⟨v, hv, -⟩ := terminal_inputs N hK hd (hb y hs)
      exact ⟨v, hv⟩
    intro i hi
    have h3 := next_bound hsh (hle x) (hr.inp x u hu 0 h.N) i hi
    have e' : ∑ i ∈ range p.nx, |x i| = ∑ i ∈ range S.nx, |x i| := rfl
    rw [e'] at h3
    have h4 : |p.next x (u 0) i| ≤ ε / 2 := by
      have h5 : b * ∑ i ∈ range S.nx, |x i| ≤ ε / 2 := by
        have := mul_le_mul_of_nonneg_left h2 hb0.le
        have e : b * (ε / (2 * b)) = ε / 2 := by field_simp
        rwa [e] at this
      have h6 := habs x
      rw [hbdef] at h5
      nlinarith
    have h5 : |y i - p.next x (u 0) i| ≤ ε / 2 :=
      (Finset.single_le_sum (f := fun i => |y i - p.next x (u 0) i|) (fun _ _ => abs_nonneg _) (mem_range.2 hi)).trans hy
    have h6 : |y i| ≤ |y i - p.next x (u 0) i| + |p.next x (u 0) i| := by
      have := abs_add_le (y i - p.next x (u 0) i) (p.next x (u 0) i)
      rwa [sub_add_cancel] at this
    linarith)
  have hn1 : (0 : ℝ) < S.nx + 1 := by positivity
  have hsum : ∀ (z : ℕ → ℝ) (s : ℝ), 0 ≤ s → (∀ i < S.nx, |z i| ≤ s / (S.nx + 1)) → ∑ i ∈ range S.nx, |z i| ≤ s := by
    intro z s hs hz
    have h1 := Finset.sum_le_sum fun i hi => hz i (mem_range.1 hi)
    rw [Finset.sum_const, card_range, nsmul_eq_mul] at h1
    refine h1.trans ?_
    rw [mul_div_assoc', div_le_iff₀ hn1]
    nlinarith
  refine ⟨min ε (Real.sqrt (a / C) / (S.nx + 1)), lt_min hε (by positivity), δ / (S.nx + 1), by positivity, fun L hL x0 w hn hx0 hw => ?_⟩
  obtain ⟨v, hv, -⟩ := terminal_inputs N hK hd (hb x0.e fun i hi => (hx0 i hi).trans (min_le_left _ _))
  obtain ⟨u0, hu0⟩ := mpc_opt_exists h hv
  have hc0 : p.cost x0.e u0 ≤ a := by
    have h1 := hr.up _ _ hu0
    have h2 : ∑ i ∈ range p.nx, |x0.e i| ≤ Real.sqrt (a / C) := hsum x0.e _ (Real.sqrt_nonneg _) fun i hi => (hx0 i hi).trans (min_le_right _ _)
    have h3 := pow_le_pow_left₀ (habs x0.e) h2 2
    rw [Real.sq_sqrt (by positivity)] at h3
    have h4 := mul_le_mul_of_nonneg_left h3 hC.le
    rw [mul_div_cancel₀ _ hC.ne'] at h4
    exact h1.trans h4
  obtain ⟨x, u, e0, hloop⟩ := hmain L hL x0 u0 w hn hu0 hc0 fun t => hsum (w t) δ hδ.le (hw t)
  refine ⟨x, u, e0, fun T => (hloop T).1, fun t => ?_⟩
  obtain ⟨v, h1, h2, -⟩ := (hloop t).2
  have := h1.1.1 0 h.N
  rw [h2] at this
  exact this

/-- the terminal set of the integrator is around the origin -/
theorem integrator_ball : ∃ ε > 0, ∀ x : ℕ → ℝ, (∀ i < integrator.nx, |x i| ≤ ε) → IneqHold interval1.A interval1.b x := by
  refine ⟨1, one_pos, fun x hx i hi => ?_⟩
  have h0 := abs_le.1 (hx 0 (by norm_num [integrator]))
  have hi' : i < 2 := hi
  interval_cases i <;> simp [interval1, Poly.fresh, rowVal] <;> linarith

/-- C154 on the integrator: near the origin the loop with small disturbances runs forever, keeps the constraints, and its states are at most `M r^t |y| + G W`, with the same constants for all
initial states and disturbances -/
example : ∃ c, MPC.init integrator 3 half1 one1 one1 boxXU interval1 = .ok c ∧ ∃ M r G η δ : ℝ, 0 ≤ M ∧ 0 ≤ r ∧ r < 1 ∧ 0 ≤ G ∧ 0 < η ∧ 0 < δ ∧
    ∀ L, LibSpec L → ∀ (y W : ℝ) (d : ℕ → ℝ), |y| ≤ η → W ≤ δ → (∀ t, |d t| ≤ W) →
      ∃ x u : ℕ → Vec ℝ, x 0 = ⟨1, fun _ => y⟩ ∧ (∀ t, c.feedback L (x t) = .ok (some (u t)) ∧ (x (t + 1)).e 0 = (x t).e 0 + (u t).e 0 + d t) ∧
        ∀ t, |(x t).e 0| ≤ M * r ^ t * |y| + G * W := by
  have hargs := integrator_args 3 (by norm_num)
  obtain ⟨q, h1, -⟩ := init_run hargs.toMpcSizes
  have hQ : ∀ x : ℕ → ℝ, (∃ i < integrator.nx, x i ≠ 0) → 0 < quad half1 x := by
    rintro x ⟨i, hi, hx⟩
    have hi' : i < 1 := by simpa [integrator] using hi
    obtain rfl : i = 0 := by omega
    rw [half1_quad]
    positivity
  obtain ⟨M, r, G, hM, hr, hr1, hG, h2⟩ := C154 _ _ _ _ _ _ _ _ hargs hQ (integrator_invariant 3) (integrator_decrease 3) _ h1
  obtain ⟨η, hη, δ, hδ, h3⟩ := C154_forever _ _ _ _ _ _ _ _ hargs hQ (integrator_invariant 3) (integrator_decrease 3) integrator_ball _ h1
  refine ⟨_, h1, M, r, G, η, δ, hM, hr, hr1, hG, hη, hδ, fun L hL y W d hy hW hd => ?_⟩
  obtain ⟨x, u, e0, hcl, -⟩ := h3 L hL ⟨1, fun _ => y⟩ (fun t _ => d t) rfl (fun i _ => hy) fun t i _ => (hd t).trans hW
  refine ⟨x, u, e0, fun t => ⟨((hcl (t + 1)).2 t (by omega)).1, ?_⟩, fun t => ?_⟩
  · rw [((hcl (t + 1)).2 t (by omega)).2.2 0 (by show 0 < 1; omega)]
    simp [LinOcp.next, Spec.affine, problem, integrator, one1]
  · have := (h2 L hL _ x u (t + 1) W (hcl (t + 1)) (fun t _ => by simpa [integrator] using hd t) t (by omega)).1 0 (by norm_num [integrator])
    rw [e0] at this
    simpa [integrator] using this

end Verif.Props
