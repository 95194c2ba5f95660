import Mathlib.Algebra.Order.Chebyshev
import Verif.Props.MpcLipschitz
import Verif.Props.MpcStability

/- The closed loop of the linear controller of `/repo/pympc/control/controllers.py` is exponentially stable (C147). -/
namespace Verif.Props
open Finset Spec Dyn Control

/-- a quadratic form of bounded entries -/
theorem quad_upper {n : ℕ} {Q : Mat ℝ} (h1 : Q.nr = n) (h2 : Q.nc = n) {x : ℕ → ℝ} {s : ℝ} (h : ∀ i < n, |x i| ≤ s) :
    quad Q x ≤ (∑ i ∈ range n, ∑ j ∈ range n, |Q.e i j|) * s ^ 2 := by
  unfold quad
  rw [h1, h2, Finset.sum_mul]
  refine Finset.sum_le_sum fun i hi => ?_
  rw [Finset.sum_mul]
  refine Finset.sum_le_sum fun j hj => (le_abs_self _).trans ?_
  have hi' := h i (mem_range.1 hi)
  have hj' := h j (mem_range.1 hj)
  rw [abs_mul, abs_mul]
  have := mul_le_mul hi' hj' (abs_nonneg _) ((abs_nonneg _).trans hi')
  nlinarith [abs_nonneg (Q.e i j), mul_le_mul_of_nonneg_left this (abs_nonneg (Q.e i j))]

/-- the next state is bounded by multiples of the bounds of state and input -/
theorem next_bound {p : LinOcp} (hs : p.Shape) {x u : ℕ → ℝ} {a c : ℝ} (hx : ∀ i < p.nx, |x i| ≤ a) (hu : ∀ s < p.nu, |u s| ≤ c) :
    ∀ i < p.nx, |p.next x u i| ≤ (∑ i ∈ range p.nx, ∑ j ∈ range p.nx, |p.A.e i j|) * a + (∑ i ∈ range p.nx, ∑ j ∈ range p.nu, |p.B.e i j|) * c := by
  intro i hi
  have row : ∀ (n : ℕ) (M : Mat ℝ) (v : ℕ → ℝ) (r : ℝ), (∀ j < n, |v j| ≤ r) →
      |∑ j ∈ range n, M.e i j * v j| ≤ (∑ i ∈ range p.nx, ∑ j ∈ range n, |M.e i j|) * r := by
    intro n M v r hv
    have h1 : |∑ j ∈ range n, M.e i j * v j| ≤ (∑ j ∈ range n, |M.e i j|) * r := by
      refine (Finset.abs_sum_le_sum_abs _ _).trans ?_
      rw [Finset.sum_mul]
      refine Finset.sum_le_sum fun j hj => ?_
      rw [abs_mul]
      exact mul_le_mul_of_nonneg_left (hv j (mem_range.1 hj)) (abs_nonneg _)
    refine h1.trans ?_
    rcases Nat.eq_zero_or_pos n with rfl | hn
    · simp
    · have hr : 0 ≤ r := (abs_nonneg _).trans (hv 0 hn)
      refine mul_le_mul_of_nonneg_right ?_ hr
      exact Finset.single_le_sum (f := fun i => ∑ j ∈ range n, |M.e i j|) (fun i _ => Finset.sum_nonneg fun j _ => abs_nonneg _) (mem_range.2 hi)
  have e : p.next x u i = ∑ j ∈ range p.nx, p.A.e i j * x j + ∑ j ∈ range p.nu, p.B.e i j * u j := by
    simp only [LinOcp.next, Spec.affine, hs.A.2, hs.B.2, add_zero]
  rw [e]
  exact (abs_add_le _ _).trans (add_le_add (row _ _ _ _ hx) (row _ _ _ _ hu))

/-- the trajectories are bounded by a multiple of the bound of the initial state and the inputs -/
theorem traj_bound {p : LinOcp} (hs : p.Shape) (K : ℝ) (T : ℕ) : ∃ C, 0 ≤ C ∧ ∀ (x0 : ℕ → ℝ) (u : ℕ → ℕ → ℝ) (s : ℝ), 0 ≤ s → (∀ i < p.nx, |x0 i| ≤ s) →
    (∀ t < T, ∀ k < p.nu, |u t k| ≤ K * s) → ∀ t ≤ T, ∀ i < p.nx, |p.x x0 u t i| ≤ C * s := by
  induction T with
  | zero =>
    refine ⟨1, zero_le_one, fun x0 u s _ hx _ t ht i hi => ?_⟩
    obtain rfl : t = 0 := by omega
    rw [one_mul]
    exact hx i hi
  | succ T ih =>
    obtain ⟨C, hC, h⟩ := ih
    set C' := (∑ i ∈ range p.nx, ∑ j ∈ range p.nx, |p.A.e i j|) * C + (∑ i ∈ range p.nx, ∑ j ∈ range p.nu, |p.B.e i j|) * K with hC'
    refine ⟨max C C', le_max_of_le_left hC, fun x0 u s hs0 hx hu t ht i hi => ?_⟩
    have ih' := h x0 u s hs0 hx fun t ht => hu t (by omega)
    rcases Nat.lt_or_ge T t with h1 | h1
    · obtain rfl : t = T + 1 := by omega
      rw [LinOcp.x_succ]
      refine (next_bound hs (fun i hi => ih' T le_rfl i hi) (hu T (by omega)) i hi).trans ?_
      have := mul_le_mul_of_nonneg_right (le_max_right C C') hs0
      rw [hC'] at this
      linarith
    · exact (ih' t h1 i hi).trans (mul_le_mul_of_nonneg_right (le_max_left _ _) hs0)

/-- the cost is bounded by a multiple of the square of the bound of the initial state and the inputs -/
theorem cost_bound {p : LinOcp} (hs : p.Shape) {K : ℝ} (hK : 0 ≤ K) : ∃ C, 0 ≤ C ∧ ∀ (x0 : ℕ → ℝ) (u : ℕ → ℕ → ℝ) (s : ℝ), 0 ≤ s → (∀ i < p.nx, |x0 i| ≤ s) →
    (∀ t < p.N, ∀ k < p.nu, |u t k| ≤ K * s) → p.cost x0 u ≤ C * s ^ 2 := by
  obtain ⟨C, hC, h⟩ := traj_bound hs K p.N
  set q := ∑ i ∈ range p.nx, ∑ j ∈ range p.nx, |p.Q.e i j| with hq
  set r := ∑ i ∈ range p.nu, ∑ j ∈ range p.nu, |p.R.e i j| with hr
  set f := ∑ i ∈ range p.nx, ∑ j ∈ range p.nx, |p.P.e i j| with hf
  have pos : ∀ (n : ℕ) (M : Mat ℝ), 0 ≤ ∑ i ∈ range n, ∑ j ∈ range n, |M.e i j| := fun n M => Finset.sum_nonneg fun i _ => Finset.sum_nonneg fun j _ => abs_nonneg _
  refine ⟨p.N * (1 / 2 * (q * C ^ 2 + r * K ^ 2)) + 1 / 2 * (f * C ^ 2), ?_, fun x0 u s hs0 hx hu => ?_⟩
  · have h1 := pos p.nx p.Q
    have h2 := pos p.nu p.R
    have h3 := pos p.nx p.P
    positivity
  · rw [LinOcp.cost_eq]
    have st : ∀ t ∈ range p.N, p.stageCost (p.x x0 u t) (u t) ≤ 1 / 2 * (q * C ^ 2 + r * K ^ 2) * s ^ 2 := by
      intro t ht
      have h1 := quad_upper hs.Q.1 hs.Q.2 (h x0 u s hs0 hx hu t (mem_range.1 ht).le)
      have h2 := quad_upper hs.R.1 hs.R.2 (hu t (mem_range.1 ht))
      unfold LinOcp.stageCost
      rw [mul_pow] at h1 h2
      linarith
    have h3 := quad_upper hs.P.1 hs.P.2 (h x0 u s hs0 hx hu p.N le_rfl)
    have h4 := Finset.sum_le_sum st
    rw [Finset.sum_const, card_range, nsmul_eq_mul] at h4
    rw [mul_pow] at h3
    linarith

/-- a positive definite form is at least a multiple of the square of the sum of the entries -/
theorem quad_lower_sum {n : ℕ} {Q : Mat ℝ} (h1 : Q.nr = n) (h2 : Q.nc = n) (hQ0 : ∀ x, 0 ≤ quad Q x) (hpos : ∀ x, (∃ s < n, x s ≠ 0) → 0 < quad Q x) :
    ∃ l > 0, ∀ x : ℕ → ℝ, l * (∑ i ∈ range n, |x i|) ^ 2 ≤ quad Q x := by
  obtain ⟨c, hc, h⟩ := Math.quad_lower h1 h2 hpos
  refine ⟨c / ((n : ℝ) ^ 2 + 1), by positivity, fun x => ?_⟩
  have e1 : (∑ i ∈ range n, |x i|) ^ 2 ≤ n * ∑ i ∈ range n, |x i| ^ 2 := by
    have := sq_sum_le_card_mul_sum_sq (s := range n) (f := fun i => |x i|)
    rwa [card_range] at this
  have e2 : c * ∑ i ∈ range n, |x i| ^ 2 ≤ n * quad Q x := by
    rw [Finset.mul_sum]
    refine (Finset.sum_le_sum fun i hi => ?_).trans_eq (b := ∑ _i ∈ range n, quad Q x) (by rw [Finset.sum_const, card_range, nsmul_eq_mul])
    rw [sq_abs]
    exact h x i (mem_range.1 hi)
  have hn : (0 : ℝ) ≤ n := Nat.cast_nonneg n
  rw [div_mul_eq_mul_div, div_le_iff₀ (by positivity)]
  have e3 := mul_le_mul_of_nonneg_left e1 hc.le
  have e4 := mul_le_mul_of_nonneg_left e2 hn
  nlinarith [hQ0 x]

/-- the origin is in a terminal set that is not empty: the states of the loop with `u = K x` stay in the terminal set, and the sum of their stage costs is bounded by the terminal cost, so that they
come close to the origin -/
theorem origin_terminal {p : LinOcp} (hs : p.Shape) (hw : Weights p.nx p.nu p.Q p.R p.P) (hQ : ∀ x, (∃ i < p.nx, x i ≠ 0) → 0 < quad p.Q x) {K : Mat ℝ}
    (hK : p.TerminalInvariant K) (hd : p.TerminalDecrease K) {x0 : ℕ → ℝ} (hx0 : IneqHold p.XA p.Xb x0) : IneqHold p.XA p.Xb fun _ => 0 := by
  obtain ⟨l, hl, hlow⟩ := quad_lower_sum hs.Q.1 hs.Q.2 hw.Q0 hQ
  intro i hi
  by_contra hneg
  have hz : rowVal p.XA i (fun _ => 0) = 0 := by simp [rowVal]
  rw [hz, not_le] at hneg
  set a := ∑ j ∈ range p.nx, |p.XA.e i j| with ha
  have ha0 : 0 ≤ a := Finset.sum_nonneg fun _ _ => abs_nonneg _
  -- the states in the set are away from the origin
  have far : ∀ x, IneqHold p.XA p.Xb x → -p.Xb.e i ≤ a * ∑ j ∈ range p.nx, |x j| := by
    intro x hx
    have h1 := hx i hi
    have h2 : |rowVal p.XA i x| ≤ a * ∑ j ∈ range p.nx, |x j| := by
      unfold rowVal
      rw [hs.XN]
      refine (Finset.abs_sum_le_sum_abs _ _).trans ?_
      rw [ha, Finset.sum_mul]
      refine Finset.sum_le_sum fun j hj => ?_
      rw [abs_mul]
      exact mul_le_mul_of_nonneg_left (Finset.single_le_sum (f := fun j => |x j|) (fun _ _ => abs_nonneg _) hj) (abs_nonneg _)
    have := neg_abs_le (rowVal p.XA i x)
    linarith
  have ha1 : 0 < a := by
    rcases ha0.lt_or_eq with h | h
    · exact h
    · have := far x0 hx0
      rw [← h] at this
      linarith
  set d := l / 2 * (-p.Xb.e i / a) ^ 2 with hdd
  have hd0 : 0 < d := by
    have : 0 < -p.Xb.e i / a := div_pos (by linarith) ha1
    positivity
  have hst : ∀ x, IneqHold p.XA p.Xb x → d ≤ p.stageCost x (LinOcp.gain K x) := by
    intro x hx
    have h1 := far x hx
    have h2 := hlow x
    have h3 : 0 ≤ quad p.R (LinOcp.gain K x) := by
      have := LinOcp.stageCost_nonneg hw (fun _ => 0) (LinOcp.gain K x)
      have e : quad p.Q (fun _ => 0) = 0 := by simp [quad]
      unfold LinOcp.stageCost at this
      rw [e] at this
      linarith
    have h4 : -p.Xb.e i / a ≤ ∑ j ∈ range p.nx, |x j| := by
      rw [div_le_iff₀ ha1]
      linarith
    have h5 : (-p.Xb.e i / a) ^ 2 ≤ (∑ j ∈ range p.nx, |x j|) ^ 2 := pow_le_pow_left₀ (div_pos (by linarith) ha1).le h4 2
    unfold LinOcp.stageCost
    rw [hdd]
    nlinarith
  have run : ∀ n : ℕ, ∃ x, IneqHold p.XA p.Xb x ∧ 1 / 2 * quad p.P x + n * d ≤ 1 / 2 * quad p.P x0 := by
    intro n
    induction n with
    | zero => exact ⟨x0, hx0, by simp⟩
    | succ n ih =>
      obtain ⟨x, h1, h2⟩ := ih
      refine ⟨_, (hK x h1).2, ?_⟩
      have h3 := hd x h1
      have h4 := hst x h1
      push_cast
      linarith
  obtain ⟨n, hn⟩ := exists_nat_gt (1 / 2 * quad p.P x0 / d)
  rw [div_lt_iff₀ hd0] at hn
  obtain ⟨x, -, h2⟩ := run n
  have := hw.P0 x
  linarith

/-- C147: let `Q` be positive definite, the terminal set invariant and admissible for some gain `K`, and let the terminal cost decrease by the stage cost there.  Then there
are `M` and `r < 1`, which depend on the controller only, such that the states and inputs of each closed loop, as long as it runs, are at most `M r^t` times the size of the initial state. -/
theorem C147 (S : LinearSystem) (N : ℕ) (Q R P K : Mat ℝ) (D X_N : Poly) (h : MpcArgs S N Q R P D X_N)
    (hQ : ∀ x, (∃ i < S.nx, x i ≠ 0) → 0 < quad Q x)
    (hK : (problem S N Q R P D X_N).TerminalInvariant K) (hd : (problem S N Q R P D X_N).TerminalDecrease K)
    (c : MPC) (hc : MPC.init S N Q R P D X_N = .ok c) :
    ∃ M r : ℝ, 0 ≤ M ∧ 0 ≤ r ∧ r < 1 ∧ ∀ L, LibSpec L → ∀ (x u : ℕ → Vec ℝ) (T : ℕ), ClosedLoop L c (problem S N Q R P D X_N) x u T →
      ∀ t < T, (∀ i < S.nx, |(x t).e i| ≤ M * r ^ t * ∑ l ∈ range S.nx, |(x 0).e l|) ∧
        ∀ s < S.nu, |(u t).e s| ≤ M * r ^ t * ∑ l ∈ range S.nx, |(x 0).e l| := by
  obtain ⟨q, h1, -, hq, hF, hC, -⟩ := init_run h.toMpcSizes
  rw [h1] at hc
  cases hc
  set c : MPC := ⟨S, N, Q, R, P, D, X_N, none, q⟩ with hcdef
  set p := problem S N Q R P D X_N with hp
  have hsh : p.Shape := problem_shape h.toMpcSizes
  have hw : Weights p.nx p.nu p.Q p.R p.P := h.w
  obtain ⟨k, hk, hlip⟩ := optimizer_lipschitz hq
  have opt : ∀ (x : ℕ → ℝ) u, p.Opt x u → q.data.Opt (S.nu * N) S.nx (flat S.nu u) x := by
    intro x u hu
    have e1 : ∀ t < N, ∀ s < S.nu, unflat S.nu (flat S.nu u) t s = u t s := fun t _ s hs => unflat_flat u t hs
    refine ⟨(hF _ _).2 ((LinOcp.feas_congr hsh (fun _ _ => rfl) e1).2 hu.1), fun v hv => ?_⟩
    rw [hC, hC, LinOcp.cost_congr hsh (fun _ _ => rfl) e1]
    exact hu.2 _ ((hF _ _).1 hv)
  -- without terminal states there are no closed loops
  by_cases hne : ∃ x, IneqHold X_N.A X_N.b x
  swap
  · refine ⟨0, 0, le_rfl, le_rfl, one_pos, fun L hL x u T hcl t ht => ?_⟩
    obtain ⟨us, V, -, -, -, k2, -⟩ := closed_step hL h h1 (hcl.size t ht.le) (hcl.2 t ht).1
    exact (hne ⟨_, k2.1.2⟩).elim
  have h0 : IneqHold X_N.A X_N.b fun _ => 0 := by
    obtain ⟨x0, hx0⟩ := hne
    exact origin_terminal hsh hw hQ hK hd hx0
  -- the optimal inputs at the origin are zero
  have hgain : LinOcp.gain K (fun _ => 0) = fun _ => 0 := by
    funext s
    simp [LinOcp.gain, rowVal]
  have hx0 : ∀ t, p.x (fun _ => 0) (fun _ _ => 0) t = fun _ => 0 := by
    intro t
    induction t with
    | zero => rfl
    | succ t ih =>
      rw [LinOcp.x_succ, ih]
      funext i
      simp [LinOcp.next, Spec.affine]
  have hst : p.Stage (fun _ => 0) fun _ => 0 := by
    have := (hK _ h0).1
    rwa [hgain] at this
  have hq0 : ∀ M : Mat ℝ, quad M (fun _ => 0) = 0 := fun M => by simp [quad]
  have hopt0 : p.Opt (fun _ => 0) fun _ _ => 0 := by
    refine ⟨⟨fun t _ => ?_, ?_⟩, fun v _ => ?_⟩
    · rw [hx0]; exact hst
    · rw [hx0]; exact h0
    · have : p.cost (fun _ => 0) (fun _ _ => 0) = 0 := by
        rw [LinOcp.cost_eq]
        simp only [hx0, LinOcp.stageCost, hq0]
        simp
      rw [this]
      exact LinOcp.cost_nonneg hw _ _
  -- the inputs and the value are bounded by the state
  have hu : ∀ (x : ℕ → ℝ) u, p.Opt x u → ∀ t < N, ∀ s < S.nu, |u t s| ≤ k * ∑ l ∈ range S.nx, |x l| := by
    intro x u hxu t ht s hs
    have := hlip x (fun _ => 0) _ _ (opt _ _ hxu) (opt _ _ hopt0) (S.nu * t + s) (by nlinarith)
    have e : ∀ u : ℕ → ℕ → ℝ, flat S.nu u (S.nu * t + s) = u t s := fun u => unflat_flat u t hs
    rw [e, e] at this
    simpa using this
  obtain ⟨C0, hC0, hcost⟩ := cost_bound hsh hk
  obtain ⟨l, hl, hlow⟩ := quad_lower_sum hsh.Q.1 hsh.Q.2 h.w.Q0 hQ
  have habs : ∀ (x : ℕ → ℝ), 0 ≤ ∑ l ∈ range S.nx, |x l| := fun x => Finset.sum_nonneg fun _ _ => abs_nonneg _
  have hle : ∀ (x : ℕ → ℝ), ∀ i < S.nx, |x i| ≤ ∑ l ∈ range S.nx, |x l| := fun x i hi =>
    Finset.single_le_sum (f := fun l => |x l|) (fun _ _ => abs_nonneg _) (mem_range.2 hi)
  set C := C0 + l with hCdef
  have hCpos : 0 < C := by linarith
  set ρ := 1 - l / (2 * C) with hρ
  have hρ1 : ρ < 1 := by
    have : 0 < l / (2 * C) := by positivity
    linarith
  have hρ0 : 0 ≤ ρ := by
    have : l / (2 * C) ≤ 1 := by
      rw [div_le_one (by positivity)]
      linarith
    linarith
  set M := Real.sqrt (2 * C / l) with hM
  refine ⟨M * (1 + k), Real.sqrt ρ, by positivity, Real.sqrt_nonneg _, by rw [Real.sqrt_lt' one_pos]; simpa using hρ1, fun L hL x u T hcl => ?_⟩
  -- the values along the closed loop
  have step : ∀ t < T, ∃ us V, c.feedforward L (x t) = .ok (some us, some V) ∧ inputsOf us 0 = (u t).e ∧ p.Opt (x t).e (inputsOf us) ∧
      V = p.cost (x t).e (inputsOf us) := fun t ht => by
    obtain ⟨us, V, k1, -, k2, k3, k4⟩ := closed_step hL h h1 (hcl.size t ht.le) (hcl.2 t ht).1
    exact ⟨us, V, k1, k2, k3, k4⟩
  have dec : ∀ t < T, ∃ us V, c.feedforward L (x t) = .ok (some us, some V) ∧ V ≤ ρ ^ t * (C * (∑ l ∈ range S.nx, |(x 0).e l|) ^ 2) := by
    intro t
    induction t with
    | zero =>
      intro ht
      obtain ⟨us, V, k1, -, k2, k3⟩ := step 0 ht
      refine ⟨us, V, k1, ?_⟩
      rw [pow_zero, one_mul, k3]
      refine (hcost _ _ _ (habs _) (hle _) (hu _ _ k2)).trans ?_
      exact mul_le_mul_of_nonneg_right (by linarith) (sq_nonneg _)
    | succ t ih =>
      intro ht
      obtain ⟨us, V, k1, k2⟩ := ih (by omega)
      obtain ⟨us', V', k1', -⟩ := step (t + 1) ht
      refine ⟨us', V', k1', ?_⟩
      have hdec := (C69 L hL S N Q R P K D X_N h hK hd c h1 x u T hcl).1 t (by omega) us V us' V' k1 k1'
      obtain ⟨us2, V2, j1, j2, j3, j4⟩ := step t (by omega)
      rw [k1] at j1
      cases j1
      have b1 := hcost _ _ _ (habs _) (hle _) (hu _ _ j3)
      rw [← j4] at b1
      have b2 := hlow (x t).e
      have b3 : 0 ≤ quad R (u t).e := by
        have := LinOcp.stageCost_nonneg hw (fun _ => 0) (u t).e
        unfold LinOcp.stageCost at this
        rw [hq0] at this
        have e : p.R = R := rfl
        rw [e] at this
        linarith
      have b4 : l / 2 * (∑ i ∈ range S.nx, |(x t).e i|) ^ 2 ≤ p.stageCost (x t).e (u t).e := by
        show _ ≤ 1 / 2 * (quad Q _ + quad R _)
        have e : quad p.Q (x t).e = quad Q (x t).e := rfl
        rw [e] at b2
        have e' : ∑ i ∈ range p.nx, |(x t).e i| = ∑ i ∈ range S.nx, |(x t).e i| := rfl
        rw [e'] at b2
        linarith
      have b5 : l / (2 * C) * V ≤ l / 2 * (∑ i ∈ range S.nx, |(x t).e i|) ^ 2 := by
        have : V ≤ C * (∑ i ∈ range S.nx, |(x t).e i|) ^ 2 := b1.trans (mul_le_mul_of_nonneg_right (by linarith) (sq_nonneg _))
        calc l / (2 * C) * V ≤ l / (2 * C) * (C * (∑ i ∈ range S.nx, |(x t).e i|) ^ 2) := mul_le_mul_of_nonneg_left this (by positivity)
          _ = l / 2 * (∑ i ∈ range S.nx, |(x t).e i|) ^ 2 := by field_simp
      have b6 : V' ≤ ρ * V := by
        rw [hρ]
        linarith
      calc V' ≤ ρ * V := b6
        _ ≤ ρ * (ρ ^ t * (C * (∑ l ∈ range S.nx, |(x 0).e l|) ^ 2)) := mul_le_mul_of_nonneg_left k2 hρ0
        _ = _ := by rw [pow_succ]; ring
  intro t ht
  obtain ⟨us, V, k1, k2⟩ := dec t ht
  obtain ⟨us2, V2, j1, j2, j3, j4⟩ := step t ht
  rw [k1] at j1
  cases j1
  have hs : ∑ i ∈ range S.nx, |(x t).e i| ≤ M * Real.sqrt ρ ^ t * ∑ l ∈ range S.nx, |(x 0).e l| := by
    refine abs_le_of_sq_le_sq' ?_ (by have := habs (x 0).e; positivity) |>.2
    have e : (M * Real.sqrt ρ ^ t * ∑ l ∈ range S.nx, |(x 0).e l|) ^ 2 = 2 * C / l * ρ ^ t * (∑ l ∈ range S.nx, |(x 0).e l|) ^ 2 := by
      rw [mul_pow, mul_pow, hM, Real.sq_sqrt (by positivity), ← pow_mul, mul_comm t 2, pow_mul, Real.sq_sqrt hρ0]
    rw [e]
    have b1 : l / 2 * (∑ i ∈ range S.nx, |(x t).e i|) ^ 2 ≤ V := by
      have a1 := hlow (x t).e
      have a2 : p.stageCost (x t).e (inputsOf us 0) ≤ p.cost (x t).e (inputsOf us) := by
        rw [LinOcp.cost_eq]
        have a3 := hw.P0 (p.x (x t).e (inputsOf us) p.N)
        have a4 := Finset.single_le_sum (f := fun τ => p.stageCost (p.x (x t).e (inputsOf us) τ) (inputsOf us τ)) (fun τ _ => LinOcp.stageCost_nonneg hw _ _)
          (mem_range.2 (show 0 < p.N from h.N))
        simp only [LinOcp.x_zero] at a4
        linarith
      have b3 : 0 ≤ quad p.R (inputsOf us 0) := by
        have := LinOcp.stageCost_nonneg hw (fun _ => 0) (inputsOf us 0)
        unfold LinOcp.stageCost at this
        rw [hq0] at this
        linarith
      rw [j4]
      refine le_trans ?_ a2
      show _ ≤ 1 / 2 * (quad p.Q _ + quad p.R _)
      have e' : ∑ i ∈ range p.nx, |(x t).e i| = ∑ i ∈ range S.nx, |(x t).e i| := rfl
      rw [e'] at a1
      linarith
    have b2 := b1.trans k2
    rw [div_mul_eq_mul_div, div_mul_eq_mul_div, le_div_iff₀ hl]
    linarith
  have hs0 := habs (x t).e
  refine ⟨fun i hi => ?_, fun s hs' => ?_⟩
  · have := hle (x t).e i hi
    nlinarith
  · have := hu _ _ j3 0 h.N s hs'
    rw [j2] at this
    nlinarith

/-- C147 on the integrator: from all states between `-3` and `3` whose answer has value less than about `5e13` the closed loop runs forever and goes to the origin at a rate that is the same for all of them -/
example : ∃ c, MPC.init integrator 3 half1 one1 one1 boxXU interval1 = .ok c ∧ ∃ M r : ℝ, 0 ≤ M ∧ 0 ≤ r ∧ r < 1 ∧ ∀ L, LibSpec L → ∀ y : ℝ, |y| ≤ 3 →
    ∃ us V, c.feedforward L ⟨1, fun _ => y⟩ = .ok (some us, some V) ∧ (V < (1 / (1e-7 : ℝ) ^ 2 - 1) / 2 →
      ∃ x u : ℕ → Vec ℝ, x 0 = ⟨1, fun _ => y⟩ ∧ (∀ t, c.feedback L (x t) = .ok (some (u t)) ∧ (x (t + 1)).e 0 = (x t).e 0 + (u t).e 0) ∧
        ∀ t, |(x t).e 0| ≤ M * r ^ t * |y|) := by
  have hargs := integrator_args 3 (by norm_num)
  obtain ⟨q, h1, -⟩ := init_run hargs.toMpcSizes
  have hQ : ∀ x : ℕ → ℝ, (∃ i < integrator.nx, x i ≠ 0) → 0 < quad half1 x := by
    rintro x ⟨i, hi, hx⟩
    have hi' : i < 1 := by simpa [integrator] using hi
    obtain rfl : i = 0 := by omega
    rw [half1_quad]
    positivity
  obtain ⟨M, r, hM, hr, hr1, h2⟩ := C147 _ _ _ _ _ _ _ _ hargs hQ (integrator_invariant 3) (integrator_decrease 3) _ h1
  refine ⟨_, h1, M, r, hM, hr, hr1, fun L hL y hy => ?_⟩
  obtain ⟨c', us, vs, V, W, k1, -, -, k2⟩ := integrator_answers L hL
  rw [h1] at k1
  cases k1
  obtain ⟨ws, T, k3, -⟩ := k2 y hy
  refine ⟨ws, T, k3, fun hT => ?_⟩
  obtain ⟨x, u, e0, hcl, hn⟩ := (C97 L hL _ _ _ _ _ _ _ _ hargs hQ (integrator_invariant 3) (integrator_decrease 3) _ h1).2 ⟨1, fun _ => y⟩ ws T rfl k3 hT
  refine ⟨x, u, e0, fun t => ⟨((hcl (t + 1)).2 t (by omega)).1, ?_⟩, fun t => ?_⟩
  · rw [hn t]
    simp [Spec.affine, integrator, one1, Vec.zeros]
  · have := (h2 L hL x u (t + 1) (hcl (t + 1)) t (by omega)).1 0 (by norm_num [integrator])
    rw [e0] at this
    simpa [integrator] using this

end Verif.Props
