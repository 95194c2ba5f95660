import Verif.Props.MpQPInexact
import Verif.Props.MpcExplicitLoop
import Verif.Props.InexactExamples

/- The closed loop of the controller of `/repo/pympc/control/controllers.py` when `scipy.optimize.nnls` stops before the minimum (C174, C175). -/
namespace Verif.Props
open Finset Spec Dyn Control MpQP

/-- the cost of the controller has no linear term -/
theorem mpc_fu {S : LinearSystem} {N : ℕ} {Q R P : Mat ℝ} {D X_N : Poly} {q : MpQP}
    (hC : ∀ x v : ℕ → ℝ, q.data.cost (S.nu * N) S.nx v x = (problem S N Q R P D X_N).cost x (unflat S.nu v)) {j : ℕ} (hj : j < S.nu * N) : q.data.fu.e j = 0 := by
  set v : ℕ → ℝ := fun k => if k = j then 1 else 0 with hv
  have h1 := hC (fun _ => 0) v
  have h2 := hC (fun _ => 0) fun k => - v k
  have h3 : (problem S N Q R P D X_N).cost (fun _ => 0) (unflat S.nu fun k => - v k) = (problem S N Q R P D X_N).cost (fun _ => 0) (unflat S.nu v) := by
    have := cost_comb (problem S N Q R P D X_N) (-1) 0 (fun _ => 0) (fun _ => 0) (unflat S.nu v) (unflat S.nu v)
    have e : (fun t s => -1 * unflat S.nu v t s + 0 * unflat S.nu v t s) = unflat S.nu fun k => - v k := by
      funext t s
      simp [unflat]
    rw [e] at this
    simpa using this
  rw [← h1, ← h2] at h3
  unfold Spec.ParamQP.cost at h3
  have e1 : ∑ k ∈ range (S.nu * N), q.data.fu.e k * v k = q.data.fu.e j := by
    simp [hv, hj]
  have e2 : ∑ k ∈ range (S.nu * N), q.data.fu.e k * - v k = - q.data.fu.e j := by
    simp only [mul_neg, Finset.sum_neg_distrib, e1]
  rw [e1, e2] at h3
  simp only [mul_zero, zero_mul, Finset.sum_const_zero, neg_mul, mul_neg, neg_neg, neg_zero, add_zero] at h3
  linarith

/-- the gradient at the optimizer is bounded by a multiple of the state -/
theorem mpc_grad {S : LinearSystem} {N : ℕ} {Q R P : Mat ℝ} {D X_N : Poly} {q : MpQP}
    (hC : ∀ x v : ℕ → ℝ, q.data.cost (S.nu * N) S.nx v x = (problem S N Q R P D X_N).cost x (unflat S.nu v)) (k : ℝ) (hk : 0 ≤ k) :
    ∃ γ, 0 ≤ γ ∧ ∀ x v : ℕ → ℝ, (∀ j < S.nu * N, |v j| ≤ k * ∑ i ∈ range S.nx, |x i|) →
      ∑ j ∈ range (S.nu * N), |q.data.grad (S.nu * N) S.nx v x j| ≤ γ * ∑ i ∈ range S.nx, |x i| := by
  refine ⟨∑ j ∈ range (S.nu * N), (∑ i ∈ range (S.nu * N), |q.data.Huu.e j i| * k + ∑ i ∈ range S.nx, |q.data.Hux.e j i|), by positivity, fun x v hv => ?_⟩
  rw [Finset.sum_mul]
  refine Finset.sum_le_sum fun j hj => ?_
  unfold Spec.ParamQP.grad
  rw [mpc_fu hC (mem_range.1 hj), add_zero, add_mul]
  refine (abs_add_le _ _).trans (add_le_add ?_ ?_)
  · refine (Finset.abs_sum_le_sum_abs _ _).trans ?_
    rw [Finset.sum_mul]
    refine Finset.sum_le_sum fun i hi => ?_
    rw [abs_mul, mul_assoc]
    exact mul_le_mul_of_nonneg_left (hv i (mem_range.1 hi)) (abs_nonneg _)
  · refine (Finset.abs_sum_le_sum_abs _ _).trans ?_
    rw [Finset.sum_mul]
    refine Finset.sum_le_sum fun i hi => ?_
    rw [abs_mul]
    exact mul_le_mul_of_nonneg_left (Finset.single_le_sum (f := fun i => |x i|) (fun _ _ => abs_nonneg _) hi) (abs_nonneg _)

/-- how far the answers of the quadratic programs can be from the optimal ones, if `nnls` stops with the tolerances `δ` and `ε` -/
noncomputable def stopError (δ ε : ℝ) : ℝ := (δ + Real.sqrt ε) / ((1e-7 : ℝ) ^ 2 - ε)

theorem stopError_nonneg {δ ε : ℝ} (hδ : 0 ≤ δ) (hε : ε < (1e-7 : ℝ) ^ 2) : 0 ≤ stopError δ ε :=
  div_nonneg (add_nonneg hδ (Real.sqrt_nonneg _)) (by linarith)

/-- one answer of the controller -/
theorem inexact_step {S : LinearSystem} {N : ℕ} {Q R P : Mat ℝ} {D X_N : Poly} (h : MpcArgs S N Q R P D X_N) {c : MPC} (hc : MPC.init S N Q R P D X_N = .ok c) {k l C : ℝ}
    (hr : Rates (problem S N Q R P D X_N) k l C) : ∃ κ, 0 ≤ κ ∧ ∀ (L : Lib) (δ ε : ℝ), LibSound L → NnlsStops L δ ε → 0 ≤ δ → ε < (1e-7 : ℝ) ^ 2 →
      ∀ (x u : Vec ℝ) (v : ℕ → ℕ → ℝ), x.n = S.nx → c.feedback L x = .ok (some u) → (problem S N Q R P D X_N).Opt x.e v →
        (∑ s ∈ range S.nu, |u.e s - v 0 s|) ^ 2 ≤ κ * (stopError δ ε ^ 2 + stopError δ ε * ∑ i ∈ range S.nx, |x.e i|) := by
  obtain ⟨q, h1, hm, hs, hF, hC, hnr⟩ := init_run h.toMpcSizes
  rw [h1] at hc
  cases hc
  have hsh : (problem S N Q R P D X_N).Shape := problem_shape h.toMpcSizes
  obtain ⟨κ, hκ0, hκ⟩ := C173 _ _ q hs
  obtain ⟨γ, hγ0, hγ⟩ := mpc_grad (q := q) hC k hr.k0
  refine ⟨κ * (1 + γ), by positivity, fun L δ ε hL hN hδ hε x u v hx hu hv => ?_⟩
  have hη := stopError_nonneg hδ hε
  set η := stopError δ ε with hηd
  have hτ : 0 < (1e-7 : ℝ) ^ 2 - ε := by linarith
  have hε0 : 0 ≤ ε := (abs_nonneg _).trans (hN ⟨0, 0, fun _ _ => 0⟩ ⟨0, fun _ => 0⟩ rfl).2
  -- the answer of the program
  obtain ⟨U, hU, hU0⟩ : ∃ U : Vec ℝ, (∃ s m, q.solve L x = .ok s ∧ s.min = some m ∧ s.argmin = some U) ∧ (MPC.slices U S.nu N)[0]? = some u := by
    unfold MPC.feedback MPC.feedforward at hu
    obtain ⟨⟨us, V⟩, hf, hfi⟩ := Py.bind_eq_ok hu
    obtain ⟨s, k1, k2⟩ := Py.bind_eq_ok hf
    cases hmin : s.min with
    | none =>
      simp only [hmin] at k2
      cases k2
      simp [MPC.firstInput] at hfi
    | some m =>
      cases harg : s.argmin with
      | none =>
        simp only [hmin, harg] at k2
        cases k2
      | some U =>
        simp only [hmin, harg] at k2
        cases k2
        refine ⟨U, ⟨s, m, k1, hmin, harg⟩, ?_⟩
        unfold MPC.firstInput at hfi
        simp only at hfi
        obtain ⟨u0, g1, g2⟩ := Py.bind_eq_ok hfi
        cases g2
        unfold np.listGet at g1
        cases hget : (MPC.slices U S.nu N)[0]? with
        | none => simp [hget] at g1
        | some w =>
          simp [hget] at g1
          rw [g1]
  obtain ⟨s, m, k1, k2, k3⟩ := hU
  obtain ⟨U', t, ht, ht0, a1, a2, -, -, -, a5⟩ := hκ L δ ε hL hN hδ hε.le x s m hx k1 k2
  rw [k3] at a1
  cases a1
  have e1 : ∀ t < N, ∀ s < S.nu, unflat S.nu (flat S.nu v) t s = v t s := fun t _ s hs => unflat_flat v t hs
  have hopt : q.data.Opt (S.nu * N) S.nx (flat S.nu v) x.e := by
    refine ⟨(hF _ _).2 ((LinOcp.feas_congr hsh (fun _ _ => rfl) e1).2 hv.1), fun w hw => ?_⟩
    rw [hC, hC, LinOcp.cost_congr hsh (fun _ _ => rfl) e1]
    exact hv.2 _ ((hF _ _).1 hw)
  have b1 := a5 _ hopt
  have b2 := hγ x.e (flat S.nu v) fun j hj => by
    have hnu : 0 < S.nu := Nat.pos_of_ne_zero fun h0 => by rw [h0] at hj; simp at hj
    exact hr.inp _ _ hv (j / S.nu) (Nat.div_lt_of_lt_mul hj) (j % S.nu) (Nat.mod_lt _ hnu)
  have hN0 := h.N
  have hfirst : ∑ s ∈ range S.nu, |u.e s - v 0 s| ≤ ∑ j ∈ range (S.nu * N), |U.e j - flat S.nu v j| := by
    refine le_trans (le_of_eq (Finset.sum_congr rfl fun s hs => ?_))
      (Finset.sum_le_sum_of_subset_of_nonneg (Finset.range_mono (by nlinarith)) fun _ _ _ => abs_nonneg _)
    obtain ⟨-, -, m3⟩ := slices_spec (nu := S.nu) (N := N) a2
    have g := congrFun (m3 0 hN0) s
    unfold inputsOf at g
    rw [List.getD_eq_getElem?_getD, hU0] at g
    have e : flat S.nu v s = v 0 s := by
      have hs := mem_range.1 hs
      unfold flat
      rw [Nat.div_eq_of_lt hs, Nat.mod_eq_of_lt hs]
    rw [e]
    congr 2
    simpa [unflat] using g
  have c1 : δ / t ≤ η := by
    rw [hηd, stopError]
    exact div_le_div₀ (by positivity) (by linarith [Real.sqrt_nonneg ε]) hτ ht.le
  have c2 : ε / t ^ 2 ≤ η ^ 2 := by
    rw [hηd, stopError, div_pow]
    refine div_le_div₀ (by positivity) ?_ (by positivity) (pow_le_pow_left₀ hτ.le ht.le 2)
    have := Real.sq_sqrt hε0
    nlinarith [Real.sqrt_nonneg ε, mul_nonneg hδ (Real.sqrt_nonneg ε)]
  have hx0 : 0 ≤ ∑ i ∈ range S.nx, |x.e i| := Finset.sum_nonneg fun _ _ => abs_nonneg _
  have hdt : 0 ≤ δ / t := by positivity
  calc (∑ s ∈ range S.nu, |u.e s - v 0 s|) ^ 2 ≤ (∑ j ∈ range (S.nu * N), |U.e j - flat S.nu v j|) ^ 2 :=
        pow_le_pow_left₀ (Finset.sum_nonneg fun _ _ => abs_nonneg _) hfirst 2
    _ ≤ κ * (ε / t ^ 2 + δ / t * ∑ j ∈ range (S.nu * N), |q.data.grad (S.nu * N) S.nx (flat S.nu v) x.e j|) := b1
    _ ≤ κ * (η ^ 2 + η * (γ * ∑ i ∈ range S.nx, |x.e i|)) := by
        refine mul_le_mul_of_nonneg_left (add_le_add c2 (mul_le_mul c1 b2 (Finset.sum_nonneg fun _ _ => abs_nonneg _) hη)) hκ0
    _ ≤ κ * (1 + γ) * (η ^ 2 + η * ∑ i ∈ range S.nx, |x.e i|) := by
        rw [mul_assoc]
        refine mul_le_mul_of_nonneg_left ?_ hκ0
        have d1 : 0 ≤ γ * η ^ 2 := by positivity
        have d2 : 0 ≤ η * ∑ i ∈ range S.nx, |x.e i| := by positivity
        nlinarith

/-- one step of the loop: the value at the next state -/
theorem inexact_value {S : LinearSystem} {N : ℕ} {Q R P K : Mat ℝ} {D X_N : Poly} (h : MpcArgs S N Q R P D X_N)
    (hK : (problem S N Q R P D X_N).TerminalInvariant K) (hd : (problem S N Q R P D X_N).TerminalDecrease K) {k l C κ : ℝ}
    (hr : Rates (problem S N Q R P D X_N) k l C) (hκ : 0 ≤ κ) : ∃ g, 0 ≤ g ∧ ∀ (η : ℝ) (x y u : ℕ → ℝ) (v v' : ℕ → ℕ → ℝ), 0 ≤ η →
      (problem S N Q R P D X_N).Opt x v → (∑ s ∈ range S.nu, |u s - v 0 s|) ^ 2 ≤ κ * (η ^ 2 + η * ∑ i ∈ range S.nx, |x i|) →
      (∀ i < S.nx, y i = (problem S N Q R P D X_N).next x u i) →
      (∑ i ∈ range S.nx, |y i - (problem S N Q R P D X_N).next x (v 0) i|) ^ 2 ≤ g * (η ^ 2 + η * ∑ i ∈ range S.nx, |x i|) ∧
      ((problem S N Q R P D X_N).Opt y v' →
        (problem S N Q R P D X_N).cost y v' ≤ (1 - l / (8 * C)) * (problem S N Q R P D X_N).cost x v + g * η ^ 2) := by
  set p := problem S N Q R P D X_N with hp
  have hsh : p.Shape := problem_shape h.toMpcSizes
  have hl := hr.l0
  have hC : 0 < C := lt_of_lt_of_le hr.l0 hr.lC
  set bB := ∑ i ∈ range p.nx, ∑ j ∈ range p.nu, |p.B.e i j| with hbB
  have hB0 : 0 ≤ bB := Finset.sum_nonneg fun i _ => Finset.sum_nonneg fun j _ => abs_nonneg _
  set c0 := (S.nx * bB) ^ 2 * κ with hc0
  have hc00 : 0 ≤ c0 := by positivity
  set c1 := (1 + 4 * C / l) * C * c0 with hc1
  have hc10 : 0 ≤ c1 := by positivity
  refine ⟨c0 + c1 + 4 * c1 ^ 2 * C / l ^ 2, by positivity, fun η x y u v v' hη hv hdist hy => ?_⟩
  have hx0 : 0 ≤ ∑ i ∈ range S.nx, |x i| := Finset.sum_nonneg fun _ _ => abs_nonneg _
  set X := ∑ i ∈ range S.nx, |x i| with hX
  set d := ∑ s ∈ range S.nu, |u s - v 0 s| with hdd
  have hd0 : 0 ≤ d := Finset.sum_nonneg fun _ _ => abs_nonneg _
  have hw : ∑ i ∈ range S.nx, |y i - p.next x (v 0) i| ≤ S.nx * bB * d := by
    have h1 := next_bound hsh (x := fun i => x i - x i) (u := fun s => u s - v 0 s) (a := 0) (c := d) (fun i _ => by simp)
      (fun s hs => Finset.single_le_sum (f := fun s => |u s - v 0 s|) (fun _ _ => abs_nonneg _) (mem_range.2 hs))
    have h2 : ∀ i ∈ range S.nx, |y i - p.next x (v 0) i| ≤ bB * d := by
      intro i hi
      have := h1 i (mem_range.1 hi)
      rw [next_sub, mul_zero, zero_add] at this
      rw [hy i (mem_range.1 hi)]
      exact this
    have := Finset.sum_le_sum h2
    rw [Finset.sum_const, card_range, nsmul_eq_mul] at this
    linarith
  have hw2 : (∑ i ∈ range S.nx, |y i - p.next x (v 0) i|) ^ 2 ≤ c0 * (η ^ 2 + η * X) := by
    have h1 := pow_le_pow_left₀ (Finset.sum_nonneg fun _ _ => abs_nonneg _) hw 2
    rw [mul_pow] at h1
    have h2 := mul_le_mul_of_nonneg_left hdist (sq_nonneg (S.nx * bB))
    rw [hc0]
    linarith
  have hηX : 0 ≤ η ^ 2 + η * X := by positivity
  refine ⟨hw2.trans (mul_le_mul_of_nonneg_right ?_ hηX), fun hv' => ?_⟩
  · have : 0 ≤ 4 * c1 ^ 2 * C / l ^ 2 := by positivity
    linarith
  have h1 := disturbed_step h hK hd hr (w := fun i => y i - p.next x (v 0) i) hv hv' fun i hi => by ring
  have h2 := hr.low h x v
  rw [← hX] at h2
  have h3 : (1 + 4 * C / l) * (C * (∑ i ∈ range S.nx, |y i - p.next x (v 0) i|) ^ 2) ≤ c1 * (η ^ 2 + η * X) := by
    have := mul_le_mul_of_nonneg_left hw2 (show 0 ≤ (1 + 4 * C / l) * C by positivity)
    rw [hc1]
    linarith
  -- the product of the error and the state
  have h4 : c1 * (η * X) ≤ l ^ 2 / (16 * C) * X ^ 2 + 4 * c1 ^ 2 * C / l ^ 2 * η ^ 2 := by
    have e : l ^ 2 / (16 * C) * X ^ 2 + 4 * c1 ^ 2 * C / l ^ 2 * η ^ 2 - c1 * (η * X) = C * (l / (4 * C) * X - 2 * c1 / l * η) ^ 2 := by
      field_simp
      ring
    have : 0 ≤ C * (l / (4 * C) * X - 2 * c1 / l * η) ^ 2 := by positivity
    linarith
  have h5 : l ^ 2 / (16 * C) * X ^ 2 ≤ l / (8 * C) * p.cost x v := by
    have := mul_le_mul_of_nonneg_left h2 (show 0 ≤ l / (8 * C) by positivity)
    have e : l / (8 * C) * (l / 2 * X ^ 2) = l ^ 2 / (16 * C) * X ^ 2 := by
      field_simp
      ring
    rwa [e] at this
  have e6 : l / (4 * C) = 2 * (l / (8 * C)) := by field_simp; norm_num
  rw [e6] at h1
  have h7 : 0 ≤ c0 * η ^ 2 := by positivity
  have e8 : (c0 + c1 + 4 * c1 ^ 2 * C / l ^ 2) * η ^ 2 = c0 * η ^ 2 + c1 * η ^ 2 + 4 * c1 ^ 2 * C / l ^ 2 * η ^ 2 := by ring
  rw [e8]
  have e9 : c1 * (η ^ 2 + η * X) = c1 * η ^ 2 + c1 * (η * X) := by ring
  linarith

/-- C174: let `Q` be positive definite, the terminal set not empty, invariant and admissible for some gain `K`, and let the terminal cost decrease by the stage cost there.  Then there are `M`, `G` and
`r < 1`, which depend on the controller only, such that, if `nnls` stops with the tolerances `δ` and `ε < 1e-14`, in each loop in which inputs are feasible at the states, as long as the controller
answers, the states and inputs are at most `M r^t` times the size of the initial state plus `G η`, where `η = (δ + √ε) / (1e-14 - ε)`, and the constraints of the stage are violated by at most
`G √(η² + η |x(t)|)`. -/
theorem C174 (S : LinearSystem) (N : ℕ) (Q R P K : Mat ℝ) (D X_N : Poly) (h : MpcArgs S N Q R P D X_N)
    (hQ : ∀ x, (∃ i < S.nx, x i ≠ 0) → 0 < quad Q x)
    (hK : (problem S N Q R P D X_N).TerminalInvariant K) (hd : (problem S N Q R P D X_N).TerminalDecrease K) (hne : ∃ x, IneqHold X_N.A X_N.b x)
    (c : MPC) (hc : MPC.init S N Q R P D X_N = .ok c) :
    ∃ M r G : ℝ, 0 ≤ M ∧ 0 ≤ r ∧ r < 1 ∧ 0 ≤ G ∧ ∀ (L : Lib) (δ ε : ℝ), LibSound L → NnlsStops L δ ε → 0 ≤ δ → ε < (1e-7 : ℝ) ^ 2 → ∀ (x u : ℕ → Vec ℝ) (T : ℕ),
      ClosedLoop L c (problem S N Q R P D X_N) x u T → (∀ t < T, ∃ v, (problem S N Q R P D X_N).Feas (x t).e v) →
      ∀ t < T, (∀ i < S.nx, |(x t).e i| ≤ M * r ^ t * ∑ l ∈ range S.nx, |(x 0).e l| + G * stopError δ ε) ∧
        (∀ s < S.nu, |(u t).e s| ≤ M * r ^ t * ∑ l ∈ range S.nx, |(x 0).e l| + G * stopError δ ε) ∧
        ∀ i < D.A.nr, rowVal D.A i (pair S.nx (x t).e (u t).e) ≤ D.b.e i + G * Real.sqrt (stopError δ ε ^ 2 + stopError δ ε * ∑ l ∈ range S.nx, |(x t).e l|) := by
  obtain ⟨k, l, C, hr⟩ := rates h hQ hK hd hne
  obtain ⟨κ, hκ0, hκ⟩ := inexact_step h hc hr
  obtain ⟨g, hg0, hg⟩ := inexact_value h hK hd hr hκ0
  set p := problem S N Q R P D X_N with hp
  have hl := hr.l0
  have hk := hr.k0
  have hC : 0 < C := lt_of_lt_of_le hr.l0 hr.lC
  set σ := 1 - l / (8 * C) with hσ
  have hσ1 : σ < 1 := by
    have : 0 < l / (8 * C) := by positivity
    linarith
  have hσ0 : 0 ≤ σ := by
    have : l / (8 * C) ≤ 1 := by
      rw [div_le_one (by positivity)]
      linarith [hr.lC]
    linarith
  set B := g * (8 * C / l) with hB
  have hB0 : 0 ≤ B := by positivity
  have hBσ : σ * B + g = B := by
    rw [hσ, hB]
    field_simp
    ring
  set a := Real.sqrt (2 * C / l) with ha
  set b := Real.sqrt (2 * B / l) with hb
  set e := Real.sqrt κ with he
  set f := ∑ i ∈ range D.A.nr, ∑ j ∈ range D.A.nc, |D.A.e i j| with hf
  have ha0 : 0 ≤ a := Real.sqrt_nonneg _
  have hb0 : 0 ≤ b := Real.sqrt_nonneg _
  have he0 : 0 ≤ e := Real.sqrt_nonneg _
  have hf0 : 0 ≤ f := Finset.sum_nonneg fun i _ => Finset.sum_nonneg fun j _ => abs_nonneg _
  refine ⟨a * (1 + k + e), Real.sqrt σ, b * (1 + k + e) + e + f * e, by positivity, Real.sqrt_nonneg _,
    by rw [Real.sqrt_lt' one_pos]; simpa using hσ1, by positivity, fun L δ ε hL hN hδ hε x u T hcl hfeas => ?_⟩
  have hη := stopError_nonneg hδ hε
  set η := stopError δ ε with hηd
  have habs : ∀ (x : ℕ → ℝ), 0 ≤ ∑ l ∈ range S.nx, |x l| := fun x => Finset.sum_nonneg fun _ _ => abs_nonneg _
  have opt : ∀ t, ∃ v, t < T → p.Opt (x t).e v := by
    intro t
    by_cases ht : t < T
    · obtain ⟨v, hv⟩ := hfeas t ht
      obtain ⟨w, hw⟩ := mpc_opt_exists h hv
      exact ⟨w, fun _ => hw⟩
    · exact ⟨fun _ _ => 0, fun h => absurd h ht⟩
  choose v hv using opt
  have dist : ∀ t < T, (∑ s ∈ range S.nu, |(u t).e s - v t 0 s|) ^ 2 ≤ κ * (η ^ 2 + η * ∑ i ∈ range S.nx, |(x t).e i|) := fun t ht =>
    hκ L δ ε hL hN hδ hε (x t) (u t) (v t) (hcl.size t ht.le) (hcl.2 t ht).1 (hv t ht)
  have val : ∀ t < T, p.cost (x t).e (v t) ≤ σ ^ t * (C * (∑ l ∈ range S.nx, |(x 0).e l|) ^ 2) + B * η ^ 2 := by
    intro t
    induction t with
    | zero =>
      intro ht
      have := hr.up _ _ (hv 0 ht)
      have e1 : 0 ≤ B * η ^ 2 := by positivity
      rw [pow_zero, one_mul]
      have e2 : ∑ i ∈ range p.nx, |(x 0).e i| = ∑ i ∈ range S.nx, |(x 0).e i| := rfl
      rw [e2] at this
      linarith
    | succ t ih =>
      intro ht
      have h1 := (hg η (x t).e (x (t + 1)).e (u t).e (v t) (v (t + 1)) hη (hv t (by omega)) (dist t (by omega)) (hcl.2 t (by omega)).2.2).2 (hv (t + 1) ht)
      have h2 := mul_le_mul_of_nonneg_left (ih (by omega)) hσ0
      have e2 : σ * (σ ^ t * (C * (∑ l ∈ range S.nx, |(x 0).e l|) ^ 2) + B * η ^ 2) + g * η ^ 2
          = σ ^ (t + 1) * (C * (∑ l ∈ range S.nx, |(x 0).e l|) ^ 2) + (σ * B + g) * η ^ 2 := by rw [pow_succ]; ring
      rw [hBσ] at e2
      linarith
  intro t ht
  have hX0 := habs (x 0).e
  have hXt := habs (x t).e
  have hσt : 0 ≤ Real.sqrt σ ^ t := by positivity
  set X0 := ∑ l ∈ range S.nx, |(x 0).e l| with hX0d
  set Xt := ∑ i ∈ range S.nx, |(x t).e i| with hXtd
  have hs : Xt ≤ a * (Real.sqrt σ ^ t * X0) + b * η := by
    refine size_add hl (by positivity) hη (hr.low h (x t).e (v t)) (?_ : _ ≤ C * _ + B * _) hC.le hB0
    have e1 : (Real.sqrt σ ^ t * X0) ^ 2 = σ ^ t * X0 ^ 2 := by
      rw [mul_pow, ← pow_mul, mul_comm t 2, pow_mul, Real.sq_sqrt hσ0]
    rw [e1]
    have := val t ht
    linarith
  have hin : ∀ s < S.nu, |(u t).e s - v t 0 s| ≤ e * Real.sqrt (η ^ 2 + η * Xt) := by
    intro s hs
    have h1 := Finset.single_le_sum (f := fun s => |(u t).e s - v t 0 s|) (fun _ _ => abs_nonneg _) (mem_range.2 hs)
    refine h1.trans ?_
    rw [he, ← Real.sqrt_mul hκ0]
    exact Real.le_sqrt_of_sq_le (dist t ht)
  have hsq : Real.sqrt (η ^ 2 + η * Xt) ≤ η + Xt := by
    refine Real.sqrt_le_iff.2 ⟨by positivity, ?_⟩
    nlinarith [mul_nonneg hη hXt, sq_nonneg Xt]
  have hbase : (1 + k + e) * Xt + e * η ≤ a * (1 + k + e) * Real.sqrt σ ^ t * X0 + (b * (1 + k + e) + e + f * e) * η := by
    have h1 := mul_le_mul_of_nonneg_left hs (show 0 ≤ 1 + k + e by positivity)
    have h2 : 0 ≤ f * e * η := by positivity
    have e1 : (1 + k + e) * (a * (Real.sqrt σ ^ t * X0) + b * η) = a * (1 + k + e) * Real.sqrt σ ^ t * X0 + b * (1 + k + e) * η := by ring
    rw [e1] at h1
    linarith
  have hkX : 0 ≤ k * Xt := mul_nonneg hk hXt
  have heX : 0 ≤ e * Xt := mul_nonneg he0 hXt
  have heη : 0 ≤ e * η := mul_nonneg he0 hη
  refine ⟨fun i hi => ?_, fun s hs => ?_, fun i hi => ?_⟩
  · have h1 := Finset.single_le_sum (f := fun l => |(x t).e l|) (fun _ _ => abs_nonneg _) (mem_range.2 hi)
    rw [← hXtd] at h1
    linarith
  · have h1 := hin s hs
    have h2 := hr.inp _ _ (hv t ht) 0 h.N s hs
    have e1 : ∑ i ∈ range p.nx, |(x t).e i| = Xt := rfl
    rw [e1] at h2
    have h3 := abs_sub_abs_le_abs_sub ((u t).e s) (v t 0 s)
    have h4 := mul_le_mul_of_nonneg_left hsq he0
    linarith
  · have h1 := (hv t ht).1.1 0 h.N i hi
    simp only [LinOcp.x_zero] at h1
    have h2 : rowVal D.A i (pair S.nx (x t).e (u t).e) - rowVal D.A i (pair S.nx (x t).e (v t 0)) ≤ f * (e * Real.sqrt (η ^ 2 + η * Xt)) := by
      unfold rowVal
      rw [← Finset.sum_sub_distrib]
      refine le_trans (le_trans (Finset.sum_le_sum (g := fun j => |D.A.e i j| * (e * Real.sqrt (η ^ 2 + η * Xt))) fun j hj => ?_) (le_of_eq (Finset.sum_mul _ _ _).symm)) ?_
      · have hj := mem_range.1 hj
        rw [h.D.1] at hj
        rw [← mul_sub]
        refine (le_abs_self _).trans ?_
        rw [abs_mul]
        refine mul_le_mul_of_nonneg_left ?_ (abs_nonneg _)
        unfold pair
        by_cases hj' : j < S.nx
        · simp only [hj', if_true, sub_self, abs_zero]
          positivity
        · simp only [hj', if_false]
          exact hin _ (by omega)
      · refine mul_le_mul_of_nonneg_right ?_ (by positivity)
        exact Finset.single_le_sum (f := fun i => ∑ j ∈ range D.A.nc, |D.A.e i j|) (fun i _ => Finset.sum_nonneg fun j _ => abs_nonneg _) (mem_range.2 hi)
    have h3 : 0 ≤ (b * (1 + k + e) + e) * Real.sqrt (η ^ 2 + η * Xt) := by positivity
    have h4 : rowVal D.A i (pair S.nx (x t).e (v t 0)) ≤ D.b.e i := h1
    have e5 : (b * (1 + k + e) + e + f * e) * Real.sqrt (η ^ 2 + η * Xt) = (b * (1 + k + e) + e) * Real.sqrt (η ^ 2 + η * Xt) + f * (e * Real.sqrt (η ^ 2 + η * Xt)) := by ring
    rw [e5]
    linarith

/-- the controller answers where inputs cost little -/
theorem inexact_answers {S : LinearSystem} {N : ℕ} {Q R P : Mat ℝ} {D X_N : Poly} (h : MpcArgs S N Q R P D X_N) {c : MPC} (hc : MPC.init S N Q R P D X_N = .ok c)
    {L : Lib} (hL : LibSound L) {x : Vec ℝ} (hx : x.n = S.nx) {v : ℕ → ℕ → ℝ} (hv : (problem S N Q R P D X_N).Feas x.e v)
    (hcost : (problem S N Q R P D X_N).cost x.e v < (1 / (1e-7 : ℝ) ^ 2 - 1) / 2) : ∃ u, c.feedback L x = .ok (some u) := by
  obtain ⟨q, h1, hm, hs, hF, hC, hnr⟩ := init_run h.toMpcSizes
  rw [h1] at hc
  cases hc
  have hsh : (problem S N Q R P D X_N).Shape := problem_shape h.toMpcSizes
  have hw : Weights (problem S N Q R P D X_N).nx (problem S N Q R P D X_N).nu (problem S N Q R P D X_N).Q (problem S N Q R P D X_N).R
    (problem S N Q R P D X_N).P := h.w
  have hpos : 0 < q.Au.nr := by
    rcases h.rows with k | k
    · have := Nat.mul_pos h.N k
      omega
    · omega
  have e1 : ∀ t < N, ∀ s < S.nu, unflat S.nu (flat S.nu v) t s = v t s := fun t _ s hs => unflat_flat v t hs
  obtain ⟨s, k1, k2⟩ := C173_answers _ _ q hs hpos L hL x hx
  obtain ⟨u0, -, -, g3⟩ := free_opt hs x.e
  cases hmin : s.min with
  | none =>
    have a1 := (k2 hmin).2 u0 (flat S.nu v) g3 ((hF _ _).2 ((LinOcp.feas_congr hsh (fun _ _ => rfl) e1).2 hv))
    rw [hC, hC, LinOcp.cost_congr hsh (fun _ _ => rfl) e1] at a1
    have a2 := LinOcp.cost_nonneg hw x.e (unflat S.nu u0)
    linarith
  | some m =>
    have harg : ∃ U, s.argmin = some U := by
      have hrun := k1
      rw [solve_program hs hx] at hrun
      obtain ⟨s', hq, hlift⟩ := Py.bind_eq_ok hrun
      obtain ⟨_, _, _, _, X, _, r, -, -, -, -, -, -, -, h7, -⟩ := qp_run_sound hL hs.Huu (f := linAt q.data (S.nu * N) S.nx x.e) rfl (shapeAt hs x.e) 1e-7
      have h7' := h7 (.inl hpos)
      have hq' : Pnnls.quadratic_program L q.data.Huu (linAt q.data (S.nu * N) S.nx x.e) q.data.Au (rhsAt q.data S.nx x.e) none none 1e-7 = .ok s' := hq
      rw [h7'] at hq'
      unfold liftMin at hlift
      by_cases hr : r > 1e-7
      · rw [if_pos hr] at hq'
        cases hq'
        obtain ⟨_, -, hlift⟩ := Py.bind_eq_ok hlift
        obtain ⟨_, -, hlift⟩ := Py.bind_eq_ok hlift
        obtain ⟨_, -, hlift⟩ := Py.bind_eq_ok hlift
        cases hlift
        exact ⟨_, rfl⟩
      · rw [if_neg hr] at hq'
        cases hq'
        cases hlift
        simp [Sol.none] at hmin
    obtain ⟨U, hU⟩ := harg
    have hf : (⟨S, N, Q, R, P, D, X_N, none, q⟩ : MPC).feedforward L x = .ok (some (MPC.slices U S.nu N), some m) := by
      unfold MPC.feedforward
      show (q.solve L x >>= _) = _
      rw [k1, Py.ok_bind]
      simp only [hmin, hU]
      rfl
    obtain ⟨u, -, hu⟩ := (C65_linear L _ h.N x).2.1 _ _ hf
    exact ⟨u, hu⟩

/-- C175: if moreover the terminal set contains a neighbourhood of the origin, then there are `ρ`, `ξ > 0`, which depend on the controller only, such that, if `nnls` stops with tolerances such that
`(δ + √ε) / (1e-14 - ε) ≤ ξ`, from each state with entries at most `ρ` the loop runs forever, and inputs are feasible at each of its states. -/
theorem C175 (S : LinearSystem) (N : ℕ) (Q R P K : Mat ℝ) (D X_N : Poly) (h : MpcArgs S N Q R P D X_N)
    (hQ : ∀ x, (∃ i < S.nx, x i ≠ 0) → 0 < quad Q x)
    (hK : (problem S N Q R P D X_N).TerminalInvariant K) (hd : (problem S N Q R P D X_N).TerminalDecrease K)
    (hball : ∃ ε > 0, ∀ x : ℕ → ℝ, (∀ i < S.nx, |x i| ≤ ε) → IneqHold X_N.A X_N.b x)
    (c : MPC) (hc : MPC.init S N Q R P D X_N = .ok c) :
    ∃ ρ > 0, ∃ ξ > 0, ∀ (L : Lib) (δ ε : ℝ), LibSound L → NnlsStops L δ ε → 0 ≤ δ → ε < (1e-7 : ℝ) ^ 2 → stopError δ ε ≤ ξ →
      ∀ x0 : Vec ℝ, x0.n = S.nx → (∀ i < S.nx, |x0.e i| ≤ ρ) →
      ∃ x u : ℕ → Vec ℝ, x 0 = x0 ∧ (∀ T, ClosedLoop L c (problem S N Q R P D X_N) x u T) ∧ ∀ t, ∃ v, (problem S N Q R P D X_N).Feas (x t).e v := by
  obtain ⟨ε0, hε0, hb⟩ := hball
  obtain ⟨k, l, C, hr⟩ := rates h hQ hK hd ⟨fun _ => 0, hb _ fun i _ => by simpa using hε0.le⟩
  obtain ⟨κ, hκ0, hκ⟩ := inexact_step h hc hr
  obtain ⟨g, hg0, hg⟩ := inexact_value h hK hd hr hκ0
  set p := problem S N Q R P D X_N with hp
  have hsh : p.Shape := problem_shape h.toMpcSizes
  have hl := hr.l0
  have hk := hr.k0
  have hC : 0 < C := lt_of_lt_of_le hr.l0 hr.lC
  have habs : ∀ (x : ℕ → ℝ), 0 ≤ ∑ l ∈ range S.nx, |x l| := fun x => Finset.sum_nonneg fun _ _ => abs_nonneg _
  have hle : ∀ (x : ℕ → ℝ), ∀ i < S.nx, |x i| ≤ ∑ l ∈ range S.nx, |x l| := fun x i hi =>
    Finset.single_le_sum (f := fun l => |x l|) (fun _ _ => abs_nonneg _) (mem_range.2 hi)
  set θ := l / (8 * C) with hθ
  have hθ0 : 0 < θ := by positivity
  have hθ1 : θ ≤ 1 := by
    rw [hθ, div_le_one (by positivity)]
    linarith [hr.lC]
  -- the next state is bounded by a multiple of the state
  set b := (∑ i ∈ range p.nx, ∑ j ∈ range p.nx, |p.A.e i j|) + (∑ i ∈ range p.nx, ∑ j ∈ range p.nu, |p.B.e i j|) * k + 1 with hbdef
  have hsA : 0 ≤ ∑ i ∈ range p.nx, ∑ j ∈ range p.nx, |p.A.e i j| := Finset.sum_nonneg fun i _ => Finset.sum_nonneg fun j _ => abs_nonneg _
  have hsB : 0 ≤ ∑ i ∈ range p.nx, ∑ j ∈ range p.nu, |p.B.e i j| := Finset.sum_nonneg fun i _ => Finset.sum_nonneg fun j _ => abs_nonneg _
  have hb0 : 0 < b := by positivity
  set r0 := ε0 / (2 * b) with hr0d
  have hr00 : 0 < r0 := by positivity
  set a := min (l / 2 * r0 ^ 2) 1 with hadef
  have ha : 0 < a := lt_min (by positivity) one_pos
  set ξ := min 1 (min (ε0 ^ 2 / (4 * ((g + 1) * (1 + r0)))) (θ * a / (g + 1))) with hξ
  have hξ0 : 0 < ξ := by
    refine lt_min one_pos (lt_min ?_ ?_) <;> positivity
  have hn1 : (0 : ℝ) < S.nx + 1 := by positivity
  refine ⟨min ε0 (Real.sqrt (a / C) / (S.nx + 1)), lt_min hε0 (by positivity), ξ, hξ0, fun L δ ε hL hN hδ hε hηξ x0 hn hx0 => ?_⟩
  have hη := stopError_nonneg hδ hε
  set η := stopError δ ε with hηd
  have hη1 : η ≤ 1 := hηξ.trans (min_le_left _ _)
  have hη2 : η ≤ ε0 ^ 2 / (4 * ((g + 1) * (1 + r0))) := hηξ.trans ((min_le_right _ _).trans (min_le_left _ _))
  have hη3 : η ≤ θ * a / (g + 1) := hηξ.trans ((min_le_right _ _).trans (min_le_right _ _))
  let fb : Vec ℝ → Vec ℝ := fun y => match c.feedback L y with
    | .ok (some u) => u
    | _ => ⟨0, fun _ => 0⟩
  have ans : ∀ y : Vec ℝ, y.n = S.nx → (∃ v, p.Opt y.e v ∧ p.cost y.e v ≤ a) → c.feedback L y = .ok (some (fb y)) := by
    rintro y hy ⟨v, hv, hva⟩
    obtain ⟨u, hu⟩ := inexact_answers h hc hL hy hv.1 (lt_of_le_of_lt (hva.trans (min_le_right _ _)) (by norm_num))
    have hfb : fb y = u := by simp only [fb, hu]
    rw [hfb]
    exact hu
  let x : ℕ → Vec ℝ := fun t => Nat.rec x0 (fun _ y => ⟨S.nx, fun i => p.next y.e (fb y).e i⟩) t
  have inv : ∀ t, (x t).n = S.nx ∧ ∃ v, p.Opt (x t).e v ∧ p.cost (x t).e v ≤ a := by
    intro t
    induction t with
    | zero =>
      refine ⟨hn, ?_⟩
      obtain ⟨v, hv, -⟩ := terminal_inputs N hK hd (hb x0.e fun i hi => (hx0 i hi).trans (min_le_left _ _))
      obtain ⟨u0, hu0⟩ := mpc_opt_exists h hv
      refine ⟨u0, hu0, ?_⟩
      have h1 := hr.up _ _ hu0
      have h2 : ∑ i ∈ range p.nx, |x0.e i| ≤ Real.sqrt (a / C) := by
        have h1 := Finset.sum_le_sum fun i hi => (hx0 i (mem_range.1 hi)).trans (min_le_right _ _)
        rw [Finset.sum_const, card_range, nsmul_eq_mul] at h1
        refine le_trans h1 ?_
        rw [mul_div_assoc', div_le_iff₀ hn1]
        nlinarith [Real.sqrt_nonneg (a / C)]
      have h3 := pow_le_pow_left₀ (habs x0.e) h2 2
      rw [Real.sq_sqrt (by positivity)] at h3
      have h4 := mul_le_mul_of_nonneg_left h3 hC.le
      rw [mul_div_cancel₀ _ hC.ne'] at h4
      exact h1.trans h4
    | succ t ih =>
      refine ⟨rfl, ?_⟩
      obtain ⟨hnt, v, hv, hva⟩ := ih
      have hans := ans (x t) hnt ⟨v, hv, hva⟩
      have hdist := hκ L δ ε hL hN hδ hε (x t) (fb (x t)) v hnt hans hv
      have hX : ∑ i ∈ range S.nx, |(x t).e i| ≤ r0 := by
        have h1 := (hr.low h (x t).e v).trans (hva.trans (min_le_left _ _))
        refine abs_le_of_sq_le_sq' ?_ hr00.le |>.2
        exact le_of_mul_le_mul_left h1 (by positivity)
      have hX0 := habs (x t).e
      have hstep := fun v' => hg η (x t).e (x (t + 1)).e (fb (x t)).e v v' hη hv hdist fun i _ => rfl
      have hsmall : ∑ i ∈ range S.nx, |(x (t + 1)).e i - p.next (x t).e (v 0) i| ≤ ε0 / 2 := by
        refine abs_le_of_sq_le_sq' ((hstep v).1.trans ?_) (by positivity) |>.2
        have h1 : η ^ 2 + η * ∑ i ∈ range S.nx, |(x t).e i| ≤ η * (1 + r0) := by
          rw [pow_two, mul_add]
          exact add_le_add (mul_le_mul_of_nonneg_left hη1 hη) (mul_le_mul_of_nonneg_left hX hη)
        have h2 : η * (4 * ((g + 1) * (1 + r0))) ≤ ε0 ^ 2 := (le_div_iff₀ (by positivity)).1 hη2
        have h3 := mul_le_mul_of_nonneg_left h1 hg0
        have h4 : 0 ≤ η * (1 + r0) := by positivity
        have e5 : η * (4 * ((g + 1) * (1 + r0))) = 4 * (g * (η * (1 + r0))) + 4 * (η * (1 + r0)) := by ring
        have e6 : (ε0 / 2) ^ 2 = ε0 ^ 2 / 4 := by ring
        rw [e6]
        linarith
      obtain ⟨v1, hv1⟩ : ∃ v, p.Feas (x (t + 1)).e v := by
        suffices hs : ∀ i < S.nx, |(x (t + 1)).e i| ≤ ε0 by
          obtain ⟨v, hv, -⟩ := terminal_inputs N hK hd (hb _ hs)
          exact ⟨v, hv⟩
        intro i hi
        have h3 := next_bound hsh (hle (x t).e) (hr.inp (x t).e v hv 0 h.N) i hi
        have e' : ∑ i ∈ range p.nx, |(x t).e i| = ∑ i ∈ range S.nx, |(x t).e i| := rfl
        rw [e'] at h3
        have h4 : |p.next (x t).e (v 0) i| ≤ ε0 / 2 := by
          have h5 : b * ∑ i ∈ range S.nx, |(x t).e i| ≤ ε0 / 2 := by
            have := mul_le_mul_of_nonneg_left hX hb0.le
            have e : b * (ε0 / (2 * b)) = ε0 / 2 := by field_simp
            rwa [hr0d, e] at this
          rw [hbdef, add_mul, add_mul, one_mul, mul_assoc _ k] at h5
          linarith
        have h5 := (Finset.single_le_sum (f := fun i => |(x (t + 1)).e i - p.next (x t).e (v 0) i|) (fun _ _ => abs_nonneg _) (mem_range.2 hi)).trans hsmall
        have h6 : |(x (t + 1)).e i| ≤ |(x (t + 1)).e i - p.next (x t).e (v 0) i| + |p.next (x t).e (v 0) i| := by
          have := abs_add_le ((x (t + 1)).e i - p.next (x t).e (v 0) i) (p.next (x t).e (v 0) i)
          rwa [sub_add_cancel] at this
        linarith
      obtain ⟨v', hv'⟩ := mpc_opt_exists h hv1
      refine ⟨v', hv', ((hstep v').2 hv').trans ?_⟩
      have h1 : η * (g + 1) ≤ θ * a := (le_div_iff₀ (by positivity)).1 hη3
      have h2 : g * η ^ 2 ≤ η * (g + 1) := by
        have h3 := mul_le_mul_of_nonneg_left (mul_le_mul_of_nonneg_left hη1 hη) hg0
        have e4 : g * η ^ 2 = g * (η * η) := by ring
        rw [e4]
        linarith
      have h3 := mul_le_mul_of_nonneg_left hva (sub_nonneg.2 hθ1)
      linarith
  refine ⟨x, fun t => fb (x t), rfl, fun T => ⟨hn, fun t _ => ⟨ans _ (inv t).1 (inv t).2, rfl, fun i _ => rfl⟩⟩, fun t => ?_⟩
  obtain ⟨v, hv, -⟩ := (inv t).2
  exact ⟨v, hv.1⟩

/-- C174 and C175 on the integrator: near the origin, with any `nnls` that stops close enough to the minimum, the loop runs forever, and its states are at most `M r^t |y| + G η`, with the same
constants for all the initial states and stopping criteria -/
example : ∃ c, MPC.init integrator 3 half1 one1 one1 boxXU interval1 = .ok c ∧ ∃ M r G ρ ξ : ℝ, 0 ≤ M ∧ 0 ≤ r ∧ r < 1 ∧ 0 ≤ G ∧ 0 < ρ ∧ 0 < ξ ∧
    ∀ (L : Lib) (δ ε : ℝ), LibSound L → NnlsStops L δ ε → 0 ≤ δ → ε < (1e-7 : ℝ) ^ 2 → stopError δ ε ≤ ξ → ∀ y : ℝ, |y| ≤ ρ →
      ∃ x u : ℕ → Vec ℝ, x 0 = ⟨1, fun _ => y⟩ ∧ (∀ t, c.feedback L (x t) = .ok (some (u t)) ∧ (x (t + 1)).e 0 = (x t).e 0 + (u t).e 0) ∧
        ∀ t, |(x t).e 0| ≤ M * r ^ t * |y| + G * stopError δ ε := by
  have hargs := integrator_args 3 (by norm_num)
  obtain ⟨q, h1, -⟩ := init_run hargs.toMpcSizes
  have hQ : ∀ x : ℕ → ℝ, (∃ i < integrator.nx, x i ≠ 0) → 0 < quad half1 x := by
    rintro x ⟨i, hi, hx⟩
    have hi' : i < 1 := by simpa [integrator] using hi
    obtain rfl : i = 0 := by omega
    rw [half1_quad]
    positivity
  have hne : ∃ x, IneqHold interval1.A interval1.b x := by
    obtain ⟨e, he, hb⟩ := integrator_ball
    exact ⟨fun _ => 0, hb _ fun i _ => by simpa using he.le⟩
  obtain ⟨M, r, G, hM, hr, hr1, hG, h2⟩ := C174 _ _ _ _ _ _ _ _ hargs hQ (integrator_invariant 3) (integrator_decrease 3) hne _ h1
  obtain ⟨ρ, hρ, ξ, hξ, h3⟩ := C175 _ _ _ _ _ _ _ _ hargs hQ (integrator_invariant 3) (integrator_decrease 3) integrator_ball _ h1
  refine ⟨_, h1, M, r, G, ρ, ξ, hM, hr, hr1, hG, hρ, hξ, fun L δ ε hL hN hδ hε hη y hy => ?_⟩
  obtain ⟨x, u, e0, hcl, hf⟩ := h3 L δ ε hL hN hδ hε hη ⟨1, fun _ => y⟩ rfl fun i _ => hy
  refine ⟨x, u, e0, fun t => ⟨((hcl (t + 1)).2 t (by omega)).1, ?_⟩, fun t => ?_⟩
  · rw [((hcl (t + 1)).2 t (by omega)).2.2 0 (by show 0 < 1; omega)]
    simp [LinOcp.next, Spec.affine, problem, integrator, one1]
  · have := (h2 L δ ε hL hN hδ hε x u (t + 1) (hcl (t + 1)) (fun t _ => hf t) t (by omega)).1 0 (by norm_num [integrator])
    rw [e0] at this
    simpa [integrator] using this

theorem NnlsStops.mono {L : Lib} {δ ε δ' ε' : ℝ} (h : NnlsStops L δ ε) (hδ : δ ≤ δ') (hε : ε ≤ ε') : NnlsStops L δ' ε' := fun A b hab =>
  ⟨fun j hj => by linarith [(h A b hab).1 j hj], (h A b hab).2.trans hε⟩

/-- the hypotheses of C173 are met by the program of the integrator at the state `1/2`, where `solve` answers -/
example : ∃ (L : Lib) (q : MpQP) (s : Sol) (m : ℝ), LibSound L ∧ NnlsStops L 1e-20 1e-20 ∧ q.data.Shape 3 1 ∧ q.solve L ⟨1, fun _ => 1 / 2⟩ = .ok s ∧ s.min = some m := by
  obtain ⟨L, hL⟩ := exists_lib
  have hargs := integrator_args 3 (by norm_num)
  obtain ⟨q, h1, -, hs, -⟩ := init_run hargs.toMpcSizes
  obtain ⟨v, hv, hc⟩ := terminal_inputs (x := fun _ => 1 / 2) 3 (integrator_invariant 3) (integrator_decrease 3) (by
    intro i hi
    have hi' : i < 2 := hi
    interval_cases i <;> norm_num [interval1, Poly.fresh, rowVal])
  obtain ⟨u, hu⟩ := inexact_answers hargs h1 hL.sound (x := ⟨1, fun _ => 1 / 2⟩) rfl hv (lt_of_le_of_lt hc (by norm_num [quad, one1]))
  unfold MPC.feedback MPC.feedforward at hu
  obtain ⟨⟨us, V⟩, hf, hfi⟩ := Py.bind_eq_ok hu
  obtain ⟨s, k1, k2⟩ := Py.bind_eq_ok hf
  cases hmin : s.min with
  | none =>
    simp only [hmin] at k2
    cases k2
    simp [MPC.firstInput] at hfi
  | some m => exact ⟨L, q, s, m, hL.sound, NnlsStops.mono (lib_stops hL) (by norm_num) (by norm_num), hs, k1, hmin⟩

end Verif.Props
