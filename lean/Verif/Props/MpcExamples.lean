import Verif.Props.MpcTerminal

/- Concrete controllers: the hypotheses of the MPC properties are met, and a controller that does not answer although the problem is feasible. -/
namespace Verif.Props
open Finset Spec Dyn Control

/-- `x⁺ = x + u` -/
def integrator : LinearSystem := ⟨one1, one1, 1, 1, none⟩

/-- `|x| ≤ 5`, `|u| ≤ 1` -/
def boxXU : Poly :=
  Poly.fresh ⟨4, 2, fun i j => if i = 0 then (if j = 0 then 1 else 0) else if i = 1 then (if j = 0 then -1 else 0)
    else if i = 2 then (if j = 0 then 0 else 1) else (if j = 0 then 0 else -1)⟩ ⟨4, fun i => if i < 2 then 5 else 1⟩
    (Mat.zeros 0 2) (Vec.zeros 0)

/-- the weight `1/2` -/
noncomputable def half1 : Mat ℝ := ⟨1, 1, fun _ _ => 1 / 2⟩

/-- the gain `-1/2` -/
noncomputable def gain1 : Mat ℝ := ⟨1, 1, fun _ _ => -1 / 2⟩

theorem half1_quad (x : ℕ → ℝ) : quad half1 x = x 0 ^ 2 / 2 := by
  simp [quad, half1]; ring

theorem integrator_args (N : ℕ) (hN : 0 < N) : MpcArgs integrator N half1 one1 one1 boxXU interval1 :=
  ⟨⟨⟨rfl, rfl, rfl, rfl, rfl⟩, hN, ⟨⟨rfl, rfl, fun _ _ _ _ => rfl⟩, weights1.symP, weights1.symR,
    fun x => by rw [half1_quad]; positivity, weights1.P0, weights1.Rpos⟩, ⟨rfl, rfl⟩, ⟨rfl, rfl⟩⟩, .inl (show 0 < 4 by norm_num)⟩

theorem integrator_invariant (N : ℕ) : (problem integrator N half1 one1 one1 boxXU interval1).TerminalInvariant gain1 := by
  intro x hx
  have h0 := hx 0 (by show 0 < 2; omega)
  have h1 := hx 1 (by show 1 < 2; omega)
  simp [problem, interval1, Poly.fresh, rowVal] at h0 h1
  constructor
  · intro i hi
    have hi' : i < 4 := hi
    interval_cases i <;>
      simp [problem, integrator, boxXU, Poly.fresh, rowVal, pair, LinOcp.gain, gain1, Finset.sum_range_succ] <;> linarith
  · intro i hi
    have hi' : i < 2 := hi
    interval_cases i <;>
      simp [problem, integrator, interval1, Poly.fresh, rowVal, LinOcp.next, Spec.affine, LinOcp.gain, gain1, one1] <;> linarith

theorem integrator_decrease (N : ℕ) : (problem integrator N half1 one1 one1 boxXU interval1).TerminalDecrease gain1 := by
  intro x _
  simp only [LinOcp.stageCost, problem, half1_quad, one1_quad]
  simp [integrator, LinOcp.next, Spec.affine, LinOcp.gain, gain1, one1, rowVal]
  nlinarith

/-- the hypotheses of C64, C68 and C69 are met; from `x = 3` with `N = 3` the controller answers, since the inputs `-1, -1, 0` are feasible -/
example (L : Lib) (hL : LibSpec L) : MpcArgs integrator 3 half1 one1 one1 boxXU interval1 ∧
    (problem integrator 3 half1 one1 one1 boxXU interval1).TerminalInvariant gain1 ∧
    (problem integrator 3 half1 one1 one1 boxXU interval1).TerminalDecrease gain1 ∧
    ∃ c us V, MPC.init integrator 3 half1 one1 one1 boxXU interval1 = .ok c ∧
      c.feedforward L ⟨1, fun _ => 3⟩ = .ok (some us, some V) := by
  obtain ⟨c, h1, h2⟩ := C64_partial L hL _ _ _ _ _ _ _ (integrator_args 3 (by norm_num))
  obtain ⟨-, -, h3⟩ := h2 ⟨1, fun _ => 3⟩ rfl
  have h5 : (problem integrator 3 half1 one1 one1 boxXU interval1).Feas (fun _ => 3) fun t _ => if t < 2 then -1 else 0 := by
    refine ⟨fun t ht i hi => ?_, fun i hi => ?_⟩
    · have hi' : i < 4 := hi
      have ht' : t < 3 := ht
      interval_cases t <;> interval_cases i <;>
        norm_num [problem, integrator, boxXU, Poly.fresh, rowVal, pair, LinOcp.x, Spec.traj, Spec.affine, one1, Finset.sum_range_succ]
    · have hi' : i < 2 := hi
      interval_cases i <;>
        norm_num [problem, integrator, interval1, Poly.fresh, rowVal, LinOcp.x, Spec.traj, Spec.affine, one1, Finset.sum_range_succ]
  have h6 : (problem integrator 3 half1 one1 one1 boxXU interval1).cost (fun _ => 3) (fun t _ => if t < 2 then -1 else 0)
      < (1 / (1e-7 : ℝ) ^ 2 - 1) / 2 := by
    rw [LinOcp.cost_eq]
    simp only [LinOcp.stageCost, problem, half1_quad, one1_quad]
    norm_num [integrator, LinOcp.x, Spec.traj, Spec.affine, one1, Finset.sum_range_succ]
  obtain ⟨us, V, h4⟩ := h3 ⟨_, h5, h6⟩
  exact ⟨integrator_args 3 (by norm_num), integrator_invariant 3, integrator_decrease 3, c, us, V, h1, h4⟩

/-- `P = 1`, `K = -1/2` solve the Riccati equation of the integrator -/
theorem integrator_dare : ∃ dare : Mat ℝ → Mat ℝ → Mat ℝ → Mat ℝ → Py (Mat ℝ),
    (∀ P, dare integrator.A integrator.B half1 one1 = .ok P → DareSpec 1 1 integrator.A integrator.B half1 one1 P) ∧
    ∃ K, (LinearSystem.solve_dare dare half1 one1 integrator).1 = .ok (one1, K) ∧ K.nr = 1 ∧ K.nc = 1 ∧ K.e 0 0 = -1 / 2 := by
  have hspec : DareSpec 1 1 integrator.A integrator.B half1 one1 one1 := by
    refine ⟨weights1.symP, weights1.P0, ?_⟩
    intro A' B' P'
    funext i j
    fin_cases i; fin_cases j
    simp [A', B', P', integrator, one1, half1, Matrix.mul_apply, Mat.asM, Matrix.transpose]
    norm_num
  have hsteer : Steerable 1 integrator.A integrator.B 1 := fun x y => ⟨fun _ _ => y 0 - x 0, fun i hi => by
    obtain rfl : i = 0 := by omega
    simp [Spec.traj, Spec.affine, integrator, one1]⟩
  have hd : ∀ P, (fun _ _ _ _ => Except.ok one1 : Mat ℝ → Mat ℝ → Mat ℝ → Mat ℝ → Py (Mat ℝ)) integrator.A integrator.B half1 one1 = .ok P →
      DareSpec 1 1 integrator.A integrator.B half1 one1 P := fun P hP => by
    injection hP with hP; rw [← hP]; exact hspec
  refine ⟨fun _ _ _ _ => .ok one1, hd, ?_⟩
  obtain ⟨-, -, h3⟩ := C53 1 1 integrator.A integrator.B half1 one1 rfl rfl rfl rfl one_pos one_pos weights1.symR weights1.Rpos
    (fun _ _ _ _ => .ok one1) ⟨rfl, rfl⟩ hd
  obtain ⟨K, k1, k2, k3, k4⟩ := h3 hsteer one1 rfl
  refine ⟨K, k1, k2, k3, ?_⟩
  have := (k4 (fun _ => 1) (fun _ _ => -1 / 2) 1).2.1 (by
    simp only [lqCost, half1_quad, one1_quad, Finset.sum_range_one]
    simp [Spec.traj, Spec.affine, integrator, one1]
    norm_num) 0 (by norm_num) 0 (by norm_num)
  simp [rowVal, k3, Spec.traj] at this
  linarith

/-- the hypotheses of C67 are met -/
example : ∃ dare : Mat ℝ → Mat ℝ → Mat ℝ → Mat ℝ → Py (Mat ℝ),
    (∀ P, dare integrator.A integrator.B half1 one1 = .ok P → DareSpec 1 1 integrator.A integrator.B half1 one1 P) ∧
    ∃ K, (LinearSystem.solve_dare dare half1 one1 integrator).1 = .ok (one1, K) ∧
      (problem integrator 3 half1 one1 one1 boxXU interval1).TerminalInvariant K := by
  obtain ⟨dare, hd, K, k1, -, k3, hK⟩ := integrator_dare
  refine ⟨dare, hd, K, k1, ?_⟩
  have e : ∀ x, ∀ s < 1, LinOcp.gain K x s = LinOcp.gain gain1 x s := by
    intro x s hs
    obtain rfl : s = 0 := by omega
    simp [LinOcp.gain, rowVal, k3, gain1, hK]
  have hp := problem_shape (integrator_args 3 (by norm_num)).toMpcSizes
  intro x hx
  obtain ⟨g1, g2⟩ := integrator_invariant 3 x hx
  refine ⟨(LinOcp.stage_congr hp (fun _ _ => rfl) (e x)).2 g1, ?_⟩
  rw [LinOcp.next_congr hp (fun _ _ => rfl) (e x)]
  exact g2

/-! ### a feasible problem without an answer -/

/-- `u ≥ 1e8` -/
def farInputs : Poly := Poly.fresh ⟨1, 2, fun _ j => if j = 0 then 0 else -1⟩ ⟨1, fun _ => -1e8⟩ (Mat.zeros 0 2) (Vec.zeros 0)

/-- the real line -/
def line1 : Poly := Poly.fresh (Mat.zeros 0 1) (Vec.zeros 0) (Mat.zeros 0 1) (Vec.zeros 0)

/-- C64_no_rows on the integrator without constraints -/
example (L : Lib) (hL : LibSpec L) : ∃ c, MPC.init integrator 3 half1 one1 one1 (Poly.fresh (Mat.zeros 0 2) (Vec.zeros 0) (Mat.zeros 0 2) (Vec.zeros 0)) line1
    = .ok c ∧ c.feedforward L ⟨1, fun _ => 1⟩ = .error .runtimeError := by
  have h := integrator_args 3 (by norm_num)
  obtain ⟨c, h1, h2⟩ := C64_no_rows L hL integrator 3 half1 one1 one1 (Poly.fresh (Mat.zeros 0 2) (Vec.zeros 0) (Mat.zeros 0 2) (Vec.zeros 0)) line1
    ⟨h.sys, h.N, h.w, ⟨rfl, rfl⟩, ⟨rfl, rfl⟩⟩ rfl rfl
  exact ⟨c, h1, (h2 _ rfl).2⟩

/-- C64 is false: a controller that returns `(None, None)` although there are optimal inputs -/
theorem C64_false : ∃ (S : LinearSystem) (N : ℕ) (Q R P : Mat ℝ) (D X_N : Poly) (x : Vec ℝ), MpcArgs S N Q R P D X_N ∧ x.n = S.nx ∧
    (∃ u, (problem S N Q R P D X_N).Opt x.e u) ∧
    ∀ L, LibSpec L → ∃ c, MPC.init S N Q R P D X_N = .ok c ∧ c.feedforward L x = .ok (none, none) := by
  have hargs : MpcArgs integrator 1 (Mat.zeros 1 1) one1 (Mat.zeros 1 1) farInputs line1 :=
    ⟨⟨⟨rfl, rfl, rfl, rfl, rfl⟩, one_pos, ⟨⟨rfl, rfl, fun _ _ _ _ => rfl⟩, ⟨rfl, rfl, fun _ _ _ _ => rfl⟩, weights1.symR,
      fun x => by simp [quad, Mat.zeros], fun x => by simp [quad, Mat.zeros], weights1.Rpos⟩, ⟨rfl, rfl⟩, ⟨rfl, rfl⟩⟩, .inl one_pos⟩
  set p := problem integrator 1 (Mat.zeros 1 1) one1 (Mat.zeros 1 1) farInputs line1 with hp
  have hcost : ∀ x u, p.cost x u = (u 0 0) ^ 2 / 2 := by
    intro x u
    rw [LinOcp.cost_eq]
    simp only [hp, problem, LinOcp.stageCost, one1_quad, Finset.sum_range_one]
    simp [quad, Mat.zeros]
    ring
  have hfeas : ∀ x u, p.Feas x u ↔ 1e8 ≤ u 0 0 := by
    intro x u
    have e : rowVal farInputs.A 0 (pair 1 x (u 0)) = -u 0 0 := by
      simp [farInputs, Poly.fresh, rowVal, pair, Finset.sum_range_succ]
    constructor
    · intro h
      have h1 := h.1 0 one_pos 0 (by show 0 < 1; omega)
      change rowVal farInputs.A 0 (pair 1 x (u 0)) ≤ -1e8 at h1
      rw [e] at h1
      linarith
    · intro h
      refine ⟨fun t ht i hi => ?_, fun i hi => absurd hi (Nat.not_lt_zero i)⟩
      obtain rfl : t = 0 := by have : t < 1 := ht; omega
      obtain rfl : i = 0 := by have : i < 1 := hi; omega
      show rowVal farInputs.A 0 (pair 1 x (u 0)) ≤ -1e8
      rw [e]
      linarith
  have hopt : ∀ x, p.Opt x fun _ _ => 1e8 := by
    intro x
    refine ⟨(hfeas _ _).2 le_rfl, fun u' hu' => ?_⟩
    rw [hcost, hcost]
    have := (hfeas _ _).1 hu'
    nlinarith
  refine ⟨_, _, _, _, _, _, _, ⟨1, fun _ => 0⟩, hargs, rfl, ⟨_, hopt _⟩, fun L hL => ?_⟩
  obtain ⟨c, h1, h2⟩ := C64_partial L hL _ _ _ _ _ _ _ hargs
  refine ⟨c, h1, (h2 ⟨1, fun _ => 0⟩ rfl).2.1.2 (.inr ⟨_, fun _ _ => 0, hopt _, fun u' => ?_, ?_⟩)⟩
  · rw [← hp, hcost, hcost]
    simp only [ne_eq, OfNat.ofNat_ne_zero, not_false_eq_true, zero_pow, zero_div]
    positivity
  · rw [← hp, hcost, hcost]
    norm_num

end Verif.Props
