import Verif.Props.LqrTest
import Verif.Props.MpcStabilityExamples
import Mathlib.Algebra.Order.Ring.Pow

/- Systems on which the test of the linear quadratic regulator fails, and one on which it passes: C180 of properties.jsonl. -/
namespace Verif.Props
open Finset Spec Dyn Control Filter Topology TestSuite

/-- the system `x⁺ = a x + b u` -/
def scal (a b : ℝ) : LinearSystem := ⟨⟨1, 1, fun _ _ => a⟩, ⟨1, 1, fun _ _ => b⟩, 1, 1, none⟩

theorem scal_quad (p : ℝ) (x : ℕ → ℝ) : quad ⟨1, 1, fun _ _ => p⟩ x = p * x 0 ^ 2 := by
  simp only [quad, Finset.sum_range_one]
  ring

theorem scal_args (a b : ℝ) : DareArgs (scal a b) one1 one1 :=
  ⟨⟨rfl, rfl, rfl, rfl, rfl⟩, rfl, one_pos, weights1.symR, weights1.symR, weights1.Rpos, weights1.Rpos⟩

/-- the Riccati equation of `x⁺ = a x + b u` with weights `1` -/
theorem scal_dare (a b p k : ℝ) (hb : b ≠ 0) (hp : 0 ≤ p) (h1 : p = 1 + a * p * a - a * p * b * (b * p * b + 1)⁻¹ * (b * p * a))
    (h2 : 1 + k ^ 2 + p * (a + b * k) ^ 2 = p) : ∃ dare : Mat ℝ → Mat ℝ → Mat ℝ → Mat ℝ → Py (Mat ℝ),
    (∀ P, dare (scal a b).A (scal a b).B one1 one1 = .ok P → DareSpec 1 1 (scal a b).A (scal a b).B one1 one1 P) ∧
    ∃ K, (LinearSystem.solve_dare dare one1 one1 (scal a b)).1 = .ok (⟨1, 1, fun _ _ => p⟩, K) ∧ K.nr = 1 ∧ K.nc = 1 ∧ K.e 0 0 = k := by
  have hspec : DareSpec 1 1 (scal a b).A (scal a b).B one1 one1 ⟨1, 1, fun _ _ => p⟩ := by
    refine ⟨⟨rfl, rfl, fun _ _ _ _ => rfl⟩, fun x => by rw [scal_quad]; positivity, ?_⟩
    intro A' B' P'
    funext i j
    fin_cases i; fin_cases j
    simp [A', B', P', scal, one1, Matrix.mul_apply, Mat.asM, Matrix.transpose]
    linarith
  have hsteer : Steerable 1 (scal a b).A (scal a b).B 1 := fun x y => ⟨fun _ _ => (y 0 - a * x 0) / b, fun i hi => by
    obtain rfl : i = 0 := by omega
    simp [Spec.traj, Spec.affine, scal]
    field_simp
    ring⟩
  have hd : ∀ P, (fun _ _ _ _ => Except.ok ⟨1, 1, fun _ _ => p⟩ : Mat ℝ → Mat ℝ → Mat ℝ → Mat ℝ → Py (Mat ℝ)) (scal a b).A (scal a b).B one1 one1 = .ok P →
      DareSpec 1 1 (scal a b).A (scal a b).B one1 one1 P := fun P hP => by
    injection hP with hP; rw [← hP]; exact hspec
  refine ⟨fun _ _ _ _ => .ok ⟨1, 1, fun _ _ => p⟩, hd, ?_⟩
  obtain ⟨-, -, h3⟩ := C53 1 1 (scal a b).A (scal a b).B one1 one1 rfl rfl rfl rfl one_pos one_pos weights1.symR weights1.Rpos
    (fun _ _ _ _ => .ok ⟨1, 1, fun _ _ => p⟩) ⟨rfl, rfl⟩ hd
  obtain ⟨K, k1, k2, k3, k4⟩ := h3 hsteer ⟨1, 1, fun _ _ => p⟩ rfl
  refine ⟨K, k1, k2, k3, ?_⟩
  have := (k4 (fun _ => 1) (fun _ _ => k) 1).2.1 (by
    simp only [lqCost, scal_quad, one1_quad, Finset.sum_range_one]
    simp [Spec.traj, Spec.affine, scal]
    linarith) 0 (by norm_num) 0 (by norm_num)
  simp [rowVal, k3, Spec.traj] at this
  linarith

/-- the closed loop of `x⁺ = a x + b u` -/
theorem scal_traj (a b : ℝ) {K : Mat ℝ} {k : ℝ} (hk : K.e 0 0 = k) : ClosedLoopTraj (scal a b) K (fun _ => 1) fun t _ => (a + b * k) ^ t :=
  ⟨fun _ _ => pow_zero _, fun t i _ => by
    show (a + b * k) ^ (t + 1) = ∑ j ∈ range 1, a * (a + b * k) ^ t + ∑ s ∈ range 1, b * ∑ j ∈ range 1, K.e s j * (a + b * k) ^ t
    simp only [Finset.sum_range_one, hk]
    ring⟩

/-- C180 fails for some controllable systems: `x⁺ = u` reaches the origin in one step, so `x P x` does not decrease strictly for ten steps; and there
is a system so slow that 1000 steps do not suffice for the cost to go. -/
theorem C180_false :
    (∃ S dare P K, DareArgs S one1 one1 ∧ (∀ P, dare S.A S.B one1 one1 = .ok P → DareSpec S.nx S.nu S.A S.B one1 one1 P) ∧
      (LinearSystem.solve_dare dare one1 one1 S).1 = .ok (P, K) ∧
      checkLyapunov S P K ⟨1, fun _ => 1⟩ 10 = .error .assertionError ∧ checkCostToGo S one1 one1 P K ⟨1, fun _ => 1⟩ 1000 = .ok ()) ∧
    ∃ S dare P K, DareArgs S one1 one1 ∧ (∀ P, dare S.A S.B one1 one1 = .ok P → DareSpec S.nx S.nu S.A S.B one1 one1 P) ∧
      (LinearSystem.solve_dare dare one1 one1 S).1 = .ok (P, K) ∧
      checkLyapunov S P K ⟨1, fun _ => 1⟩ 10 = .ok () ∧ checkCostToGo S one1 one1 P K ⟨1, fun _ => 1⟩ 1000 = .error .assertionError := by
  constructor
  · obtain ⟨dare, hd, K, hK, -, -, k0⟩ := scal_dare 0 1 1 0 one_ne_zero zero_le_one (by norm_num) (by norm_num)
    have ht := scal_traj 0 1 k0
    refine ⟨scal 0 1, dare, _, K, scal_args 0 1, hd, hK, ?_, ?_⟩
    · rw [checkLyapunov_iff (scal_args 0 1) hd hK (x0 := ⟨1, fun _ => 1⟩) rfl ht (by norm_num), if_neg]
      intro hc
      obtain ⟨i, -, hi⟩ := hc 1 (by norm_num)
      exact hi (by norm_num)
    · rw [checkCostToGo_iff (scal_args 0 1) hd hK (x0 := ⟨1, fun _ => 1⟩) rfl ht 999, if_pos]
      simp only [scal_quad]
      norm_num
  · obtain ⟨dare, hd, K, hK, -, -, k0⟩ := scal_dare 1 (((1.0001 : ℝ) ^ 2 - 1) / 1.0001) (1.0001 ^ 2 / (1.0001 ^ 2 - 1)) (-1 / 1.0001) (by norm_num) (by norm_num)
      (by norm_num) (by norm_num)
    have ht := scal_traj 1 (((1.0001 : ℝ) ^ 2 - 1) / 1.0001) k0
    have ea : (1 : ℝ) + ((1.0001 : ℝ) ^ 2 - 1) / 1.0001 * (-1 / 1.0001) = (10000 / 10001) ^ 2 := by norm_num
    rw [ea] at ht
    refine ⟨scal 1 (((1.0001 : ℝ) ^ 2 - 1) / 1.0001), dare, _, K, scal_args _ _, hd, hK, ?_, ?_⟩
    · rw [checkLyapunov_iff (scal_args _ _) hd hK (x0 := ⟨1, fun _ => 1⟩) rfl ht (by norm_num), if_pos]
      exact fun t _ => ⟨0, one_pos, by positivity⟩
    · rw [checkCostToGo_iff (scal_args _ _) hd hK (x0 := ⟨1, fun _ => 1⟩) rfl ht 999, if_neg]
      simp only [scal_quad]
      have e : (((10000 : ℝ) / 10001) ^ 2) ^ 999 = (10000 / 10001) ^ 1998 := by rw [← pow_mul]
      have e2 : ((((10000 : ℝ) / 10001) ^ 2) ^ 999) ^ 2 = (10000 / 10001) ^ 3996 := by rw [e, ← pow_mul]
      rw [e2]
      have hb := one_add_mul_le_pow (a := (-1 / 10001 : ℝ)) (by norm_num) 3996
      rw [show (1 : ℝ) + -1 / 10001 = 10000 / 10001 by norm_num] at hb
      have hb2 : (0.5 : ℝ) ≤ (10000 / 10001) ^ 3996 := le_trans (by norm_num) hb
      clear hb
      generalize ((10000 : ℝ) / 10001) ^ 3996 = r at hb2
      norm_num at hb2 ⊢
      linarith

/-- the hypotheses of C180_partial are met by `x⁺ = x + u` with `Q = 1/2`, `R = 1`, and the test passes -/
example : ∃ dare P K eig l, DareArgs integrator half1 one1 ∧
    (∀ P, dare integrator.A integrator.B half1 one1 = .ok P → DareSpec integrator.nx integrator.nu integrator.A integrator.B half1 one1 P) ∧
    (LinearSystem.solve_dare dare half1 one1 integrator).1 = .ok (P, K) ∧ eig P = .ok l ∧ RealEigs integrator.nx P l ∧
    lqrBody dare eig integrator half1 one1 ⟨1, fun _ => 1⟩ ⟨1, fun _ => 3⟩ 10 1000 = .ok () := by
  obtain ⟨dare, hd, K, hK, -, -, k0⟩ := integrator_dare
  have ht : ∀ c : ℝ, ClosedLoopTraj integrator K (fun _ => c) fun t _ => c * (1 / 2) ^ t := fun c =>
    ⟨fun _ _ => by simp, fun t i _ => by
      show c * (1 / 2) ^ (t + 1) = ∑ j ∈ range 1, 1 * (c * (1 / 2) ^ t) + ∑ s ∈ range 1, 1 * ∑ j ∈ range 1, K.e s j * (c * (1 / 2) ^ t)
      simp only [Finset.sum_range_one, k0]
      ring⟩
  have he : RealEigs integrator.nx one1 [1] := ⟨by simp, fun a ha => ⟨fun _ => 1, ⟨0, one_pos, one_ne_zero⟩, fun i _ => by
    obtain rfl := List.mem_singleton.1 ha
    simp [rowVal, one1]⟩⟩
  refine ⟨dare, one1, K, fun _ => .ok [1], [1], integrator_dareArgs, hd, hK, rfl, he, ?_⟩
  refine (C180_partial integrator half1 one1 one1 K integrator_dareArgs dare hd hK (fun _ => .ok [1]) [1] rfl he ⟨1, fun _ => 1⟩ ⟨1, fun _ => 3⟩ rfl rfl
    _ _ (ht 1) (ht 3)).2.2.2.1 (fun z => ?_) fun t _ => ⟨0, one_pos, by positivity⟩
  rw [one1_quad, half1_quad]
  have := _root_.sq_nonneg (z 0)
  linarith

end Verif.Props
