import Verif.Spec.Control
import Mathlib.Topology.MetricSpace.ProperSpace
import Mathlib.Analysis.Normed.Group.Constructions
import Mathlib.Analysis.Normed.Module.Basic
import Mathlib.Topology.Order.Compact
import Mathlib.Analysis.Normed.Module.FiniteDimension
import Mathlib.Analysis.SpecificLimits.Basic
import Mathlib.Topology.Algebra.InfiniteSum.Real

/- Positive definite quadratic forms and the limits of their arguments. -/
namespace Verif.Math
open Finset Spec Filter Topology

/-- the quadratic form depends on the first entries -/
theorem quad_congr_lt {n : ℕ} {Q : Mat ℝ} (h1 : Q.nr = n) (h2 : Q.nc = n) {x y : ℕ → ℝ} (h : ∀ i < n, x i = y i) : quad Q x = quad Q y := by
  unfold quad
  rw [h1, h2]
  refine Finset.sum_congr rfl fun i hi => Finset.sum_congr rfl fun j hj => ?_
  rw [h i (Finset.mem_range.1 hi), h j (Finset.mem_range.1 hj)]

theorem quad_smul {Q : Mat ℝ} (c : ℝ) (x : ℕ → ℝ) : quad Q (fun i => c * x i) = c ^ 2 * quad Q x := by
  unfold quad
  rw [Finset.mul_sum]
  refine Finset.sum_congr rfl fun i _ => ?_
  rw [Finset.mul_sum]
  exact Finset.sum_congr rfl fun j _ => by ring

/-- a positive definite form is at least a multiple of the square of every entry -/
theorem quad_lower {n : ℕ} {Q : Mat ℝ} (h1 : Q.nr = n) (h2 : Q.nc = n) (hpos : ∀ x, (∃ s < n, x s ≠ 0) → 0 < quad Q x) :
    ∃ c > 0, ∀ x, ∀ i < n, c * (x i) ^ 2 ≤ quad Q x := by
  rcases Nat.eq_zero_or_pos n with hn | hn
  · exact ⟨1, one_pos, fun x i hi => by omega⟩
  have : Nonempty (Fin n) := ⟨⟨0, hn⟩⟩
  let ext : (Fin n → ℝ) → ℕ → ℝ := fun x j => if hj : j < n then x ⟨j, hj⟩ else 0
  have hcont : Continuous fun x : Fin n → ℝ => quad Q (ext x) := by
    unfold quad
    refine continuous_finsetSum _ fun i hi => continuous_finsetSum _ fun j hj => ?_
    have hc : ∀ j, Continuous fun x : Fin n → ℝ => ext x j := by
      intro j
      by_cases hj : j < n
      · simp only [ext, hj, dite_true]; exact continuous_apply _
      · simp only [ext, hj, dite_false]; exact continuous_const
    first
      | exact ((hc i).mul continuous_const).mul (hc j)
      | exact (continuous_const.mul (hc i)).mul (hc j)
      | fun_prop
  obtain ⟨z, hz, hmin⟩ := (isCompact_sphere (0 : Fin n → ℝ) 1).exists_isMinOn (NormedSpace.sphere_nonempty.2 zero_le_one) hcont.continuousOn
  have hz1 : ‖z‖ = 1 := by simpa using hz
  have hz0 : 0 < quad Q (ext z) := by
    refine hpos _ ?_
    have : z ≠ 0 := fun h => by rw [h] at hz1; simp at hz1
    obtain ⟨k, hk⟩ := Function.ne_iff.1 this
    exact ⟨k, k.2, by simpa [ext] using hk⟩
  have hval : ∀ x : ℕ → ℝ, quad Q x = quad Q (ext fun i : Fin n => x i) := fun x =>
    quad_congr_lt h1 h2 fun i hi => by simp [ext, hi]
  refine ⟨quad Q (ext z), hz0, fun x i hi => ?_⟩
  let y : Fin n → ℝ := fun i => x i
  have hxi : |x i| ≤ ‖y‖ := by
    have := norm_le_pi_norm y ⟨i, hi⟩
    simpa [y] using this
  by_cases hy : ‖y‖ = 0
  · have : x i = 0 := abs_eq_zero.1 (le_antisymm (hy ▸ hxi) (abs_nonneg _))
    rw [this]
    have hy' : y = 0 := norm_eq_zero.1 hy
    rw [hval x, show (fun i : Fin n => x i) = 0 from hy']
    have : quad Q (ext 0) = 0 := by
      unfold quad
      refine Finset.sum_eq_zero fun i _ => Finset.sum_eq_zero fun j _ => ?_
      simp [ext]
    rw [this]; simp
  · have hyp : 0 < ‖y‖ := lt_of_le_of_ne (norm_nonneg _) (Ne.symm hy)
    have hs : (‖y‖⁻¹ • y) ∈ Metric.sphere (0 : Fin n → ℝ) 1 := by
      rw [mem_sphere_zero_iff_norm, norm_smul, norm_inv, norm_norm, inv_mul_cancel₀ hy]
    have hm : quad Q (ext z) ≤ quad Q (ext (‖y‖⁻¹ • y)) := hmin hs
    have he : quad Q (ext (‖y‖⁻¹ • y)) = (‖y‖⁻¹) ^ 2 * quad Q x := by
      rw [← quad_smul]
      exact quad_congr_lt h1 h2 fun i hi => by simp [ext, hi, y]
    rw [he] at hm
    have h3 : (x i) ^ 2 ≤ ‖y‖ ^ 2 := by
      rw [← sq_abs]; exact pow_le_pow_left₀ (abs_nonneg _) hxi 2
    calc quad Q (ext z) * (x i) ^ 2 ≤ quad Q (ext z) * ‖y‖ ^ 2 := mul_le_mul_of_nonneg_left h3 hz0.le
      _ ≤ (‖y‖⁻¹) ^ 2 * quad Q x * ‖y‖ ^ 2 := mul_le_mul_of_nonneg_right hm (sq_nonneg _)
      _ = quad Q x := by field_simp

/-- if the values of a positive definite form go to zero then so do the arguments -/
theorem tendsto_of_quad {n : ℕ} {Q : Mat ℝ} (h1 : Q.nr = n) (h2 : Q.nc = n) (hpos : ∀ x, (∃ s < n, x s ≠ 0) → 0 < quad Q x)
    {x : ℕ → ℕ → ℝ} (h : Tendsto (fun t => quad Q (x t)) atTop (𝓝 0)) : ∀ i < n, Tendsto (fun t => x t i) atTop (𝓝 0) := by
  intro i hi
  obtain ⟨c, hc, hb⟩ := quad_lower h1 h2 hpos
  have h3 : Tendsto (fun t => (x t i) ^ 2) atTop (𝓝 0) := by
    refine squeeze_zero (fun t => sq_nonneg _) (fun t => ?_) (by simpa using h.const_mul c⁻¹)
    rw [← div_eq_inv_mul, le_div_iff₀ hc, mul_comm]
    exact hb _ i hi
  have h4 := h3.sqrt
  simp only [Real.sqrt_zero, Real.sqrt_sq_eq_abs] at h4
  exact (tendsto_zero_iff_abs_tendsto_zero _).2 h4

/-- nonnegative terms with bounded sums go to zero -/
theorem tendsto_of_sum_le {f : ℕ → ℝ} (h0 : ∀ t, 0 ≤ f t) {V : ℝ} (h : ∀ T, ∑ t ∈ range T, f t ≤ V) : Tendsto f atTop (𝓝 0) :=
  (summable_of_sum_range_le h0 h).tendsto_atTop_zero

end Verif.Math
