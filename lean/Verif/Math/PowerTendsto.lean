import Mathlib.Analysis.Normed.Algebra.GelfandFormula
import Mathlib.Analysis.Matrix.Normed
import Mathlib.Analysis.Normed.Module.FiniteDimension
import Mathlib.LinearAlgebra.Matrix.ToLinearEquiv

/- Powers of a matrix whose eigenvalues are inside the unit circle. -/
namespace Verif.Math
open Matrix Filter Topology

attribute [local instance] Matrix.linftyOpNormedRing Matrix.linftyOpNormedAlgebra

theorem pow_tendsto_of_eig {n : ℕ} [NeZero n] (M : Matrix (Fin n) (Fin n) ℂ)
    (h : ∀ (l : ℂ) (v : Fin n → ℂ), v ≠ 0 → M *ᵥ v = l • v → ‖l‖ < 1) : Tendsto (fun t : ℕ => M ^ t) atTop (𝓝 0) := by
  haveI : Nonempty (Fin n) := ⟨0⟩
  haveI : CompleteSpace (Matrix (Fin n) (Fin n) ℂ) := FiniteDimensional.complete ℂ _
  have hr : spectralRadius ℂ M < 1 := by
    have : spectralRadius ℂ M < ((1 : NNReal) : ENNReal) := by
      apply spectrum.spectralRadius_lt_of_forall_lt M
      intro l hl
      rw [spectrum.mem_iff, Matrix.isUnit_iff_isUnit_det, isUnit_iff_ne_zero, not_not] at hl
      obtain ⟨v, hv, hv0⟩ := Matrix.exists_mulVec_eq_zero_iff.2 hl
      have := h l v hv (by
        rw [Matrix.sub_mulVec, sub_eq_zero] at hv0
        rw [← hv0]
        rw [Algebra.algebraMap_eq_smul_one, Matrix.smul_mulVec, Matrix.one_mulVec])
      exact_mod_cast this
    simpa using this
  obtain ⟨q, hq1, hq2⟩ := exists_between hr
  have hlim := spectrum.pow_nnnorm_pow_one_div_tendsto_nhds_spectralRadius M
  have hev := hlim.eventually (gt_mem_nhds hq1)
  have hqt : q ≠ ⊤ := (hq2.trans ENNReal.one_lt_top).ne
  have hq : q.toReal < 1 := by
    have := (ENNReal.toReal_lt_toReal hqt ENNReal.one_ne_top).2 hq2
    simpa using this
  refine tendsto_zero_iff_norm_tendsto_zero.2 ?_
  refine squeeze_zero' (Eventually.of_forall fun _ => norm_nonneg _) ?_ (tendsto_pow_atTop_nhds_zero_of_lt_one ENNReal.toReal_nonneg hq)
  filter_upwards [hev, eventually_gt_atTop 0] with t ht ht0
  have h1 : (‖M ^ t‖₊ : ENNReal) ≤ q ^ t := by
    have h2 := ENNReal.rpow_le_rpow ht.le (Nat.cast_nonneg (α := ℝ) t)
    rw [← ENNReal.rpow_mul, one_div, inv_mul_cancel₀ (by exact_mod_cast ht0.ne'), ENNReal.rpow_one, ENNReal.rpow_natCast] at h2
    exact h2
  have h3 := ENNReal.toReal_mono (ENNReal.pow_ne_top hqt) h1
  rw [ENNReal.toReal_pow] at h3
  simpa using h3

end Verif.Math
