import Mathlib.Analysis.Normed.Algebra.MatrixExponential
import Mathlib.Analysis.SpecialFunctions.Exponential
import Mathlib.Analysis.Calculus.MeanValue
import Mathlib.Analysis.Calculus.Deriv.Pi
import Mathlib.Analysis.Calculus.Deriv.Mul
import Mathlib.Topology.Algebra.Module.FiniteDimension

/- Linear differential equations with constant coefficients and the matrix exponential. -/
namespace Verif.Math
open Matrix NormedSpace Set

section
attribute [local instance] Matrix.linftyOpNormedRing Matrix.linftyOpNormedAlgebra
variable {k : ℕ}

theorem hasDerivAt_exp_entry (M : Matrix (Fin k) (Fin k) ℝ) (t : ℝ) (i j : Fin k) :
    HasDerivAt (fun s : ℝ => exp (s • M) i j) ((exp (t • M) * M) i j) t := by
  have h := hasDerivAt_exp_smul_const (𝕂 := ℝ) M t
  let f : Matrix (Fin k) (Fin k) ℝ →L[ℝ] ℝ := LinearMap.toContinuousLinearMap
    { toFun := fun A => A i j, map_add' := fun _ _ => rfl, map_smul' := fun _ _ => rfl }
  exact f.hasFDerivAt.comp_hasDerivAt t h

theorem exp_smul_mul_comm (M : Matrix (Fin k) (Fin k) ℝ) (t : ℝ) : exp (t • M) * M = M * exp (t • M) :=
  ((Commute.refl M).smul_right t).exp_right.symm

theorem exp_neg_smul (M : Matrix (Fin k) (Fin k) ℝ) (t : ℝ) : exp (t • -M) * exp (t • M) = 1 := by
  rw [← Matrix.exp_add_of_commute]
  · simp
  · exact (((Commute.refl M).neg_left).smul_left t).smul_right t

theorem exp_add_smul (M : Matrix (Fin k) (Fin k) ℝ) (s t : ℝ) : exp ((s + t) • M) = exp (s • M) * exp (t • M) := by
  rw [add_smul, Matrix.exp_add_of_commute]
  exact ((Commute.refl M).smul_left s).smul_right t

/-- `exp (t M) y` solves `y' = M y` -/
theorem hasDerivAt_exp_mulVec (M : Matrix (Fin k) (Fin k) ℝ) (y : Fin k → ℝ) (t : ℝ) (i : Fin k) :
    HasDerivAt (fun s : ℝ => (exp (s • M) *ᵥ y) i) ((M *ᵥ (exp (t • M) *ᵥ y)) i) t := by
  rw [mulVec_mulVec, ← exp_smul_mul_comm]
  have h : HasDerivAt (fun s : ℝ => ∑ j, exp (s • M) i j * y j) (∑ j, (exp (t • M) * M) i j * y j) t :=
    HasDerivAt.fun_sum fun j _ => (hasDerivAt_exp_entry M t i j).mul_const _
  exact h

/-- the solution is unique -/
theorem linear_ode_unique (M : Matrix (Fin k) (Fin k) ℝ) {h : ℝ} (hh : 0 ≤ h) (Z : ℝ → Fin k → ℝ)
    (hZ : ∀ t ∈ Icc 0 h, ∀ i, HasDerivWithinAt (fun s => Z s i) ((M *ᵥ Z t) i) (Icc 0 h) t) :
    Z h = exp (h • M) *ᵥ Z 0 := by
  have hW : ∀ i, ∀ t ∈ Icc 0 h,
      HasDerivWithinAt (fun s : ℝ => (exp (s • -M) *ᵥ Z s) i) 0 (Icc 0 h) t := by
    intro i t ht
    have h1 : HasDerivWithinAt (fun s : ℝ => ∑ j, exp (s • -M) i j * Z s j)
        (∑ j, ((exp (t • -M) * -M) i j * Z t j + exp (t • -M) i j * (M *ᵥ Z t) j)) (Icc 0 h) t :=
      HasDerivWithinAt.fun_sum fun j _ => (hasDerivAt_exp_entry (-M) t i j).hasDerivWithinAt.fun_mul (hZ t ht j)
    have h2 : ∑ j, ((exp (t • -M) * -M) i j * Z t j + exp (t • -M) i j * (M *ᵥ Z t) j) = 0 := by
      rw [Finset.sum_add_distrib]
      have : ((exp (t • -M) * -M) *ᵥ Z t) i + (exp (t • -M) *ᵥ (M *ᵥ Z t)) i = 0 := by
        rw [mulVec_mulVec, ← Pi.add_apply, ← Matrix.add_mulVec, mul_neg, neg_add_cancel, zero_mulVec]; rfl
      exact this
    rw [h2] at h1
    exact h1
  have hconst : ∀ i, (exp (h • -M) *ᵥ Z h) i = (exp ((0:ℝ) • -M) *ᵥ Z 0) i := by
    intro i
    refine constant_of_derivWithin_zero (f := fun s : ℝ => (exp (s • -M) *ᵥ Z s) i) (a := 0) (b := h)
      (fun t ht => (hW i t ht).differentiableWithinAt) (fun t ht => ?_) h ⟨hh, le_rfl⟩
    have hlt : (0:ℝ) < h := ht.1.trans_lt ht.2
    exact (hW i t ⟨ht.1, ht.2.le⟩).derivWithin (uniqueDiffOn_Icc hlt t ⟨ht.1, ht.2.le⟩)
  have h3 : exp (h • -M) *ᵥ Z h = Z 0 := by
    funext i
    rw [hconst i]
    simp
  rw [← h3, mulVec_mulVec]
  have := exp_neg_smul (-M) h
  rw [neg_neg] at this
  rw [this, one_mulVec]

/-- rows of zeros of `M` give rows of the identity -/
theorem exp_row_zero (M : Matrix (Fin k) (Fin k) ℝ) {i : Fin k} (hi : ∀ j, M i j = 0) (t : ℝ) (y : Fin k → ℝ) :
    (exp (t • M) *ᵥ y) i = y i := by
  have hd : ∀ s : ℝ, HasDerivAt (fun s : ℝ => (exp (s • M) *ᵥ y) i) 0 s := by
    intro s
    have h := hasDerivAt_exp_mulVec M y s i
    have : (M *ᵥ (exp (s • M) *ᵥ y)) i = 0 := by
      simp [Matrix.mulVec, dotProduct, hi]
    rwa [this] at h
  have := is_const_of_deriv_eq_zero (fun s => (hd s).differentiableAt) (fun s => (hd s).deriv) t 0
  rw [this]
  simp

end
end Verif.Math
