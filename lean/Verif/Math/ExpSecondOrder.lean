import Verif.Math.LinearOde
import Mathlib.Analysis.Calculus.MeanValue
import Mathlib.Topology.Order.Compact

/- The matrix exponential is `1 + h M` up to `O(h²)`. -/
namespace Verif.Math
open Matrix NormedSpace Set Finset

variable {k : ℕ}

theorem exp_entry_bound (M : Matrix (Fin k) (Fin k) ℝ) (H : ℝ) (i j : Fin k) :
    ∃ K, 0 ≤ K ∧ ∀ h ∈ Icc 0 H, |exp (h • M) i j - ((1 : Matrix (Fin k) (Fin k) ℝ) i j + h * M i j)| ≤ K * h ^ 2 := by
  have d1 : ∀ s : ℝ, HasDerivAt (fun s : ℝ => exp (s • M) i j) ((exp (s • M) * M) i j) s := fun s => hasDerivAt_exp_entry M s i j
  have d2 : ∀ s : ℝ, HasDerivAt (fun s : ℝ => (exp (s • M) * M) i j) ((exp (s • M) * M * M) i j) s := by
    intro s
    have h : HasDerivAt (fun s : ℝ => ∑ l, exp (s • M) i l * M l j) (∑ l, (exp (s • M) * M) i l * M l j) s :=
      HasDerivAt.fun_sum fun l _ => (hasDerivAt_exp_entry M s i l).mul_const _
    exact h
  have d3 : Continuous fun s : ℝ => (exp (s • M) * M * M) i j := by
    have h : Continuous fun s : ℝ => ∑ l, (∑ r, exp (s • M) i r * M r l) * M l j := by
      refine continuous_finsetSum _ fun l _ => ((continuous_finsetSum _ fun r _ => ?_).mul continuous_const)
      exact (continuous_iff_continuousAt.2 fun s => (hasDerivAt_exp_entry M s i r).continuousAt).mul continuous_const
    exact h
  obtain ⟨K, hK⟩ := (isCompact_Icc (a := (0 : ℝ)) (b := H)).exists_bound_of_continuousOn d3.continuousOn
  refine ⟨max K 0, le_max_right _ _, fun h hh => ?_⟩
  have b1 : ∀ s ∈ Icc 0 h, |(exp (s • M) * M) i j - M i j| ≤ max K 0 * h := by
    intro s hs
    have := (convex_Icc (0 : ℝ) h).norm_image_sub_le_of_norm_hasDerivWithin_le (f := fun s : ℝ => (exp (s • M) * M) i j)
      (C := max K 0) (fun t _ => (d2 t).hasDerivWithinAt) (fun t ht => (hK t ⟨ht.1, ht.2.trans hh.2⟩).trans (le_max_left _ _))
      (left_mem_Icc.2 hh.1) hs
    simp only [zero_smul, exp_zero, one_mul, Real.norm_eq_abs, sub_zero] at this
    refine this.trans ?_
    rw [abs_of_nonneg hs.1]
    exact mul_le_mul_of_nonneg_left hs.2 (le_max_right _ _)
  have b2 := (convex_Icc (0 : ℝ) h).norm_image_sub_le_of_norm_hasDerivWithin_le (f := fun s : ℝ => exp (s • M) i j - s * M i j)
      (f' := fun s => (exp (s • M) * M) i j - M i j) (C := max K 0 * h)
      (fun t _ => by
        have := (d1 t).sub ((hasDerivAt_id t).mul_const (M i j))
        rw [one_mul] at this
        exact this.hasDerivWithinAt) (fun t ht => b1 t ht)
      (left_mem_Icc.2 hh.1) (right_mem_Icc.2 hh.1)
  simp only [zero_smul, exp_zero, zero_mul, sub_zero, Real.norm_eq_abs, abs_of_nonneg hh.1] at b2
  calc _ = |exp (h • M) i j - h * M i j - (1 : Matrix (Fin k) (Fin k) ℝ) i j| := by congr 1; ring
    _ ≤ _ := b2
    _ = _ := by ring

/-- one constant for all entries -/
theorem exp_second_order (M : Matrix (Fin k) (Fin k) ℝ) (H : ℝ) :
    ∃ K, 0 ≤ K ∧ ∀ h ∈ Icc 0 H, ∀ i j, |exp (h • M) i j - ((1 : Matrix (Fin k) (Fin k) ℝ) i j + h * M i j)| ≤ K * h ^ 2 := by
  choose K hK hb using exp_entry_bound M H
  refine ⟨∑ i, ∑ j, K i j, Finset.sum_nonneg fun i _ => Finset.sum_nonneg fun j _ => hK i j, fun h hh i j => (hb i j h hh).trans ?_⟩
  refine mul_le_mul_of_nonneg_right ?_ (sq_nonneg h)
  exact (Finset.single_le_sum (f := fun j => K i j) (fun j _ => hK i j) (mem_univ j)).trans
    (Finset.single_le_sum (f := fun i => ∑ j, K i j) (fun i _ => Finset.sum_nonneg fun j _ => hK i j) (mem_univ i))

end Verif.Math
