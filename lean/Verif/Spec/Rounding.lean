import Mathlib.Data.Real.Basic
import Mathlib.Algebra.Order.Round
import Mathlib.Data.Int.Log
import Mathlib.Tactic.Positivity
import Mathlib.Tactic.Linarith
import Mathlib.Tactic.Ring
import Mathlib.Data.Real.Archimedean

/- The standard model of floating point arithmetic. -/
namespace Verif.Spec

/-- `fl` rounds to a floating point number: the relative error is at most `u`, and `η` is the absolute error of the numbers too small to have one (`u = 2^-53` and `η = 2^-1075` in
double precision).  There is no overflow: the numbers that arise are not too large. -/
structure Rounds (fl : ℝ → ℝ) (u η : ℝ) : Prop where
  u0 : 0 ≤ u
  η0 : 0 ≤ η
  err : ∀ x, |fl x - x| ≤ u * |x| + η

/-- `x` rounded to `p` binary digits after the leading one -/
noncomputable def binary (p : ℕ) (x : ℝ) : ℝ := round (x / 2 ^ (Int.log 2 |x| - p)) * 2 ^ (Int.log 2 |x| - p)

/-- rounding to 53 binary digits has relative error `2^-53` -/
theorem binary_rounds (p : ℕ) : Rounds (binary p) (2⁻¹ ^ (p + 1)) 0 := by
  refine ⟨by positivity, le_rfl, fun x => ?_⟩
  rcases eq_or_ne x 0 with rfl | hx
  · simp [binary]
  have hx' : 0 < |x| := abs_pos.2 hx
  set e : ℤ := Int.log 2 |x| - p with he
  have h2 : (0 : ℝ) < 2 ^ e := zpow_pos two_pos _
  have h1 := abs_sub_round (x / 2 ^ e)
  have e1 : binary p x - x = -((x / 2 ^ e - round (x / 2 ^ e)) * 2 ^ e) := by
    unfold binary
    rw [← he, sub_mul, div_mul_cancel₀ _ h2.ne']
    ring
  rw [e1, abs_neg, abs_mul, abs_of_pos h2, add_zero]
  have h3 : (2 : ℝ) ^ (Int.log 2 |x|) ≤ |x| := by
    have := Int.zpow_log_le_self (b := 2) (r := |x|) one_lt_two hx'
    exact_mod_cast this
  have h4 : (2 : ℝ) ^ e = 2 ^ (Int.log 2 |x|) * 2⁻¹ ^ p := by
    rw [he, zpow_sub₀ two_ne_zero, zpow_natCast, inv_pow, div_eq_mul_inv]
  calc |x / 2 ^ e - round (x / 2 ^ e)| * 2 ^ e ≤ 1 / 2 * (2 ^ (Int.log 2 |x|) * 2⁻¹ ^ p) := by
        rw [← h4]; exact mul_le_mul_of_nonneg_right h1 h2.le
    _ ≤ 1 / 2 * (|x| * 2⁻¹ ^ p) := by
        have : (0 : ℝ) ≤ 2⁻¹ ^ p := by positivity
        have := mul_le_mul_of_nonneg_right h3 this
        linarith
    _ = 2⁻¹ ^ (p + 1) * |x| := by rw [pow_succ]; ring

end Verif.Spec
