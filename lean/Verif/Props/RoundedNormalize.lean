import Verif.Props.RoundedContains

/- `normalize` in floating point arithmetic. -/
namespace Verif.Props
open Finset Spec

/-- C166: after `normalize` in floating point arithmetic each inequality (or equality) is a positive multiple `1 / r` of the original one, up to the relative error `u` of its terms (and the absolute
errors below the smallest numbers), even if `r` is a bad approximation of the norm.  So a point of the normalized set violates the original inequality by at most this error, and a point that satisfies the original
one with this margin satisfies the normalized one. -/
theorem C166 (fl : ℝ → ℝ) (u η : ℝ) (hr : Rounds fl u η) (tol : ℝ) (ht : 0 ≤ tol) (A A' : Mat ℝ) (b b' : Vec ℝ) (h : Fl.NormalizeRows fl tol A b A' b') (i : ℕ) (hi : i < A.nr) :
    ∃ r > 0, ∀ x : ℕ → ℝ,
      |r * (rowVal A' i x - b'.e i) - (rowVal A i x - b.e i)| ≤ u * (∑ j ∈ range A.nc, |A.e i j * x j| + |b.e i|) + r * η * (∑ j ∈ range A.nc, |x j| + 1) ∧
      (rowVal A' i x ≤ b'.e i → rowVal A i x ≤ b.e i + (u * (∑ j ∈ range A.nc, |A.e i j * x j| + |b.e i|) + r * η * (∑ j ∈ range A.nc, |x j| + 1))) ∧
      (rowVal A i x + (u * (∑ j ∈ range A.nc, |A.e i j * x j| + |b.e i|) + r * η * (∑ j ∈ range A.nc, |x j| + 1)) ≤ b.e i → rowVal A' i x ≤ b'.e i) := by
  obtain ⟨-, h1, -, h2⟩ := h
  have hu := hr.u0
  have hη := hr.η0
  have key : ∃ r > 0, ∀ x : ℕ → ℝ,
      |r * (rowVal A' i x - b'.e i) - (rowVal A i x - b.e i)| ≤ u * (∑ j ∈ range A.nc, |A.e i j * x j| + |b.e i|) + r * η * (∑ j ∈ range A.nc, |x j| + 1) := by
    have hterm : ∀ r > tol, ∀ a : ℝ, |r * fl (a / r) - a| ≤ u * |a| + r * η := fun r hrt a => by
      have hr0 : 0 < r := ht.trans_lt hrt
      have k := hr.err (a / r)
      have k1 := mul_le_mul_of_nonneg_left k hr0.le
      rw [← abs_of_pos hr0, ← abs_mul, abs_of_pos hr0, mul_sub, mul_div_cancel₀ _ hr0.ne', abs_div, abs_of_pos hr0] at k1
      have e : r * (u * (|a| / r) + η) = u * |a| + r * η := by field_simp
      rwa [e] at k1
    rcases h2 i hi with ⟨g1, g2⟩ | ⟨r, hrt, g1, g2⟩
    · refine ⟨1, one_pos, fun x => ?_⟩
      have e1 : rowVal A' i x = rowVal A i x := by
        unfold rowVal
        rw [h1]
        exact Finset.sum_congr rfl fun j hj => by rw [g1 j (mem_range.1 hj)]
      rw [e1, g2, one_mul, sub_self, abs_zero]
      have : 0 ≤ ∑ j ∈ range A.nc, |A.e i j * x j| := Finset.sum_nonneg fun _ _ => abs_nonneg _
      have : 0 ≤ ∑ j ∈ range A.nc, |x j| := Finset.sum_nonneg fun _ _ => abs_nonneg _
      positivity
    · have hr0 : 0 < r := ht.trans_lt hrt
      refine ⟨r, hr0, fun x => ?_⟩
      have e1 : r * (rowVal A' i x - b'.e i) - (rowVal A i x - b.e i) = ∑ j ∈ range A.nc, (r * fl (A.e i j / r) - A.e i j) * x j - (r * fl (b.e i / r) - b.e i) := by
        unfold rowVal
        rw [h1, g2, mul_sub, Finset.mul_sum]
        rw [Finset.sum_congr rfl fun j hj => by rw [g1 j (mem_range.1 hj)]]
        have : ∑ j ∈ range A.nc, (r * fl (A.e i j / r) - A.e i j) * x j = ∑ j ∈ range A.nc, r * (fl (A.e i j / r) * x j) - ∑ j ∈ range A.nc, A.e i j * x j := by
          rw [← Finset.sum_sub_distrib]
          exact Finset.sum_congr rfl fun j _ => by ring
        rw [this]
        ring
      rw [e1]
      refine (abs_sub _ _).trans ?_
      have e2 : |∑ j ∈ range A.nc, (r * fl (A.e i j / r) - A.e i j) * x j| ≤ ∑ j ∈ range A.nc, (u * |A.e i j * x j| + r * η * |x j|) := by
        refine (Finset.abs_sum_le_sum_abs _ _).trans (Finset.sum_le_sum fun j _ => ?_)
        rw [abs_mul, abs_mul]
        have := mul_le_mul_of_nonneg_right (hterm r hrt (A.e i j)) (abs_nonneg (x j))
        linarith
      rw [Finset.sum_add_distrib, ← Finset.mul_sum, ← Finset.mul_sum] at e2
      have := hterm r hrt (b.e i)
      linarith
  obtain ⟨r, hr0, hx⟩ := key
  refine ⟨r, hr0, fun x => ⟨hx x, fun h => ?_, fun h => ?_⟩⟩
  · have k1 := (abs_le.1 (hx x)).1
    have k2 : r * (rowVal A' i x - b'.e i) ≤ 0 := mul_nonpos_of_nonneg_of_nonpos hr0.le (by linarith)
    linarith
  · have k1 := (abs_le.1 (hx x)).2
    have k2 : r * (rowVal A' i x - b'.e i) ≤ 0 := by linarith
    have := nonpos_of_mul_nonpos_right k2 hr0
    linarith

/-- the row `3 x0 + 4 x1 ≤ 1` divided by 5 in double precision -/
example : ∃ (A' : Mat ℝ) (b' : Vec ℝ), Fl.NormalizeRows (binary 52) 1e-7 ⟨1, 2, fun _ j => if j = 0 then 3 else 4⟩ ⟨1, fun _ => 1⟩ A' b' ∧ A'.e 0 0 = binary 52 (3 / 5) :=
  ⟨⟨1, 2, fun _ j => binary 52 ((if j = 0 then 3 else 4) / 5)⟩, ⟨1, fun _ => binary 52 (1 / 5)⟩,
    ⟨rfl, rfl, rfl, fun _ _ => .inr ⟨5, by norm_num, fun _ _ => rfl, rfl⟩⟩, rfl⟩

end Verif.Props
