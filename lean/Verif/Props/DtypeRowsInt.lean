import Verif.Props.DtypeRows

/- What `same_rows` (/repo/pympc/geometry/utils.py:94-131) compares for arrays of integers with one row. -/
namespace Verif
open Finset
namespace Props
open Dtype

/-- the row of an array of integers after the loop: truncated quotients, or the integer that stands for `nan` if the row is zero -/
theorem int_row (z : ℝ) (M : Mat ℝ) (hr : M.nr = 1) : ∃ w : ℕ → ℝ,
    ((List.range 1).foldl (fun A i => Arr.normRow z A i) (Arr.of .int64 M)).rows = [some ⟨M.nc, w⟩] ∧
    ∀ j < M.nc, w j = if ∀ k < M.nc, M.e 0 k = 0 then z else Dtype.int64.store (M.e 0 j / Real.sqrt (∑ k ∈ range M.nc, M.e 0 k ^ 2)) := by
  obtain ⟨-, q2, q3, q4⟩ := normRow_foldl z (Arr.of .int64 M) 1
  generalize (List.range 1).foldl (fun A i => Arr.normRow z A i) (Arr.of .int64 M) = N at q2 q3 q4 ⊢
  have hv : (Arr.of .int64 M).norm 0 = some (Real.sqrt (∑ j ∈ range M.nc, M.e 0 j ^ 2)) := if_pos fun _ _ => rfl
  have h0 : Real.sqrt (∑ j ∈ range M.nc, M.e 0 j ^ 2) = 0 ↔ ∀ k < M.nc, M.e 0 k = 0 := by
    rw [Real.sqrt_eq_zero (Finset.sum_nonneg fun _ _ => sq_nonneg _), Finset.sum_eq_zero_iff_of_nonneg fun _ _ => sq_nonneg _]
    simp
  have he : ∀ j, N.e 0 j = some (if ∀ k < M.nc, M.e 0 k = 0 then z else Dtype.int64.store (M.e 0 j / Real.sqrt (∑ k ∈ range M.nc, M.e 0 k ^ 2))) := by
    intro j
    rw [q4, if_pos Nat.zero_lt_one, hv]
    show storeNan z .int64 (quot (some (M.e 0 j)) _) = _
    by_cases hz : ∀ k < M.nc, M.e 0 k = 0
    · rw [show quot (some (M.e 0 j)) (some (Real.sqrt (∑ j ∈ range M.nc, M.e 0 j ^ 2))) = none from if_pos (h0.2 hz), if_pos hz]
      rfl
    · rw [show quot (some (M.e 0 j)) (some (Real.sqrt (∑ j ∈ range M.nc, M.e 0 j ^ 2))) = some _ from if_neg fun h => hz (h0.1 h), if_neg hz]
      rfl
  refine ⟨fun j => (N.e 0 j).getD 0, ?_, fun j _ => by simp only [he, Option.getD_some]⟩
  have hs : N.norm 0 = some _ := if_pos (show ∀ j < N.nc, (N.e 0 j).isSome from fun j _ => by rw [he]; rfl)
  unfold Arr.rows
  rw [show N.nr = 1 from q2.trans hr, show N.nc = M.nc from q3]
  show [(N.norm 0).map _] = _
  rw [hs]
  rfl

/-- the answer for two arrays of integers with one row -/
theorem same_rows_int (z : ℝ) (m : Mem) {a b : ℕ} (hab : a ≠ b) {A B : Mat ℝ} (hA : m a = Arr.of .int64 A) (hB : m b = Arr.of .int64 B) (hr : A.nr = 1) (hr' : B.nr = 1)
    (hc : A.nc = B.nc) (h : ∀ w v : ℕ → ℝ,
      (∀ j < A.nc, w j = if ∀ k < A.nc, A.e 0 k = 0 then z else Dtype.int64.store (A.e 0 j / Real.sqrt (∑ k ∈ range A.nc, A.e 0 k ^ 2))) →
      (∀ j < B.nc, v j = if ∀ k < B.nc, B.e 0 k = 0 then z else Dtype.int64.store (B.e 0 j / Real.sqrt (∑ k ∈ range B.nc, B.e 0 k ^ 2))) → ∀ j < A.nc, w j = v j) :
    (same_rows z m a b).1 = .ok true := by
  obtain ⟨-, n1, n2⟩ := normRows_foldl z m a b 1
  obtain ⟨w, w1, w2⟩ := int_row z A hr
  obtain ⟨v, v1, v2⟩ := int_row z B hr'
  have e1 : (m a).nr = 1 := by rw [hA]; exact hr
  have e2 : (m b).nr = 1 := by rw [hB]; exact hr'
  unfold same_rows
  rw [if_neg (by omega)]
  simp only [if_true]
  rw [compareRows_same (by rw [hA, hB]; exact hc), e1, n1 (Or.inl hab), n2 (Or.inl hab), hA, hB, w1, v1]
  rw [matchRows_single]
  simp only [Geom.allclose, decide_eq_true_eq]
  intro j hj
  rw [h w v w2 v2 j hj, sub_self, abs_zero]
  positivity

/-- C110 is false for all arrays of integers with one row, which has two entries that are not zero: the answer is True whatever the rows are. -/
theorem C110_int_false (z : ℝ) (m : Mem) (a b : ℕ) (hab : a ≠ b) (A B : Mat ℝ) (hA : m a = Arr.of .int64 A) (hB : m b = Arr.of .int64 B) (hr : A.nr = 1) (hr' : B.nr = 1)
    (hc : A.nc = B.nc) (h : ∃ i < A.nc, ∃ j < A.nc, i ≠ j ∧ A.e 0 i ≠ 0 ∧ A.e 0 j ≠ 0) (h' : ∃ i < B.nc, ∃ j < B.nc, i ≠ j ∧ B.e 0 i ≠ 0 ∧ B.e 0 j ≠ 0) :
    (same_rows z m a b).1 = .ok true := by
  have key : ∀ M : Mat ℝ, (∃ i < M.nc, ∃ j < M.nc, i ≠ j ∧ M.e 0 i ≠ 0 ∧ M.e 0 j ≠ 0) → ∀ w : ℕ → ℝ,
      (∀ j < M.nc, w j = if ∀ k < M.nc, M.e 0 k = 0 then z else Dtype.int64.store (M.e 0 j / Real.sqrt (∑ k ∈ range M.nc, M.e 0 k ^ 2))) → ∀ j < M.nc, w j = 0 := by
    rintro M ⟨i, hi, j, hj, hij, hi0, hj0⟩ w hw l hl
    rw [hw l hl, if_neg fun h => hi0 (h i hi), store_small]
    have hlt : |M.e 0 l| < Real.sqrt (∑ k ∈ range M.nc, M.e 0 k ^ 2) := by
      by_cases hli : l = i
      · subst hli; exact abs_lt_norm (v := M.e 0) hl hj hij hj0
      · exact abs_lt_norm (v := M.e 0) hl hi hli hi0
    have hpos := lt_of_le_of_lt (abs_nonneg _) hlt
    rwa [abs_div, abs_of_pos hpos, div_lt_one hpos]
  exact same_rows_int z m hab hA hB hr hr' hc fun w v hw hv j hj => by
    rw [key A h w hw j hj, key B h' v hv j (by omega)]

/-- C110 is false for rows of zeros: they have no normalized rows, and the answer for arrays of floating point numbers is not True, but it is for arrays of integers. -/
theorem C110_zero_false (n : ℕ) (hn : 0 < n) : ∃ m : Mem, (∀ k, (m k).Valid) ∧ m 0 = Arr.of .int64 ⟨1, n, fun _ _ => 0⟩ ∧ m 1 = Arr.of .int64 ⟨1, n, fun _ _ => 0⟩ ∧
    m 2 = Arr.of .float64 ⟨1, n, fun _ _ => 0⟩ ∧ m 3 = Arr.of .float64 ⟨1, n, fun _ _ => 0⟩ ∧
    ∀ z, (same_rows z m 0 1).1 = .ok true ∧ (same_rows z m 2 3).1 = .ok false := by
  set m : Mem := fun k => Arr.of (if k < 2 then .int64 else .float64) ⟨1, n, fun _ _ => 0⟩ with hm
  refine ⟨m, fun k _ i _ j _ => ⟨0, by simp [hm, Arr.of]⟩, rfl, rfl, rfl, rfl, fun z => ⟨?_, ?_⟩⟩
  · refine same_rows_int z m (by norm_num) (A := ⟨1, n, fun _ _ => 0⟩) (B := ⟨1, n, fun _ _ => 0⟩) rfl rfl rfl rfl rfl fun w v hw hv j hj => ?_
    rw [hw j hj, hv j hj]
  · have hf := same_rows_float z m 2 3 ⟨1, n, fun _ _ => 0⟩ ⟨1, n, fun _ _ => 0⟩ rfl rfl true
    have hne : (same_rows z m 2 3).1 ≠ .ok true := fun h => by
      obtain ⟨-, -, σ, hσ⟩ := C110_partial z m 2 3 ⟨1, n, fun _ _ => 0⟩ ⟨1, n, fun _ _ => 0⟩ rfl rfl hn hn h
      have := (hσ ⟨0, Nat.zero_lt_one⟩).1
      simp at this
    have hok : (same_rows z m 2 3).1 = .ok (Geom.matchRows Geom.allclose ((same_rows z m 2 3).2 2).rows ((same_rows z m 2 3).2 3).rows) := by
      unfold same_rows
      rw [if_neg (by simp [hm, Arr.of])]
      simp only [if_true]
      exact compareRows_same rfl _ _
    rw [hok] at hne ⊢
    cases hb : Geom.matchRows Geom.allclose ((same_rows z m 2 3).2 2).rows ((same_rows z m 2 3).2 3).rows
    · rfl
    · rw [hb] at hne; exact absurd rfl hne

/-- `same_rows(np.array([[1, 1, 0]]), np.array([[0, -3, 5]]))`, for instance -/
example : ∃ m : Mem, (∀ k, (m k).Valid) ∧ m 0 = Arr.of .int64 ⟨1, 3, fun _ j => if j = 2 then 0 else 1⟩ ∧ m 1 = Arr.of .int64 ⟨1, 3, fun _ j => if j = 0 then 0 else if j = 1 then -3 else 5⟩ ∧
    ∀ z, (same_rows z m 0 1).1 = .ok true := by
  refine ⟨fun k => if k = 0 then Arr.of .int64 ⟨1, 3, fun _ j => if j = 2 then 0 else 1⟩ else Arr.of .int64 ⟨1, 3, fun _ j => if j = 0 then 0 else if j = 1 then -3 else 5⟩,
    fun k _ i _ j _ => ?_, rfl, rfl, fun z => ?_⟩
  · by_cases hk : k = 0
    · exact ⟨if j = 2 then 0 else 1, by simp [hk, Arr.of]⟩
    · refine ⟨if j = 0 then 0 else if j = 1 then -3 else 5, ?_⟩
      simp only [hk, if_false, Arr.of]
      push_cast
      rfl
  · exact C110_int_false z _ 0 1 (by norm_num) _ _ rfl rfl rfl rfl rfl ⟨0, by norm_num, 1, by norm_num, by norm_num, by norm_num, by norm_num⟩
      ⟨1, by norm_num, 2, by norm_num, by norm_num, by norm_num, by norm_num⟩

end Props
end Verif
