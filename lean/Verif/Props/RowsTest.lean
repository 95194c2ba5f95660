import Verif.Model.TestRows
import Verif.Props.GeomUtils

/- C202: the test of `same_rows`. -/
namespace Verif.TestSuite
open Finset Verif.Props Spec

/-- entry `j` of row `i` divided by the norm of the row -/
noncomputable def unitRow (A : ℕ → ℕ → ℝ) (i j : ℕ) : ℝ := A i j / Real.sqrt (∑ k ∈ range 5, A i k ^ 2)

/-- entry by entry, `allclose` sees a difference of the rows -/
def Differ (v w : ℕ → ℝ) : Prop := ∃ j < 5, 1e-8 + 1e-5 * |w j| < |v j - w j|

/-- random numbers for which the first two calls have the announced answer: no factor of a row is zero, no row vanishes, and `allclose` tells the normalized rows
apart -/
structure FairRows (r : RowsDraw) : Prop where
  scaling : ∀ i < 10, 0 < r.rowScaling i
  rows : ∀ i < 10, ∃ j < 5, r.A i j ≠ 0
  apart : ∀ i < 10, ∀ k < 10, i ≠ k → Differ (unitRow r.A i) (unitRow r.A k)

/-- and there is a row that after the normalization differs from all the rows with scaled columns -/
structure FairDraw (r : RowsDraw) : Prop extends FairRows r where
  cols : ∃ i < 10, ∀ k < 10, (∀ j < 5, r.A k j * r.colScaling j = 0) ∨
    Differ (unitRow r.A i) (unitRow (fun k j => unitRow r.A k j * r.colScaling j) k)

theorem unit_pos {A : ℕ → ℕ → ℝ} {i : ℕ} (h : ∃ j < 5, A i j ≠ 0) : 0 < ∑ k ∈ range 5, A i k ^ 2 := by
  obtain ⟨j, hj, h⟩ := h
  exact Finset.sum_pos' (fun k _ => sq_nonneg _) ⟨j, mem_range.2 hj, by positivity⟩

theorem unit_norm {A : ℕ → ℕ → ℝ} {i : ℕ} (h : ∃ j < 5, A i j ≠ 0) : ∑ k ∈ range 5, unitRow A i k ^ 2 = 1 := by
  have := unit_pos h
  simp only [unitRow, div_pow, Real.sq_sqrt this.le]
  rw [← Finset.sum_div, div_self this.ne']

theorem unit_unit {A : ℕ → ℕ → ℝ} {i : ℕ} (h : ∃ j < 5, A i j ≠ 0) (j : ℕ) : unitRow (unitRow A) i j = unitRow A i j := by
  show unitRow A i j / Real.sqrt (∑ k ∈ range 5, unitRow A i k ^ 2) = _
  rw [unit_norm h, Real.sqrt_one, div_one]

/-- positive factors of the rows do not matter -/
theorem same_scaled {A : ℕ → ℕ → ℝ} {s : ℕ → ℝ} (hs : ∀ i < 10, 0 < s i) (B : Mat ℝ) (hB : B.nr = 10) :
    Geom.same_rows B ⟨10, 5, fun i j => A i j * s i⟩ = Geom.same_rows B ⟨10, 5, A⟩ := by
  unfold Geom.same_rows
  rw [if_neg (by rw [hB]; simp), if_neg (by rw [hB]; simp)]
  dsimp only
  congr 1
  simp only [Geom.rowList, List.map_map, if_true]
  refine List.map_congr_left fun i hi => ?_
  have hi : i < 10 := List.mem_range.1 hi
  have hn : vnorm (Mat.row ⟨10, 5, fun i j => A i j * s i⟩ i) = vnorm (Mat.row ⟨10, 5, A⟩ i) * s i := by
    show Real.sqrt (∑ j ∈ range 5, (A i j * s i) ^ 2) = Real.sqrt (∑ j ∈ range 5, A i j ^ 2) * s i
    simp only [mul_pow]
    rw [← Finset.sum_mul, Real.sqrt_mul (Finset.sum_nonneg fun _ _ => sq_nonneg _), Real.sqrt_sq (hs i hi).le]
  show Geom.normRow (Mat.row ⟨10, 5, fun i j => A i j * s i⟩ i) = Geom.normRow (Mat.row ⟨10, 5, A⟩ i)
  unfold Geom.normRow
  rw [hn]
  have h0 := (hs i hi).ne'
  by_cases hz : vnorm (Mat.row ⟨10, 5, A⟩ i) = 0
  · rw [if_pos ⟨by simp [Mat.row], by rw [hz, zero_mul]⟩, if_pos ⟨by simp [Mat.row], hz⟩]
  · rw [if_neg (fun h => (mul_ne_zero hz h0) h.2), if_neg (fun h => hz h.2)]
    congr 1
    show (⟨5, fun j => A i j * s i / (vnorm (Mat.row ⟨10, 5, A⟩ i) * s i)⟩ : Vec ℝ) = ⟨5, fun j => A i j / vnorm (Mat.row ⟨10, 5, A⟩ i)⟩
    congr 1
    funext j
    rw [mul_div_mul_right _ _ h0]

theorem same_self {A : ℕ → ℕ → ℝ} (hz : ∀ i < 10, ∃ j < 5, A i j ≠ 0) (hd : ∀ i < 10, ∀ k < 10, i ≠ k → Differ (unitRow A i) (unitRow A k)) :
    Geom.same_rows ⟨10, 5, A⟩ ⟨10, 5, A⟩ = .ok true :=
  C28_partial ⟨10, 5, A⟩ ⟨10, 5, A⟩ rfl rfl 1 (fun _ _ _ => rfl) true (fun _ => hz) fun i hi k hk hik => by
    simp only [if_true]
    exact hd i hi k hk hik

/-- the first two assertions of an iteration, and what remains -/
theorem round_start {r : RowsDraw} (h : FairRows r) : sameRowsRound r =
    (Geom.same_rows ⟨10, 5, unitRow r.A⟩ ⟨10, 5, fun i j => unitRow r.A i j * r.colScaling j⟩ >>= assertFalse) := by
  unfold sameRowsRound
  dsimp only
  rw [same_scaled h.scaling _ rfl, same_self h.rows h.apart, Py.ok_bind, show assertTrue true = .ok () from rfl, Py.ok_bind]
  have h2 : Geom.same_rows ⟨10, 5, unitRow r.A⟩ ⟨10, 5, fun i j => if h : i < 10 then unitRow r.A (r.order ⟨i, h⟩) j else 0⟩ false = .ok true :=
    C28_partial ⟨10, 5, unitRow r.A⟩ ⟨10, 5, fun i j => if h : i < 10 then unitRow r.A (r.order ⟨i, h⟩) j else 0⟩ rfl rfl r.order
      (fun i j _ => dif_pos (c := (i : ℕ) < 10) i.2) false (fun h => by cases h) fun i hi k hk hik => by
      simp only [Bool.false_eq_true, if_false, div_one]
      exact h.apart i hi k hk hik
  show (Geom.same_rows ⟨10, 5, unitRow r.A⟩ ⟨10, 5, fun i j => if h : i < 10 then unitRow r.A (r.order ⟨i, h⟩) j else 0⟩ false >>= _) = _
  rw [h2, Py.ok_bind]
  rfl

theorem round_ok {r : RowsDraw} (h : FairDraw r) : sameRowsRound r = .ok () := by
  rw [round_start h.toFairRows]
  have e : ∃ b, Geom.same_rows ⟨10, 5, unitRow r.A⟩ ⟨10, 5, fun i j => unitRow r.A i j * r.colScaling j⟩ = .ok b := by
    unfold Geom.same_rows
    rw [if_neg (by simp)]
    exact ⟨_, compareRows_same rfl _ _⟩
  obtain ⟨b, e⟩ := e
  rw [e, Py.ok_bind]
  cases b with
  | false => rfl
  | true =>
    exfalso
    obtain ⟨-, -, σ, hσ⟩ := C82 _ _ (by norm_num) (by norm_num) e
    obtain ⟨i, hi, hc⟩ := h.cols
    obtain ⟨-, h2, h3⟩ := hσ ⟨i, hi⟩
    have hk : (σ ⟨i, hi⟩ : ℕ) < 10 := (σ ⟨i, hi⟩).2
    rcases hc _ hk with hc | ⟨j, hj, hc⟩
    · refine absurd h2 (not_lt.2 (Finset.sum_nonpos fun j hj => ?_))
      have := hc j (mem_range.1 hj)
      show (r.A (σ ⟨i, hi⟩) j / _ * r.colScaling j) ^ 2 ≤ 0
      rw [div_mul_eq_mul_div, this, zero_div]
      simp
    · have := h3 j hj
      refine absurd hc (not_lt.2 ?_)
      have e1 := unit_unit (h.rows i hi) j
      rw [← e1]
      exact this

theorem rounds_ok {l : List RowsDraw} (h : ∀ r ∈ l, FairDraw r) : sameRowsRounds l = .ok () := by
  induction l with
  | nil => rfl
  | cons r l ih =>
    show (sameRowsRound r >>= fun _ => sameRowsRounds l) = _
    rw [round_ok (h r (by simp)), Py.ok_bind]
    exact ih fun s hs => h s (by simp [hs])

/-- equal factors of all the columns: `same_rows` is `True` and the test fails -/
theorem round_equal {r : RowsDraw} (h : FairRows r) {c : ℝ} (hc : 0 < c) (he : ∀ j, r.colScaling j = c) : sameRowsRound r = .error .assertionError := by
  rw [round_start h]
  simp only [he]
  rw [same_scaled (s := fun _ => c) (fun _ _ => hc) _ rfl, same_self, Py.ok_bind]
  · rfl
  · intro i hi
    by_contra hne
    push Not at hne
    have := unit_norm (h.rows i hi)
    rw [Finset.sum_eq_zero fun j hj => by rw [hne j (mem_range.1 hj)]; ring] at this
    norm_num at this
  · intro i hi k hk hik
    obtain ⟨j, hj, hd⟩ := h.apart i hi k hk hik
    refine ⟨j, hj, ?_⟩
    rwa [unit_unit (h.rows i hi), unit_unit (h.rows k hk)]

/-- C202, what holds: `test_same_rows` passes if in every iteration no factor of a row is zero, no row vanishes, `allclose` tells the normalized rows apart, and some
normalized row differs from all the rows with scaled columns.  Missing: that this is so for all the numbers that `np.random.rand` can give; it is not, see `C202_false`. -/
theorem C202_partial (draws : Fin 10 → RowsDraw) (h : ∀ t, FairDraw (draws t)) : test_same_rows draws = .ok () :=
  rounds_ok fun r hr => by
    obtain ⟨t, rfl⟩ := (List.mem_ofFn' _ _).1 hr
    exact h t

/-- the ten pairs of columns -/
def pairRows : List (List ℕ) :=
  [[1, 1, 0, 0, 0], [1, 0, 1, 0, 0], [1, 0, 0, 1, 0], [1, 0, 0, 0, 1], [0, 1, 1, 0, 0], [0, 1, 0, 1, 0], [0, 1, 0, 0, 1], [0, 0, 1, 1, 0], [0, 0, 1, 0, 1], [0, 0, 0, 1, 1]]

/-- entry `j` of row `i` of that table -/
def pairAt (i j : ℕ) : ℕ := (pairRows.getD i []).getD j 0

/-- the halves of these numbers, with the factor 1/2 for the rows and the given factors for the columns -/
noncomputable def pairDraw (c : ℕ → ℝ) : RowsDraw := ⟨fun i j => pairAt i j / 2, fun _ => 1 / 2, 1, c⟩

theorem pair_unit (i : ℕ) (hi : i < 10) (j : ℕ) : unitRow (fun i j => (pairAt i j : ℝ) / 2) i j = pairAt i j / Real.sqrt 2 := by
  unfold unitRow
  have h1 : ∑ k ∈ range 5, ((pairAt i k : ℝ) / 2) ^ 2 = 2 / 2 ^ 2 := by
    have h2 : ∀ i < 10, ∑ k ∈ range 5, pairAt i k ^ 2 = 2 := by decide
    simp only [div_pow]
    rw [← Finset.sum_div]
    congr 1
    exact_mod_cast h2 i hi
  rw [h1, Real.sqrt_div (by norm_num), Real.sqrt_sq (by norm_num), div_div_div_cancel_right₀ (by norm_num)]

theorem sqrt2 : 1 ≤ Real.sqrt 2 ∧ Real.sqrt 2 ≤ 2 := ⟨Real.one_le_sqrt.2 (by norm_num), by rw [Real.sqrt_le_left (by norm_num)]; norm_num⟩

theorem pair_fair (c : ℕ → ℝ) : FairRows (pairDraw c) := by
  refine ⟨fun _ _ => by norm_num [pairDraw], fun i hi => ?_, fun i hi k hk hik => ?_⟩
  · have h : ∀ i < 10, ∃ j < 5, pairAt i j ≠ 0 := by decide
    obtain ⟨j, hj, h⟩ := h i hi
    exact ⟨j, hj, div_ne_zero (by exact_mod_cast h) (by norm_num)⟩
  · have h : ∀ i < 10, ∀ k < 10, i ≠ k → ∃ j < 5, pairAt i j = 1 ∧ pairAt k j = 0 := by decide
    obtain ⟨j, hj, h1, h2⟩ := h i hi k hk hik
    refine ⟨j, hj, ?_⟩
    show 1e-8 + 1e-5 * |unitRow (fun i j => (pairAt i j : ℝ) / 2) k j| < |unitRow (fun i j => (pairAt i j : ℝ) / 2) i j - unitRow (fun i j => (pairAt i j : ℝ) / 2) k j|
    obtain ⟨s1, s2⟩ := sqrt2
    have s0 : 0 < Real.sqrt 2 := by linarith
    rw [pair_unit i hi, pair_unit k hk, h1, h2, Nat.cast_zero, Nat.cast_one, zero_div, abs_zero, mul_zero, add_zero, sub_zero, abs_of_pos (by positivity), lt_div_iff₀ s0]
    norm_num
    linarith

/-- C202 is false as it stands: with numbers in `[0, 1)`, no row of which vanishes and no two rows of which are similar, and equal factors for all the columns, the test
fails. -/
theorem C202_false : ∃ draws : Fin 10 → RowsDraw,
    (∀ t, FairRows (draws t) ∧ ∀ i j, 0 ≤ (draws t).A i j ∧ (draws t).A i j < 1 ∧ 0 ≤ (draws t).rowScaling i ∧ (draws t).rowScaling i < 1 ∧
      0 ≤ (draws t).colScaling j ∧ (draws t).colScaling j < 1) ∧ test_same_rows draws = .error .assertionError := by
  refine ⟨fun _ => pairDraw fun _ => 1 / 2, fun _ => ⟨pair_fair _, fun i j => ?_⟩, ?_⟩
  · have h : pairAt i j ≤ 1 := by
      by_cases hi : i < 10
      · by_cases hj : j < 5
        · have h : ∀ i < 10, ∀ j < 5, pairAt i j ≤ 1 := by decide
          exact h i hi j hj
        · have h : ∀ i < 10, (pairRows.getD i []).length = 5 := by decide
          unfold pairAt
          rw [List.getD_eq_getElem?_getD, List.getElem?_eq_none (by rw [h i hi]; omega)]
          simp
      · unfold pairAt
        rw [show pairRows.getD i [] = [] by rw [List.getD_eq_getElem?_getD, List.getElem?_eq_none (show pairRows.length ≤ i from not_lt.1 hi)]; rfl]
        simp
    have h : (pairAt i j : ℝ) ≤ 1 := by exact_mod_cast h
    have h0 : (0 : ℝ) ≤ pairAt i j := Nat.cast_nonneg _
    simp only [pairDraw]
    refine ⟨by linarith, by linarith, ?_, ?_, ?_, ?_⟩ <;> norm_num
  · show sameRowsRounds (List.ofFn _) = _
    rw [List.ofFn_succ]
    show (sameRowsRound _ >>= fun _ => _) = _
    rw [round_equal (pair_fair _) (c := 1 / 2) (by norm_num) fun _ => rfl]
    rfl

/-- numbers in `[0, 1)` that meet the conditions of `C202_partial`: all columns but the first are scaled to zero -/
example : ∃ draws : Fin 10 → RowsDraw, (∀ t, FairDraw (draws t)) ∧ test_same_rows draws = .ok () := by
  have h : FairDraw (pairDraw fun j => if j = 0 then 1 / 2 else 0) := by
    refine ⟨pair_fair _, 4, by norm_num, fun k hk => ?_⟩
    have hs : ∀ k < 10, pairAt k 0 = 0 ∨ pairAt k 0 = 1 := by decide
    rcases hs k hk with h | h
    · refine Or.inl fun j hj => ?_
      by_cases hj0 : j = 0
      · subst hj0
        simp [pairDraw, h]
      · simp [pairDraw, hj0]
    · refine Or.inr ⟨0, by norm_num, ?_⟩
      obtain ⟨s1, s2⟩ := sqrt2
      have s0 : 0 < Real.sqrt 2 := by linarith
      have u4 : unitRow (pairDraw fun j => if j = 0 then 1 / 2 else 0).A 4 0 = 0 := by
        refine (pair_unit 4 (by norm_num) 0).trans ?_
        simp [pairAt, pairRows]
      have uk : unitRow (pairDraw fun j => if j = 0 then 1 / 2 else 0).A k 0 = 1 / Real.sqrt 2 := by
        refine (pair_unit k hk 0).trans ?_
        rw [h, Nat.cast_one]
      have u1 : unitRow (fun k j => unitRow (pairDraw fun j => if j = 0 then 1 / 2 else 0).A k j * (pairDraw fun j => if j = 0 then 1 / 2 else 0).colScaling j) k 0 = 1 := by
        unfold unitRow
        rw [Finset.sum_eq_single 0]
        · show unitRow (pairDraw fun j => if j = 0 then 1 / 2 else 0).A k 0 * (if (0 : ℕ) = 0 then 1 / 2 else 0) /
            Real.sqrt ((unitRow (pairDraw fun j => if j = 0 then 1 / 2 else 0).A k 0 * (if (0 : ℕ) = 0 then 1 / 2 else 0)) ^ 2) = 1
          rw [uk, if_pos rfl, Real.sqrt_sq (by positivity), div_self (by positivity)]
        · intro j _ hj
          simp [pairDraw, hj]
        · intro h
          simp at h
      rw [u4, u1]
      norm_num
  exact ⟨fun _ => _, fun _ => h, C202_partial _ fun _ => h⟩

end Verif.TestSuite
