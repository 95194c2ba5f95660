import Verif.Model.Dtype
import Verif.Props.GeomUtils
import Verif.Props.Heap

/- Arrays of integers and arrays changed by `same_rows`. -/
namespace Verif
open Finset
namespace Dtype

theorem store_int (z : ℤ) : Dtype.int64.store (z : ℝ) = z := by
  show (if 0 ≤ (z : ℝ) then (⌊(z : ℝ)⌋ : ℝ) else (⌈(z : ℝ)⌉ : ℝ)) = z
  split_ifs <;> simp

theorem store_small {x : ℝ} (h : |x| < 1) : Dtype.int64.store x = 0 := by
  obtain ⟨h1, h2⟩ := abs_lt.1 h
  show (if 0 ≤ x then (⌊x⌋ : ℝ) else (⌈x⌉ : ℝ)) = 0
  split_ifs with h0
  · rw [Int.cast_eq_zero, Int.floor_eq_iff]
    exact ⟨by simpa using h0, by simpa using h2⟩
  · rw [Int.cast_eq_zero, Int.ceil_eq_iff]
    push Not at h0
    exact ⟨by simpa using h1, by simpa using h0.le⟩

theorem store_fits {dt : Dtype} {x : ℝ} (h : dt = .float64 ∨ ∃ z : ℤ, x = z) : dt.store x = x := by
  rcases h with rfl | ⟨z, rfl⟩
  · rfl
  · cases dt
    · exact store_int z
    · rfl

theorem normalizeRow_foldl (dA db : Dtype) (tol : ℝ) (A : Mat ℝ) (b : Vec ℝ) (m : ℕ) :
    let Ab := (List.range m).foldl (normalizeRow dA db tol) (A, b)
    Ab.1.nr = A.nr ∧ Ab.1.nc = A.nc ∧ Ab.2.n = b.n ∧
    (∀ i j, Ab.1.e i j = if i < m ∧ vnorm (A.row i) > tol then dA.store (A.e i j / vnorm (A.row i)) else A.e i j) ∧
    ∀ i, Ab.2.e i = if i < m ∧ vnorm (A.row i) > tol then db.store (b.e i / vnorm (A.row i)) else b.e i := by
  induction m with
  | zero => simp
  | succ m ih =>
    obtain ⟨h1, h2, h3, h4, h5⟩ := ih
    simp only [List.range_succ, List.foldl_append, List.foldl_cons, List.foldl_nil]
    generalize hAb : (List.range m).foldl (normalizeRow dA db tol) (A, b) = Ab at h1 h2 h3 h4 h5
    have hrow : Ab.1.row m = A.row m := by
      have : ∀ j, Ab.1.e m j = A.e m j := fun j => by rw [h4, if_neg (by simp)]
      simp only [Mat.row, h2]
      congr 1
      funext j
      exact this j
    have hr : vnorm (Ab.1.row m) = vnorm (A.row m) := by rw [hrow]
    unfold normalizeRow
    simp only [hr]
    by_cases hc : vnorm (A.row m) > tol
    · rw [if_pos hc]
      refine ⟨h1, h2, h3, fun i j => ?_, fun i => ?_⟩
      · show (if i = m then dA.store (Ab.1.e m j / _) else Ab.1.e i j) = _
        by_cases him : i = m
        · subst him
          rw [if_pos rfl, if_pos ⟨by omega, hc⟩, h4, if_neg (by simp)]
        · rw [if_neg him, h4]
          have : i < m + 1 ↔ i < m := by omega
          simp only [this]
      · show (if i = m then db.store (Ab.2.e m / _) else Ab.2.e i) = _
        by_cases him : i = m
        · subst him
          rw [if_pos rfl, if_pos ⟨by omega, hc⟩, h5, if_neg (by simp)]
        · rw [if_neg him, h5]
          have : i < m + 1 ↔ i < m := by omega
          simp only [this]
    · rw [if_neg hc]
      refine ⟨h1, h2, h3, fun i j => ?_, fun i => ?_⟩
      · rw [h4]
        by_cases him : i = m
        · subst him; rw [if_neg (by simp), if_neg (by simp [hc])]
        · have : i < m + 1 ↔ i < m := by omega
          simp only [this]
      · rw [h5]
        by_cases him : i = m
        · subst him; rw [if_neg (by simp), if_neg (by simp [hc])]
        · have : i < m + 1 ↔ i < m := by omega
          simp only [this]

/-- an entry of a vector with another entry that does not vanish is smaller than the norm -/
theorem abs_lt_norm {n : ℕ} {v : ℕ → ℝ} {j k : ℕ} (hj : j < n) (hk : k < n) (h : j ≠ k) (h0 : v k ≠ 0) :
    |v j| < Real.sqrt (∑ i ∈ range n, v i ^ 2) := by
  rw [← Real.sqrt_sq_eq_abs]
  refine Real.sqrt_lt_sqrt (sq_nonneg _) ?_
  have h2 : v j ^ 2 + v k ^ 2 ≤ ∑ i ∈ range n, v i ^ 2 := by
    rw [← Finset.sum_pair (f := fun i => v i ^ 2) h]
    refine Finset.sum_le_sum_of_subset_of_nonneg ?_ fun _ _ _ => sq_nonneg _
    intro i hi
    rcases Finset.mem_insert.1 hi with rfl | hi
    · exact Finset.mem_range.2 hj
    · rw [Finset.mem_singleton.1 hi]; exact Finset.mem_range.2 hk
  have := pow_pos (abs_pos.2 h0) 2
  rw [sq_abs] at this
  linarith

end Dtype

namespace Props
open Dtype

/-- C108 (partial): whatever the element types of the four arrays are, `normalize` keeps the set if every number that it stores in an array of
integers is an integer; in particular if all the arrays hold floating point numbers.  A row of integers with more than one entry different from zero
becomes the zero row, a row with one entry `a` gets the entry `1` or `-1`.

Missing: the set is kept for all arrays of integers, which is false (`C108_false`, `C108_rhs_false`). -/
theorem C108_partial (n : ℕ) (t : Four) (p : Poly) (hp : p.Inv n) (tol : ℝ) (h0 : 0 ≤ tol) (h1 : tol < 1) :
    let q := Dtype.normalize t p tol
    let ν := fun (A : Mat ℝ) i => Real.sqrt (∑ j ∈ range n, A.e i j ^ 2)
    ((∀ i < p.A.nr, tol < ν p.A i → (∀ j < n, t.A = .float64 ∨ ∃ z : ℤ, p.A.e i j / ν p.A i = z) ∧ (t.b = .float64 ∨ ∃ z : ℤ, p.b.e i / ν p.A i = z)) →
      (∀ i < p.C.nr, tol < ν p.C i → (∀ j < n, t.C = .float64 ∨ ∃ z : ℤ, p.C.e i j / ν p.C i = z) ∧ (t.d = .float64 ∨ ∃ z : ℤ, p.d.e i / ν p.C i = z)) →
      ∀ x, q.Mem x ↔ p.Mem x) ∧
    (t.A = .int64 → ∀ i < p.A.nr, (∀ j < n, ∃ z : ℤ, p.A.e i j = z) →
      ((∃ j < n, ∃ k < n, j ≠ k ∧ p.A.e i j ≠ 0 ∧ p.A.e i k ≠ 0) → ∀ j < n, q.A.e i j = 0) ∧
      ∀ k < n, p.A.e i k ≠ 0 → (∀ j < n, j ≠ k → p.A.e i j = 0) →
        (∀ j < n, j ≠ k → q.A.e i j = 0) ∧ q.A.e i k = if 0 < p.A.e i k then 1 else -1) := by
  intro q ν
  obtain ⟨s1, s2, s3, s4⟩ := hp
  obtain ⟨a1, a2, a3, a4, a5⟩ := normalizeRow_foldl t.A t.b tol p.A p.b p.A.nr
  obtain ⟨c1, c2, c3, c4, c5⟩ := normalizeRow_foldl t.C t.d tol p.C p.d p.C.nr
  have hνA : ∀ i, vnorm (p.A.row i) = ν p.A i := fun i => by show Real.sqrt _ = _; rw [show (p.A.row i).n = n from s1]; rfl
  have hνC : ∀ i, vnorm (p.C.row i) = ν p.C i := fun i => by show Real.sqrt _ = _; rw [show (p.C.row i).n = n from s3]; rfl
  have scale : ∀ (A : Mat ℝ) (b : Vec ℝ) (dA db : Dtype) (e : ℕ → ℕ → ℝ) (c : ℕ → ℝ),
      (∀ i j, e i j = if i < A.nr ∧ ν A i > tol then dA.store (A.e i j / ν A i) else A.e i j) →
      (∀ i, c i = if i < A.nr ∧ ν A i > tol then db.store (b.e i / ν A i) else b.e i) →
      (∀ i < A.nr, tol < ν A i → (∀ j < n, dA = .float64 ∨ ∃ z : ℤ, A.e i j / ν A i = z) ∧ (db = .float64 ∨ ∃ z : ℤ, b.e i / ν A i = z)) →
      ∀ (x : ℕ → ℝ) (i : ℕ), ∃ s > 0, ∑ j ∈ range n, e i j * x j = s * ∑ j ∈ range n, A.e i j * x j ∧ c i = s * b.e i := by
    intro A b dA db e c he hc hf x i
    by_cases h : i < A.nr ∧ ν A i > tol
    · obtain ⟨f1, f2⟩ := hf i h.1 h.2
      refine ⟨1 / ν A i, one_div_pos.2 (lt_of_le_of_lt h0 h.2), ?_, ?_⟩
      · rw [Finset.mul_sum]
        exact Finset.sum_congr rfl fun j hj => by rw [he, if_pos h, store_fits (f1 j (mem_range.1 hj))]; ring
      · rw [hc, if_pos h, store_fits f2]; ring
    · refine ⟨1, one_pos, ?_, ?_⟩
      · rw [one_mul]
        exact Finset.sum_congr rfl fun j _ => by rw [he, if_neg h]
      · rw [hc, if_neg h, one_mul]
  simp only [hνA] at a4 a5
  simp only [hνC] at c4 c5
  refine ⟨fun hA hC x => ?_, fun ht i hi hz => ?_⟩
  · show ((∀ i < q.A.nr, ∑ j ∈ range q.A.nc, q.A.e i j * x j ≤ q.b.e i) ∧
      ∀ i < q.C.nr, ∑ j ∈ range q.C.nc, q.C.e i j * x j = q.d.e i) ↔
      (∀ i < p.A.nr, ∑ j ∈ range p.A.nc, p.A.e i j * x j ≤ p.b.e i) ∧
      ∀ i < p.C.nr, ∑ j ∈ range p.C.nc, p.C.e i j * x j = p.d.e i
    rw [show q.A.nr = p.A.nr from a1, show q.A.nc = p.A.nc from a2, show q.C.nr = p.C.nr from c1, show q.C.nc = p.C.nc from c2, s1, s3]
    refine and_congr ?_ ?_
    · refine forall_congr' fun i => forall_congr' fun _ => ?_
      obtain ⟨s, hs, h1, h2⟩ := scale p.A p.b t.A t.b _ _ a4 a5 hA x i
      rw [show ∑ j ∈ range n, q.A.e i j * x j = _ from h1, show q.b.e i = _ from h2]
      exact mul_le_mul_iff_right₀ hs
    · refine forall_congr' fun i => forall_congr' fun _ => ?_
      obtain ⟨s, hs, h1, h2⟩ := scale p.C p.d t.C t.d _ _ c4 c5 hC x i
      rw [show ∑ j ∈ range n, q.C.e i j * x j = _ from h1, show q.d.e i = _ from h2]
      exact ⟨fun h => mul_left_cancel₀ hs.ne' h, fun h => by rw [h]⟩
  · have hq : ∀ j, q.A.e i j = if i < p.A.nr ∧ ν p.A i > tol then t.A.store (p.A.e i j / ν p.A i) else p.A.e i j := a4 i
    -- the norm of a row of integers is at least one
    have hge : ∀ k < n, p.A.e i k ≠ 0 → 1 ≤ ν p.A i := by
      intro k hk hk0
      obtain ⟨z, hz⟩ := hz k hk
      have hz1 : (1 : ℝ) ≤ |p.A.e i k| := by
        rw [hz] at hk0 ⊢
        have : z ≠ 0 := fun h => hk0 (by rw [h]; simp)
        rw [← Int.cast_abs]
        exact_mod_cast Int.one_le_abs this
      refine hz1.trans ?_
      rw [← Real.sqrt_sq_eq_abs]
      exact Real.sqrt_le_sqrt (Finset.single_le_sum (f := fun j => p.A.e i j ^ 2) (fun _ _ => sq_nonneg _) (mem_range.2 hk))
    constructor
    · rintro ⟨j1, hj1, k1, hk1, hne, n1, n2⟩ j hj
      have hν := hge k1 hk1 n2
      rw [hq, if_pos ⟨hi, lt_of_lt_of_le h1 hν⟩, ht]
      refine store_small ?_
      rw [abs_div, abs_of_pos (lt_of_lt_of_le one_pos hν), div_lt_one (lt_of_lt_of_le one_pos hν)]
      rcases eq_or_ne j j1 with rfl | h
      · exact abs_lt_norm (v := p.A.e i) hj hk1 hne n2
      · exact abs_lt_norm (v := p.A.e i) hj hj1 h n1
    · intro k hk n1 hall
      have hν := hge k hk n1
      have hpos := lt_of_lt_of_le one_pos hν
      have e : ν p.A i = |p.A.e i k| := by
        show Real.sqrt _ = _
        rw [Finset.sum_eq_single k (fun j hj hne => by rw [hall j (mem_range.1 hj) hne]; ring) (fun h => absurd (mem_range.2 hk) h), Real.sqrt_sq_eq_abs]
      have hc : i < p.A.nr ∧ ν p.A i > tol := ⟨hi, lt_of_lt_of_le h1 hν⟩
      refine ⟨fun j hj hne => ?_, ?_⟩
      · rw [hq, if_pos hc, hall j hj hne, ht, zero_div]
        exact store_small (by simp)
      · rw [hq, if_pos hc, ht, e]
        rcases lt_or_gt_of_ne n1 with h | h
        · rw [if_neg h.not_gt, abs_of_neg h, div_neg, div_self n1]
          simpa using store_int (-1)
        · rw [if_pos h, abs_of_pos h, div_self n1]
          simpa using store_int 1

/-- `2 x_0 <= 4`, `-3 x_1 <= 9` in arrays of integers -/
example : ∃ p : Poly, p.Inv 2 ∧ p.A.e 0 0 = 2 ∧ p.A.e 1 1 = -3 ∧
    ∀ x, (Dtype.normalize ⟨.int64, .int64, .float64, .float64⟩ p).Mem x ↔ p.Mem x := by
  set p : Poly := Poly.fresh ⟨2, 2, fun i j => if i ≠ j then 0 else if i = 0 then 2 else -3⟩ ⟨2, fun i => if i = 0 then 4 else 9⟩ (Mat.zeros 0 2) (Vec.zeros 0) with hp
  have hI : p.Inv 2 := ⟨rfl, rfl, rfl, rfl⟩
  have e1 : Real.sqrt ((2 : ℝ) ^ 2) = 2 := Real.sqrt_sq (by norm_num)
  have e2 : Real.sqrt ((-3 : ℝ) ^ 2) = 3 := by rw [show ((-3 : ℝ)) ^ 2 = 3 ^ 2 by norm_num]; exact Real.sqrt_sq (by norm_num)
  refine ⟨p, hI, by simp [hp, Poly.fresh], by simp [hp, Poly.fresh], fun x => ?_⟩
  refine (C108_partial 2 _ p hI 1e-7 (by norm_num) (by norm_num)).1 ?_ ?_ x
  · intro i hi _
    have hi : i < 2 := hi
    interval_cases i
    · refine ⟨fun j hj => Or.inr ?_, Or.inr ⟨2, ?_⟩⟩
      · interval_cases j
        · exact ⟨1, by simp [hp, Poly.fresh, Finset.sum_range_succ]⟩
        · exact ⟨0, by simp [hp, Poly.fresh]⟩
      · simp [hp, Poly.fresh, Finset.sum_range_succ]; norm_num
    · refine ⟨fun j hj => Or.inr ?_, Or.inr ⟨3, ?_⟩⟩
      · interval_cases j
        · exact ⟨0, by simp [hp, Poly.fresh]⟩
        · exact ⟨-1, by simp [hp, Poly.fresh, Finset.sum_range_succ]⟩
      · simp [hp, Poly.fresh, Finset.sum_range_succ, e2]; norm_num
  · intro i hi
    exact absurd hi (Nat.not_lt_zero i)

/-- C108 is false: `Polyhedron(A, b)` with `A = np.array([[1, 1]])`, `b = np.array([-1])` (integers) is the halfplane `x_0 + x_1 <= -1`; after
`normalize` it is the whole plane. -/
theorem C108_false : ∃ p : Poly, p.Inv 2 ∧ (∀ i j, ∃ z : ℤ, p.A.e i j = z) ∧ (∀ i, ∃ z : ℤ, p.b.e i = z) ∧
    (∀ x, p.Mem x ↔ x 0 + x 1 ≤ -1) ∧ ∀ x, (Dtype.normalize ⟨.int64, .int64, .float64, .float64⟩ p).Mem x := by
  set p : Poly := Poly.fresh ⟨1, 2, fun _ _ => 1⟩ ⟨1, fun _ => -1⟩ (Mat.zeros 0 2) (Vec.zeros 0) with hp
  have hI : p.Inv 2 := ⟨rfl, rfl, rfl, rfl⟩
  refine ⟨p, hI, fun _ _ => ⟨1, by simp [hp, Poly.fresh]⟩, fun _ => ⟨-1, by simp [hp, Poly.fresh]⟩, fun x => ?_, fun x => ?_⟩
  · constructor
    · intro h
      have := h.1 0 Nat.zero_lt_one
      simpa [hp, Poly.fresh, Finset.sum_range_succ] using this
    · intro h
      refine ⟨fun i _ => ?_, fun i hi => absurd hi (Nat.not_lt_zero i)⟩
      simpa [hp, Poly.fresh, Finset.sum_range_succ] using h
  · set q := Dtype.normalize ⟨.int64, .int64, .float64, .float64⟩ p with hq
    have hz := ((C108_partial 2 ⟨.int64, .int64, .float64, .float64⟩ p hI 1e-7 (by norm_num) (by norm_num)).2 rfl 0 Nat.zero_lt_one
      (fun j _ => ⟨1, by simp [hp, Poly.fresh]⟩)).1 ⟨0, by norm_num, 1, by norm_num, by norm_num, one_ne_zero, one_ne_zero⟩
    obtain ⟨a1, a2, a3, a4, a5⟩ := normalizeRow_foldl .int64 .int64 1e-7 p.A p.b p.A.nr
    have hv : vnorm (p.A.row 0) = Real.sqrt 2 := by
      show Real.sqrt (∑ j ∈ range 2, (1 : ℝ) ^ 2) = _
      norm_num
    have h1 : 1 < Real.sqrt 2 := by rw [Real.lt_sqrt (by norm_num)]; norm_num
    have hb : q.b.e 0 = 0 := by
      rw [show q.b.e 0 = _ from a5 0, hv, if_pos ⟨Nat.zero_lt_one, by linarith⟩]
      refine store_small ?_
      rw [abs_div, abs_of_pos (by linarith : (0 : ℝ) < Real.sqrt 2), div_lt_one (by linarith)]
      show |(-1 : ℝ)| < _
      simpa using h1
    refine ⟨fun i hi => ?_, fun i hi => ?_⟩
    · have hi : i < 1 := by rw [show q.A.nr = _ from a1] at hi; exact hi
      obtain rfl : i = 0 := by omega
      rw [show q.A.nc = 2 from a2, hb]
      refine le_of_eq (Finset.sum_eq_zero fun j hj => ?_)
      rw [show q.A.e 0 j = 0 from hz j (mem_range.1 hj), zero_mul]
    · exact absurd (show i < 0 from hi) (Nat.not_lt_zero i)

/-- also with floating point rows: `2 x_0 <= 1` with `b = np.array([1])` becomes `x_0 <= 0` -/
theorem C108_rhs_false : ∃ p : Poly, p.Inv 1 ∧ (∀ i, ∃ z : ℤ, p.b.e i = z) ∧
    (∀ x, p.Mem x ↔ x 0 ≤ 1 / 2) ∧ ∀ x, (Dtype.normalize ⟨.float64, .int64, .float64, .float64⟩ p).Mem x ↔ x 0 ≤ 0 := by
  set p : Poly := Poly.fresh (one 2) (one' 1) (Mat.zeros 0 1) (Vec.zeros 0) with hp
  refine ⟨p, ⟨rfl, rfl, rfl, rfl⟩, fun _ => ⟨1, by simp [hp, Poly.fresh, one']⟩, fun x => ?_, fun x => ?_⟩
  · constructor
    · intro h
      have := h.1 0 Nat.zero_lt_one
      rw [show ∑ j ∈ range p.A.nc, p.A.e 0 j * x j = 2 * x 0 by simp [hp, Poly.fresh, one]] at this
      have h2 : 2 * x 0 ≤ 1 := this
      linarith
    · intro h
      refine ⟨fun i _ => ?_, fun i hi => absurd hi (Nat.not_lt_zero i)⟩
      rw [show ∑ j ∈ range p.A.nc, p.A.e i j * x j = 2 * x 0 by simp [hp, Poly.fresh, one]]
      show 2 * x 0 ≤ 1
      linarith
  · set q := Dtype.normalize ⟨.float64, .int64, .float64, .float64⟩ p with hq
    obtain ⟨a1, a2, a3, a4, a5⟩ := normalizeRow_foldl .float64 .int64 1e-7 p.A p.b p.A.nr
    have hv : vnorm (p.A.row 0) = 2 := vnorm_one 2 (by norm_num) _ rfl
    have hA : q.A.e 0 0 = 1 := by
      rw [show q.A.e 0 0 = _ from a4 0 0, hv, if_pos ⟨Nat.zero_lt_one, by norm_num⟩]
      show (2 : ℝ) / 2 = 1
      norm_num
    have hb : q.b.e 0 = 0 := by
      rw [show q.b.e 0 = _ from a5 0, hv, if_pos ⟨Nat.zero_lt_one, by norm_num⟩]
      refine store_small ?_
      show |(1 : ℝ) / 2| < 1
      norm_num
    constructor
    · intro h
      have := h.1 0 (by rw [show q.A.nr = _ from a1]; exact Nat.zero_lt_one)
      rw [show q.A.nc = 1 from a2, Finset.sum_range_one, hA, hb, one_mul] at this
      exact this
    · intro h
      refine ⟨fun i hi => ?_, fun i hi => absurd (show i < 0 from hi) (Nat.not_lt_zero i)⟩
      have hi : i < 1 := by rw [show q.A.nr = _ from a1] at hi; exact hi
      obtain rfl : i = 0 := by omega
      rw [show q.A.nc = 1 from a2, Finset.sum_range_one, hA, hb, one_mul]
      exact h

end Props
end Verif
