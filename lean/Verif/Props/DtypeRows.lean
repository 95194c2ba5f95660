import Verif.Props.Dtype

/- `same_rows` on arrays in memory: what it writes, and its answers for arrays of integers. -/
namespace Verif
open Finset
namespace Dtype

theorem norm_congr {A B : Arr} {i : ℕ} (h : A.nc = B.nc) (he : ∀ j, A.e i j = B.e i j) : A.norm i = B.norm i := by
  unfold Arr.norm
  rw [h]
  simp only [he]

/-- the loop over the rows of one array -/
theorem normRow_foldl (z : ℝ) (A : Arr) (k : ℕ) :
    let B := (List.range k).foldl (fun A i => Arr.normRow z A i) A
    B.dt = A.dt ∧ B.nr = A.nr ∧ B.nc = A.nc ∧
    ∀ i j, B.e i j = if i < k then storeNan z A.dt (quot (A.e i j) (A.norm i)) else A.e i j := by
  induction k with
  | zero => simp
  | succ k ih =>
    obtain ⟨h1, h2, h3, h4⟩ := ih
    simp only [List.range_succ, List.foldl_append, List.foldl_cons, List.foldl_nil]
    generalize (List.range k).foldl (fun A i => Arr.normRow z A i) A = B at h1 h2 h3 h4
    refine ⟨h1, h2, h3, fun i j => ?_⟩
    show (if i = k then storeNan z B.dt (quot (B.e k j) (B.norm k)) else B.e i j) = _
    have hk : ∀ j, B.e k j = A.e k j := fun j => by rw [h4, if_neg (lt_irrefl k)]
    by_cases h : i = k
    · subst h
      rw [if_pos rfl, if_pos (Nat.lt_succ_self i), norm_congr h3 hk, hk, h1]
    · rw [if_neg h, h4]
      have : i < k + 1 ↔ i < k := by omega
      simp only [this]

/-- a row of floating point numbers that has been normalized does not change any more -/
theorem normRow_twice (z : ℝ) (A : Arr) (h : A.dt = .float64) (i : ℕ) : (A.normRow z i).normRow z i = A.normRow z i := by
  obtain ⟨dt, nr, nc, e⟩ := A
  obtain rfl : dt = .float64 := h
  set A : Arr := ⟨.float64, nr, nc, e⟩ with hA
  set B := A.normRow z i with hB
  have hBe : ∀ j, B.e i j = quot (e i j) (A.norm i) := fun j => if_pos rfl
  have key : ∀ j, quot (B.e i j) (B.norm i) = B.e i j := by
    intro j
    rw [hBe]
    by_cases hs : ∀ j < nc, (e i j).isSome
    · have hn : A.norm i = some (vnorm ⟨nc, fun j => (e i j).getD 0⟩) := if_pos hs
      set r := vnorm ⟨nc, fun j => (e i j).getD 0⟩ with hr
      by_cases h0 : r = 0
      · rw [hn, h0]
        cases e i j <;> simp [quot]
      · have hBs : ∀ j < nc, B.e i j = some ((e i j).getD 0 / r) := fun j hj => by
          rw [hBe, hn]
          obtain ⟨x, hx⟩ := Option.isSome_iff_exists.1 (hs j hj)
          rw [hx]
          simp [quot, h0]
        have hBn : B.norm i = some 1 := by
          have : B.norm i = some (vnorm ⟨nc, fun j => (B.e i j).getD 0⟩) := if_pos (show ∀ j < nc, (B.e i j).isSome from fun j hj => by rw [hBs j hj]; rfl)
          rw [this]
          congr 1
          have hr0 : 0 < r := lt_of_le_of_ne (Real.sqrt_nonneg _) (Ne.symm h0)
          have hsq : r ^ 2 = ∑ j ∈ range nc, ((e i j).getD 0) ^ 2 := vnorm_sq _
          show Real.sqrt (∑ j ∈ range nc, ((B.e i j).getD 0) ^ 2) = 1
          rw [show ∑ j ∈ range nc, ((B.e i j).getD 0) ^ 2 = (∑ j ∈ range nc, ((e i j).getD 0) ^ 2) / r ^ 2 by
            rw [Finset.sum_div]
            exact Finset.sum_congr rfl fun j hj => by rw [hBs j (mem_range.1 hj)]; simp [div_pow], ← hsq, div_self (by positivity), Real.sqrt_one]
        rw [hBn, hn]
        cases e i j <;> simp [quot, h0]
    · rw [show A.norm i = none from if_neg hs]
      cases e i j <;> simp [quot]
  have : B.normRow z i = { B with e := fun k j => if k = i then quot (B.e i j) (B.norm i) else B.e k j } := rfl
  rw [this]
  simp only [key]
  show (⟨B.dt, B.nr, B.nc, _⟩ : Arr) = ⟨B.dt, B.nr, B.nc, B.e⟩
  congr 1
  funext k j
  split_ifs with h
  · rw [h]
  · rfl

/-- the loop over the rows of both arrays -/
theorem normRows_foldl (z : ℝ) (m : Mem) (a b k : ℕ) :
    let m' := (List.range k).foldl (Mem.normRows z a b) m
    (∀ c, c ≠ a → c ≠ b → m' c = m c) ∧
    ((a ≠ b ∨ (m a).dt = .float64) → m' a = (List.range k).foldl (fun A i => Arr.normRow z A i) (m a)) ∧
    ((a ≠ b ∨ (m b).dt = .float64) → m' b = (List.range k).foldl (fun A i => Arr.normRow z A i) (m b)) := by
  induction k with
  | zero => exact ⟨fun _ _ _ => rfl, fun _ => rfl, fun _ => rfl⟩
  | succ k ih =>
    obtain ⟨h1, h2, h3⟩ := ih
    simp only [List.range_succ, List.foldl_append, List.foldl_cons, List.foldl_nil]
    generalize (List.range k).foldl (Mem.normRows z a b) m = m' at h1 h2 h3
    have step : ∀ c, Mem.normRows z a b m' k c = if c = b then ((if b = a then (m' a).normRow z k else m' b)).normRow z k
        else if c = a then (m' a).normRow z k else m' c := fun c => by
      unfold Mem.normRows
      simp only [Function.update_apply]
    refine ⟨fun c ha hb => by rw [step, if_neg hb, if_neg ha, h1 c ha hb], fun h => ?_, fun h => ?_⟩
    · by_cases hab : a = b
      · subst hab
        have hf := h.resolve_left (fun h => h rfl)
        rw [step, if_pos rfl, if_pos rfl, h2 h, normRow_twice]
        exact (normRow_foldl z (m a) k).1.trans hf
      · rw [step, if_neg hab, if_pos rfl, h2 h]
    · by_cases hab : a = b
      · subst hab
        have hf := h.resolve_left (fun h => h rfl)
        rw [step, if_pos rfl, if_pos rfl, h2 h, normRow_twice]
        exact (normRow_foldl z (m a) k).1.trans hf
      · rw [step, if_pos rfl, if_neg (Ne.symm hab), h3 h]

/-- the rows of a normalized array of floating point numbers -/
theorem rows_norm (z : ℝ) (A : Mat ℝ) :
    ((List.range A.nr).foldl (fun A i => Arr.normRow z A i) (Arr.of .float64 A)).rows = (Geom.rowList A).map Geom.normRow := by
  obtain ⟨h1, h2, h3, h4⟩ := normRow_foldl z (Arr.of .float64 A) A.nr
  generalize (List.range A.nr).foldl (fun A i => Arr.normRow z A i) (Arr.of .float64 A) = B at h1 h2 h3 h4
  unfold Arr.rows Geom.rowList
  rw [List.map_map, show B.nr = A.nr from h2]
  refine List.map_congr_left fun i hi => ?_
  have hi := List.mem_range.1 hi
  have hn : (Arr.of .float64 A).norm i = some (vnorm (A.row i)) := if_pos fun _ _ => rfl
  have hB : ∀ j, B.e i j = if vnorm (A.row i) = 0 then none else some (A.e i j / vnorm (A.row i)) := fun j => by
    rw [h4, if_pos hi, hn]; rfl
  show _ = if (A.row i).n ≠ 0 ∧ vnorm (A.row i) = 0 then none else some ((A.row i).divS (vnorm (A.row i)))
  by_cases h0 : vnorm (A.row i) = 0
  · by_cases hnc : A.nc = 0
    · have hs : B.norm i = some _ := if_pos (show ∀ j < B.nc, (B.e i j).isSome from fun j hj => by
        rw [h3] at hj
        have : j < A.nc := hj
        omega)
      rw [hs, if_neg (fun h => h.1 hnc)]
      show some (⟨B.nc, _⟩ : Vec ℝ) = some ⟨A.nc, _⟩
      rw [show B.nc = A.nc from h3]
      congr 2
      funext j
      rw [hB, if_pos h0, h0]
      show (0 : ℝ) = _ / 0
      rw [div_zero]
    · have hs : B.norm i = none := if_neg (show ¬ ∀ j < B.nc, (B.e i j).isSome from fun h => by
        have := h 0 (by rw [h3]; exact Nat.pos_of_ne_zero hnc)
        rw [hB, if_pos h0] at this
        cases this)
      rw [hs, if_pos ⟨hnc, h0⟩]
      rfl
  · have hs : B.norm i = some _ := if_pos (show ∀ j < B.nc, (B.e i j).isSome from fun j _ => by rw [hB, if_neg h0]; rfl)
    rw [hs, if_neg (fun h => h0 h.2)]
    show some (⟨B.nc, _⟩ : Vec ℝ) = some ⟨A.nc, _⟩
    rw [show B.nc = A.nc from h3]
    congr 2
    funext j
    rw [hB, if_neg h0]
    rfl

theorem rows_of (A : Mat ℝ) (dt : Dtype) : (Arr.of dt A).rows = (Geom.rowList A).map some := by
  unfold Arr.rows Geom.rowList
  rw [List.map_map]
  refine List.map_congr_left fun i _ => ?_
  have hn : (Arr.of dt A).norm i = some (vnorm (A.row i)) := if_pos fun _ _ => rfl
  rw [hn]
  rfl

/-- on floating point numbers the answer is the one of the model without memory -/
theorem same_rows_float (z : ℝ) (m : Mem) (a b : ℕ) (A B : Mat ℝ) (hA : m a = Arr.of .float64 A) (hB : m b = Arr.of .float64 B) (normalize : Bool) :
    (same_rows z m a b normalize).1 = Geom.same_rows A B normalize := by
  unfold same_rows Geom.same_rows
  have e1 : (m a).nr = A.nr ∧ (m a).nc = A.nc := by rw [hA]; exact ⟨rfl, rfl⟩
  have e2 : (m b).nr = B.nr ∧ (m b).nc = B.nc := by rw [hB]; exact ⟨rfl, rfl⟩
  rw [e1.1, e1.2, e2.1, e2.2]
  by_cases h1 : A.nr = B.nr
  · rw [if_neg (not_not.2 h1), if_neg (not_not.2 h1)]
    simp only []
    cases normalize
    · simp only [Bool.false_eq_true, if_false]
      rw [hA, hB, rows_of, rows_of]
    · simp only [if_true]
      obtain ⟨-, n1, n2⟩ := normRows_foldl z m a b A.nr
      rw [n1 (Or.inr (by rw [hA]; rfl)), n2 (Or.inr (by rw [hB]; rfl)), hA, hB, rows_norm]
      have := rows_norm z B
      rw [← h1] at this
      rw [this]
  · rw [if_pos h1, if_pos h1]

theorem same_rows_mem (z : ℝ) (m : Mem) (a b : ℕ) (normalize : Bool) :
    (same_rows z m a b normalize).2 = if (m a).nr ≠ (m b).nr then m
      else if normalize then (List.range (m a).nr).foldl (Mem.normRows z a b) m else m := by
  unfold same_rows
  split_ifs <;> simp_all

end Dtype

namespace Props
open Dtype

/-- C109 (partial): `same_rows` writes no array but its arguments.  It writes none if `normalize` is False or the numbers of rows differ, and rows
of floating point numbers with norm one stay as they are.  Otherwise the rows of floating point numbers that do not vanish have been divided by
their norms after the call, also if the arguments are the same array.

Missing: the arguments are never changed, which is false (`C109_false`). -/
theorem C109_partial (z : ℝ) (m : Mem) (a b : ℕ) (normalize : Bool) :
    let m' := (same_rows z m a b normalize).2
    (∀ c, c ≠ a → c ≠ b → m' c = m c) ∧
    (normalize = false ∨ (m a).nr ≠ (m b).nr → m' = m) ∧
    ∀ A B : Mat ℝ, m a = Arr.of .float64 A → m b = Arr.of .float64 B → A.nr = B.nr → normalize = true →
      ∀ c M, (c = a ∧ M = A ∨ c = b ∧ M = B) → (m' c).dt = .float64 ∧ (m' c).nr = M.nr ∧ (m' c).nc = M.nc ∧ ∀ i < M.nr,
        let ν := Real.sqrt (∑ j ∈ range M.nc, M.e i j ^ 2)
        (ν = 1 → ∀ j, (m' c).e i j = (m c).e i j) ∧ (0 < ν → ∀ j, (m' c).e i j = some (M.e i j / ν)) := by
  intro m'
  have hm : m' = _ := same_rows_mem z m a b normalize
  obtain ⟨n1, n2, n3⟩ := normRows_foldl z m a b (m a).nr
  refine ⟨fun c ha hb => ?_, fun h => ?_, fun A B hA hB hr hn c M hc => ?_⟩
  · rw [hm]
    split_ifs
    · rfl
    · exact n1 c ha hb
    · rfl
  · rw [hm]
    split_ifs with h1 h2
    · rfl
    · rcases h with h | h
      · rw [h] at h2; cases h2
      · exact absurd h h1
    · rfl
  · have hnr : (m a).nr = (m b).nr := by rw [hA, hB]; exact hr
    rw [if_neg (not_not.2 hnr), hn, if_pos rfl] at hm
    have hrA : (m a).nr = A.nr := by rw [hA]; rfl
    have key : m' c = (List.range M.nr).foldl (fun A i => Arr.normRow z A i) (Arr.of .float64 M) ∧ m c = Arr.of .float64 M := by
      rcases hc with ⟨rfl, rfl⟩ | ⟨rfl, rfl⟩
      · rw [hm, n2 (Or.inr (by rw [hA]; rfl)), hA]
        exact ⟨rfl, rfl⟩
      · rw [hm, n3 (Or.inr (by rw [hB]; rfl)), hrA, hr, hB]
        exact ⟨rfl, rfl⟩
    obtain ⟨h1, h2, h3, h4⟩ := normRow_foldl z (Arr.of .float64 M) M.nr
    rw [key.1]
    refine ⟨h1, h2, h3, fun i hi => ?_⟩
    intro ν
    have hv : (Arr.of .float64 M).norm i = some ν := if_pos fun _ _ => rfl
    have main : 0 < ν → ∀ j, ((List.range M.nr).foldl (fun A i => Arr.normRow z A i) (Arr.of .float64 M)).e i j = some (M.e i j / ν) := fun hν j => by
      rw [h4 i j, if_pos hi, hv]
      show (if ν = 0 then none else some (M.e i j / ν)) = _
      rw [if_neg hν.ne']
    refine ⟨fun h j => ?_, main⟩
    rw [main (by rw [h]; exact one_pos) j, key.2, h, div_one]
    rfl

/-- the array `[[3, 4]]` holds `[[3/5, 4/5]]` after `same_rows(A, A)` -/
example (z : ℝ) (m : Mem) (h : m 0 = Arr.of .float64 ⟨1, 2, fun _ j => if j = 0 then 3 else 4⟩) :
    ((same_rows z m 0 0).2 0).e 0 0 = some (3 / 5) ∧ ((same_rows z m 0 0).2 0).e 0 1 = some (4 / 5) := by
  obtain ⟨-, -, h1⟩ := C109_partial z m 0 0 true
  obtain ⟨-, -, -, h2⟩ := h1 _ _ h h rfl rfl 0 _ (Or.inl ⟨rfl, rfl⟩)
  have e : Real.sqrt (∑ j ∈ range 2, (if j = 0 then (3 : ℝ) else 4) ^ 2) = 5 := by
    rw [Finset.sum_range_succ, Finset.sum_range_one]
    norm_num
    rw [show (25 : ℝ) = 5 ^ 2 by norm_num]
    exact Real.sqrt_sq (by norm_num)
  have h3 := (h2 0 Nat.zero_lt_one).2
  simp only [e] at h3
  exact ⟨by simpa using h3 (by norm_num) 0, by simpa using h3 (by norm_num) 1⟩

/-- C109 is false: with `A = [[2.]]`, the set `{x | A x <= 2}` is `x <= 1` before and `x <= 2` after a call of `same_rows(A, [[1.]])`, for example on
the arrays of a polyhedron. -/
theorem C109_false : ∃ m : Mem, m 0 = Arr.of .float64 (one 2) ∧ m 1 = Arr.of .float64 (one 1) ∧
    ∀ z, (same_rows z m 0 1).1 = .ok true ∧ ∃ A' : Mat ℝ, ((same_rows z m 0 1).2 0).nr = 1 ∧ ((same_rows z m 0 1).2 0).nc = 1 ∧
      ((same_rows z m 0 1).2 0).e 0 0 = some (A'.e 0 0) ∧ A'.nr = 1 ∧ A'.nc = 1 ∧
      (∀ x, Spec.InPoly (one 2) (one' 2) (Mat.zeros 0 1) (Vec.zeros 0) x ↔ x 0 ≤ 1) ∧
      ∀ x, Spec.InPoly A' (one' 2) (Mat.zeros 0 1) (Vec.zeros 0) x ↔ x 0 ≤ 2 := by
  set m : Mem := fun k => if k = 0 then Arr.of .float64 (one 2) else Arr.of .float64 (one 1) with hm
  have h0 : m 0 = Arr.of .float64 (one 2) := rfl
  have h1 : m 1 = Arr.of .float64 (one 1) := rfl
  have mem1 : ∀ (a : ℝ) (x : ℕ → ℝ), Spec.InPoly (one a) (one' 2) (Mat.zeros 0 1) (Vec.zeros 0) x ↔ a * x 0 ≤ 2 := fun a x => by
    show ((∀ i < 1, ∑ j ∈ range 1, a * x j ≤ 2) ∧ ∀ i < 0, _) ↔ _
    rw [Finset.sum_range_one]
    exact ⟨fun h => h.1 0 Nat.zero_lt_one, fun h => ⟨fun _ _ => h, fun i hi => absurd hi (Nat.not_lt_zero i)⟩⟩
  refine ⟨m, h0, h1, fun z => ?_⟩
  obtain ⟨-, -, q⟩ := C109_partial z m 0 1 true
  obtain ⟨-, q2, q3, q4⟩ := q (one 2) (one 1) h0 h1 rfl rfl 0 (one 2) (Or.inl ⟨rfl, rfl⟩)
  have e2 : Real.sqrt (∑ j ∈ range 1, (2 : ℝ) ^ 2) = 2 := by rw [Finset.sum_range_one]; exact Real.sqrt_sq (by norm_num)
  have v1 : ∀ a : ℝ, 0 < a → Geom.normRow ((one a).row 0) = some ⟨1, fun _ => 1⟩ := fun a ha => by
    have hv : vnorm ((one a).row 0) = a := vnorm_one a ha.le _ rfl
    unfold Geom.normRow
    rw [hv, if_neg (fun h => ha.ne' h.2)]
    show some (⟨1, fun _ => a / a⟩ : Vec ℝ) = _
    rw [div_self ha.ne']
  refine ⟨?_, one 1, q2, q3, ?_, rfl, rfl, fun x => ?_, fun x => ?_⟩
  · rw [same_rows_float z m 0 1 _ _ h0 h1 true]
    unfold Geom.same_rows
    rw [if_neg (by simp [one])]
    simp only []
    rw [compareRows_same (show (one 2).nc = (one 1).nc from rfl)]
    have hr : ∀ a : ℝ, 0 < a → (Geom.rowList (one a)).map Geom.normRow = [some ⟨1, fun _ => 1⟩] := fun a ha => by
      show [Geom.normRow ((one a).row 0)] = _
      rw [v1 a ha]
    simp only [if_true, hr 2 (by norm_num), hr 1 (by norm_num)]
    rw [matchRows_single _ _ _ (by simp [Geom.allclose]; norm_num)]
  · have := (q4 0 Nat.zero_lt_one).2
    simp only [one] at this
    rw [e2] at this
    have h := this (by norm_num) 0
    rw [h]
    simp [one]
  · rw [mem1]
    exact ⟨fun h => by linarith, fun h => by linarith⟩
  · rw [mem1, one_mul]

/-- C110 (partial): the answer `same_rows(A, B) = True` is right for arrays of floating point numbers: there is a one to one matching of the rows under which the
normalized rows agree within the tolerances of `allclose`.

Missing: the same for arrays of integers, which is false (`C110_false`). -/
theorem C110_partial (z : ℝ) (m : Mem) (a b : ℕ) (A B : Mat ℝ) (hA : m a = Arr.of .float64 A) (hB : m b = Arr.of .float64 B) (hn : 0 < A.nc) (hn' : 0 < B.nc)
    (h : (same_rows z m a b).1 = .ok true) :
    A.nr = B.nr ∧ (0 < A.nr → A.nc = B.nc) ∧ ∃ σ : Fin A.nr ≃ Fin B.nr, ∀ (i : Fin A.nr),
      0 < ∑ j ∈ range A.nc, A.e i j ^ 2 ∧ 0 < ∑ j ∈ range B.nc, B.e (σ i) j ^ 2 ∧ ∀ j < A.nc,
      |A.e i j / Real.sqrt (∑ j ∈ range A.nc, A.e i j ^ 2)
        - B.e (σ i) j / Real.sqrt (∑ j ∈ range B.nc, B.e (σ i) j ^ 2)|
        ≤ 1e-8 + 1e-5 * |B.e (σ i) j / Real.sqrt (∑ j ∈ range B.nc, B.e (σ i) j ^ 2)| := by
  rw [same_rows_float z m a b A B hA hB true] at h
  exact C82 A B hn hn' h

/-- the rows of `[[2.]]` and `[[1.]]`, for instance, agree after normalization -/
example : ∃ (m : Mem) (A B : Mat ℝ), m 0 = Arr.of .float64 A ∧ m 1 = Arr.of .float64 B ∧ 0 < A.nc ∧ 0 < B.nc ∧ A.e 0 0 ≠ B.e 0 0 ∧ (same_rows 0 m 0 1).1 = .ok true := by
  obtain ⟨m, h0, h1, h⟩ := C109_false
  exact ⟨m, _, _, h0, h1, Nat.zero_lt_one, Nat.zero_lt_one, by simp [one], (h 0).1⟩

/-- C110 is false: `same_rows(np.array([[1, 1]]), np.array([[1, 2]]))` is True. -/
theorem C110_false : ∃ m : Mem, (m 0).Valid ∧ (m 1).Valid ∧
    m 0 = Arr.of .int64 ⟨1, 2, fun _ _ => 1⟩ ∧ m 1 = Arr.of .int64 ⟨1, 2, fun _ j => if j = 0 then 1 else 2⟩ ∧ ∀ z, (same_rows z m 0 1).1 = .ok true := by
  set A : Mat ℝ := ⟨1, 2, fun _ _ => 1⟩ with hA
  set B : Mat ℝ := ⟨1, 2, fun _ j => if j = 0 then 1 else 2⟩ with hB
  set m : Mem := fun k => if k = 0 then Arr.of .int64 A else Arr.of .int64 B with hm
  have h0 : m 0 = Arr.of .int64 A := rfl
  have h1 : m 1 = Arr.of .int64 B := rfl
  refine ⟨m, fun _ i _ j _ => ⟨1, ?_⟩, fun _ i _ j _ => ⟨if j = 0 then 1 else 2, ?_⟩, h0, h1, fun z => ?_⟩
  · rw [h0]; simp [Arr.of, hA]
  · rw [h1]
    simp only [Arr.of, hB]
    split_ifs <;> simp
  -- both rows are stored as zeros
  have key : ∀ M : Mat ℝ, M.nr = 1 → M.nc = 2 → M.e 0 0 ≠ 0 → M.e 0 1 ≠ 0 →
      ((List.range 1).foldl (fun A i => Arr.normRow z A i) (Arr.of .int64 M)).rows = [some ⟨2, fun j => (((List.range 1).foldl (fun A i => Arr.normRow z A i) (Arr.of .int64 M)).e 0 j).getD 0⟩] ∧
      ∀ j < 2, ((List.range 1).foldl (fun A i => Arr.normRow z A i) (Arr.of .int64 M)).e 0 j = some 0 := by
    intro M r1 r2 n0 n1
    obtain ⟨-, q2, q3, q4⟩ := normRow_foldl z (Arr.of .int64 M) 1
    generalize (List.range 1).foldl (fun A i => Arr.normRow z A i) (Arr.of .int64 M) = N at q2 q3 q4 ⊢
    have hv : (Arr.of .int64 M).norm 0 = some (Real.sqrt (∑ j ∈ range 2, M.e 0 j ^ 2)) := by
      rw [show range 2 = range M.nc by rw [r2]]; exact if_pos fun _ _ => rfl
    have l0 := abs_lt_norm (v := M.e 0) (n := 2) (by norm_num : 0 < 2) (by norm_num : 1 < 2) (by norm_num) n1
    have l1 := abs_lt_norm (v := M.e 0) (n := 2) (by norm_num : 1 < 2) (by norm_num : 0 < 2) (by norm_num) n0
    have hpos := lt_of_le_of_lt (abs_nonneg _) l0
    have hz : ∀ j < 2, N.e 0 j = some 0 := fun j hj => by
      rw [q4, if_pos Nat.zero_lt_one, hv]
      show storeNan z .int64 (quot (some (M.e 0 j)) _) = _
      rw [show quot (some (M.e 0 j)) (some (Real.sqrt (∑ j ∈ range 2, M.e 0 j ^ 2))) = some _ from if_neg hpos.ne']
      show some (Dtype.int64.store _) = _
      rw [store_small]
      rw [abs_div, abs_of_pos hpos, div_lt_one hpos]
      interval_cases j
      · exact l0
      · exact l1
    refine ⟨?_, hz⟩
    have hs : N.norm 0 = some _ := if_pos (show ∀ j < N.nc, (N.e 0 j).isSome from fun j hj => by
      rw [hz j (by rw [q3] at hj; exact lt_of_lt_of_eq hj r2)]; rfl)
    unfold Arr.rows
    rw [show N.nr = 1 from q2.trans r1, show N.nc = 2 from q3.trans r2]
    show [(N.norm 0).map _] = _
    rw [hs]
    rfl
  obtain ⟨-, n1, n2⟩ := normRows_foldl z m 0 1 1
  obtain ⟨a1, a2⟩ := key A rfl rfl (by simp [hA]) (by simp [hA])
  obtain ⟨b1, b2⟩ := key B rfl rfl (by simp [hB]) (by simp [hB])
  unfold same_rows
  rw [if_neg (by simp [h0, h1, Arr.of, hA, hB])]
  simp only [if_true]
  rw [compareRows_same (by simp [h0, h1, Arr.of, hA, hB]), show (m 0).nr = 1 from rfl, n1 (Or.inl (by norm_num)), n2 (Or.inl (by norm_num)), h0, h1, a1, b1]
  rw [matchRows_single]
  simp only [Geom.allclose, decide_eq_true_eq]
  intro i hi
  rw [a2 i hi, b2 i hi]
  norm_num

end Props
end Verif
