import Verif.Props.PolyhedronBasic

/-
Properties of bounds, `normalize`, `contains`, `intersection` and `cartesian_product` of
`/repo/pympc/geometry/polyhedron.py` (C04 - C08, C13, C14).
-/
namespace Verif.Props
open Finset

theorem runOn_ok {p q : Poly} {m : PyM Poly Unit} : Poly.runOn p m = .ok q ↔ m p = (.ok (), q) := by
  unfold Poly.runOn
  rcases m p with ⟨r | r, p'⟩
  · simp
  · simp

theorem runOn_error {p q : Poly} {m : PyM Poly Unit} {e : PyErr} (h : m p = (.error e, q)) :
    Poly.runOn p m = .error e := by
  unfold Poly.runOn
  rw [h]

/-- C04: `from_lower_bound`, `from_upper_bound` and `from_bounds` with one dimensional arrays represent
exactly the points whose coordinates `l` (all of them, if `indices` is omitted) are within the bounds.
The dimension is `n`, or the size of the bound if neither `n` nor `indices` is given. -/
theorem C04 (lo hi : Vec ℝ) (idx : Option (List ℕ)) (N : Option ℕ) (n : ℕ)
    (hn : N = some n ∨ (N = none ∧ idx = none ∧ n = lo.n ∧ n = hi.n))
    (hidx : ∀ l, idx = some l → Spec.Increasing n l) :
    let l := idx.getD (List.range n)
    -- lower bounds
    (lo.n = l.length → ∃ p, Poly.from_lower_bound (.arr (.d1 lo)) idx N = .ok p ∧ p.Inv n ∧
      ∀ x, p.Mem x ↔ ∀ k < l.length, lo.e k ≤ x (l.getD k 0)) ∧
    -- upper bounds
    (hi.n = l.length → ∃ p, Poly.from_upper_bound (.arr (.d1 hi)) idx N = .ok p ∧ p.Inv n ∧
      ∀ x, p.Mem x ↔ ∀ k < l.length, x (l.getD k 0) ≤ hi.e k) ∧
    -- both
    (lo.n = l.length → hi.n = l.length →
      ∃ p, Poly.from_bounds (.arr (.d1 lo)) (.arr (.d1 hi)) idx N = .ok p ∧ p.Inv n ∧
      ∀ x, p.Mem x ↔ ∀ k < l.length, lo.e k ≤ x (l.getD k 0) ∧ x (l.getD k 0) ≤ hi.e k) := by
  intro l
  have hc : Poly.checkN idx N = .ok () := by
    refine if_neg ?_
    rintro ⟨h1, h2⟩
    rcases hn with rfl | ⟨rfl, rfl, -⟩ <;> simp at h1 h2
  have hd1 : Poly.dimOf (.arr (.d1 lo)) N = .ok n := by
    rcases hn with rfl | ⟨rfl, rfl, h, -⟩
    · rfl
    · rw [h]; rfl
  have hd2 : Poly.dimOf (.arr (.d1 hi)) N = .ok n := by
    rcases hn with rfl | ⟨rfl, rfl, -, h⟩
    · rfl
    · rw [h]; rfl
  have hmem := Poly.empty_mem n
  refine ⟨fun h => ?_, fun h => ?_, fun h h' => ?_⟩
  · obtain ⟨q, hq⟩ := (AddOp.call_ok (Poly.empty_inv n) (.lower (.arr (.d1 lo)) idx) hidx).2
      ⟨_, lo, rfl, h, rfl⟩
    obtain ⟨h1, h2⟩ := AddOp.call_mem (Poly.empty_inv n) (.lower (.arr (.d1 lo)) idx) hidx hq
    refine ⟨q, ?_, h1, fun x => ?_⟩
    · unfold Poly.from_lower_bound
      rw [hc, Py.ok_bind, hd1, Py.ok_bind, Poly.init_empty, Py.ok_bind]
      exact runOn_ok.2 hq
    · rw [h2]
      simp only [hmem, true_and, AddOp.Holds, AddOp.idx]
      exact ⟨fun ⟨u, ⟨w, hw, _, hu⟩, hx⟩ => by cases hw; rw [hu]; exact hx,
        fun hx => ⟨_, ⟨lo, rfl, h, rfl⟩, hx⟩⟩
  · obtain ⟨q, hq⟩ := (AddOp.call_ok (Poly.empty_inv n) (.upper (.arr (.d1 hi)) idx) hidx).2
      ⟨_, hi, rfl, h, rfl⟩
    obtain ⟨h1, h2⟩ := AddOp.call_mem (Poly.empty_inv n) (.upper (.arr (.d1 hi)) idx) hidx hq
    refine ⟨q, ?_, h1, fun x => ?_⟩
    · unfold Poly.from_upper_bound
      rw [hc, Py.ok_bind, hd2, Py.ok_bind, Poly.init_empty, Py.ok_bind]
      exact runOn_ok.2 hq
    · rw [h2]
      simp only [hmem, true_and, AddOp.Holds, AddOp.idx]
      exact ⟨fun ⟨u, ⟨w, hw, _, hu⟩, hx⟩ => by cases hw; rw [hu]; exact hx,
        fun hx => ⟨_, ⟨hi, rfl, h, rfl⟩, hx⟩⟩
  · obtain ⟨q, hq⟩ := (AddOp.call_ok (Poly.empty_inv n) (.bounds (.arr (.d1 lo)) (.arr (.d1 hi)) idx)
      hidx).2 ⟨⟨_, lo, rfl, h, rfl⟩, _, hi, rfl, h', rfl⟩
    obtain ⟨h1, h2⟩ := AddOp.call_mem (Poly.empty_inv n) (.bounds (.arr (.d1 lo)) (.arr (.d1 hi)) idx) hidx hq
    refine ⟨q, ?_, h1, fun x => ?_⟩
    · unfold Poly.from_bounds
      rw [hc, Py.ok_bind]
      show (if lo.n ≠ hi.n then _ else _) = _
      rw [if_neg (by rw [h, h']; simp), hd1, Py.ok_bind, Poly.init_empty, Py.ok_bind]
      exact runOn_ok.2 hq
    · rw [h2]
      simp only [hmem, true_and, AddOp.Holds, AddOp.idx]
      exact ⟨fun ⟨u, t, ⟨w, hw, _, hu⟩, ⟨w', hw', _, ht⟩, hx⟩ => by
          cases hw; cases hw'; rw [hu, ht]; exact hx,
        fun hx => ⟨_, _, ⟨lo, rfl, h, rfl⟩, ⟨hi, rfl, h', rfl⟩, hx⟩⟩

/-- C04, errors: `indices` without `n`, bounds of different sizes, and bounds whose size is not the
number of selected coordinates raise `ValueError`. -/
theorem C04_errors (lo hi : Vec ℝ) (n : ℕ) :
    (∀ l x y, Poly.from_lower_bound x (some l) none = .error .valueError ∧
      Poly.from_upper_bound x (some l) none = .error .valueError ∧
      Poly.from_bounds x y (some l) none = .error .valueError) ∧
    (∀ idx N, lo.n ≠ hi.n →
      Poly.from_bounds (.arr (.d1 lo)) (.arr (.d1 hi)) idx N = .error .valueError) ∧
    (∀ idx, (∀ l, idx = some l → Spec.Increasing n l) → lo.n ≠ (idx.getD (List.range n)).length →
      Poly.from_lower_bound (.arr (.d1 lo)) idx (some n) = .error .valueError ∧
      Poly.from_upper_bound (.arr (.d1 lo)) idx (some n) = .error .valueError) := by
  refine ⟨fun l x y => ⟨rfl, rfl, rfl⟩, fun idx N h => ?_, fun idx hidx h => ?_⟩
  · unfold Poly.from_bounds
    by_cases hc : idx.isSome ∧ N.isNone
    · rw [show Poly.checkN idx N = .error .valueError from if_pos hc]; rfl
    · rw [show Poly.checkN idx N = .ok () from if_neg hc, Py.ok_bind]
      show (if lo.n ≠ hi.n then _ else _) = _
      rw [if_pos h]
  · have hc : Poly.checkN idx (some n) = .ok () := if_neg (by simp)
    rw [← Poly.sel_eq hidx] at h
    constructor
    · unfold Poly.from_lower_bound
      rw [hc, Py.ok_bind]
      show Poly.runOn _ _ = _
      refine runOn_error (q := Poly.fresh (Mat.zeros 0 n) (Vec.zeros 0) (Mat.zeros 0 n) (Vec.zeros 0)) ?_
      rw [Poly.add_lower_bound_eq, Poly.add_inequality_run]
      exact if_pos (fun h' : (Poly.sel n idx).length = lo.n => h h'.symm)
    · unfold Poly.from_upper_bound
      rw [hc, Py.ok_bind]
      show Poly.runOn _ _ = _
      refine runOn_error (q := Poly.fresh (Mat.zeros 0 n) (Vec.zeros 0) (Mat.zeros 0 n) (Vec.zeros 0)) ?_
      rw [Poly.add_upper_bound_eq, Poly.add_inequality_run]
      exact if_pos (fun h' : (Poly.sel n idx).length = lo.n => h h'.symm)

/-- bounds on the coordinates 1 and 2 in `R^3` meet the hypotheses of C04 -/
example : let idx := some [1, 2]; let lo : Vec ℝ := ⟨2, fun _ => -1⟩
    (∀ l, idx = some l → Spec.Increasing 3 l) ∧ lo.n = (idx.getD (List.range 3)).length := by
  refine ⟨fun l h => ?_, rfl⟩
  cases h
  exact ⟨by simp, by simp⟩

/-- C05 is false of the code: with `indices = [1, 0]` and `x_min = [1, 2]` the point `(1, 2)` is
accepted, although its coordinate 0 is smaller than the bound 2. -/
theorem C05_false : ∃ (p q : Poly) (lo : Vec ℝ) (l : List ℕ) (x : ℕ → ℝ), p.Inv 2 ∧ l.Nodup ∧
    (∀ i ∈ l, i < 2) ∧ lo.n = l.length ∧
    Poly.add_lower_bound (.arr (.d1 lo)) (some l) p = (.ok (), q) ∧ q.Mem x ∧
    ¬ ∀ k < l.length, lo.e k ≤ x (l.getD k 0) := by
  have hs : Poly.sel 2 (some [1, 0]) = [0, 1] := by decide
  obtain ⟨q, hq⟩ := Poly.add_lower_bound_ok (Poly.empty_inv 2)
    (.arr (.d1 ⟨2, fun i => if i = 0 then 1 else 2⟩)) (some [1, 0]) rfl (by rw [hs]; rfl)
  obtain ⟨-, v, h1, -, h3⟩ := Poly.add_lower_bound_spec (Poly.empty_inv 2) _ _ q hq
  simp only [Poly.Bound.toArr, NDArr.d1.injEq] at h1
  subst h1
  refine ⟨_, q, _, [1, 0], fun i => if i = 0 then 1 else 2, Poly.empty_inv 2, by simp, by simp,
    rfl, hq, ?_, ?_⟩
  · rw [h3, hs]
    refine ⟨Poly.empty_mem 2 _, fun k hk => ?_⟩
    have : k < 2 := hk
    interval_cases k <;> simp
  · intro h
    have := h 1 (by simp)
    simp at this

/-- C05, what holds: `x_min[k]` bounds the `k`-th **smallest** of the coordinates in `indices`, so the
claim holds for lists in increasing order.  `l'` is the list in increasing order.  Missing with respect
to C05: lists in any order (false, see `C05_false`). -/
theorem C05_partial (n : ℕ) (p q : Poly) (hp : p.Inv n) (lo : Vec ℝ) (l l' : List ℕ)
    (hl : l'.Perm l) (hl' : Spec.Increasing n l')
    (h : Poly.add_lower_bound (.arr (.d1 lo)) (some l) p = (.ok (), q)) :
    (∀ x, q.Mem x ↔ p.Mem x ∧ ∀ k < l'.length, lo.e k ≤ x (l'.getD k 0)) ∧
    (l.Pairwise (· < ·) → ∀ x, q.Mem x → ∀ k < l.length, lo.e k ≤ x (l.getD k 0)) := by
  have hs : Poly.sel n (some l) = l' := by
    rw [← Poly.sel_some hl']
    simp only [Poly.sel, Option.getD_some]
    refine List.filter_congr fun i _ => ?_
    simp [hl.mem_iff]
  obtain ⟨-, v, h1, -, h3⟩ := Poly.add_lower_bound_spec hp _ _ q h
  simp only [Poly.Bound.toArr, NDArr.d1.injEq] at h1
  subst h1
  rw [hs] at h3
  refine ⟨h3, fun hinc x hx => ?_⟩
  have : l' = l := List.Pairwise.eq_of_mem_iff hl'.1 hinc fun i => hl.mem_iff
  rw [← this]
  exact ((h3 x).1 hx).2

/-- the list [2, 0] and its reordering [0, 2] meet the hypotheses -/
example : [0, 2].Perm [2, 0] ∧ Spec.Increasing 3 [0, 2] :=
  ⟨List.Perm.swap _ _ _, by simp, by simp⟩

/-- C06 is false of the code: with a column as right-hand side the call raises, but the rows of `A` have
been added already, so that the object has more rows than right-hand sides. -/
theorem C06_false : ∃ (p q : Poly) (A : Mat ℝ) (b : NDArr ℝ), p.Inv 1 ∧
    Poly.add_inequality A b none p = (.error .valueError, q) ∧ q.b.n ≠ q.A.nr ∧
    ∃ q', Poly.add_equality A b none p = (.error .valueError, q') ∧ q'.d.n ≠ q'.C.nr := by
  refine ⟨_, _, ⟨1, 1, fun _ _ => 1⟩, .d2 ⟨1, 1, fun _ _ => 1⟩, Poly.empty_inv 1, rfl, ?_, _, rfl, ?_⟩
  · show (0 : ℕ) ≠ 0 + 1; omega
  · show (0 : ℕ) ≠ 0 + 1; omega

/-- C06, what holds: if the right-hand side is one dimensional, or the number of its entries is wrong, a
failing call leaves the inequalities and equalities as they were.  Missing with respect to C06:
right-hand sides with two dimensions (false, see `C06_false`). -/
theorem C06_partial (n : ℕ) (p q : Poly) (hp : p.Inv n) (A : Mat ℝ) (b : NDArr ℝ) (idx : Option (List ℕ))
    (e : PyErr) (hb : b.ndim = 1 ∨ b.size ≠ A.nr) :
    (Poly.add_inequality A b idx p = (.error e, q) →
      e = .valueError ∧ q.A = p.A ∧ q.b = p.b ∧ q.C = p.C ∧ q.d = p.d) ∧
    (Poly.add_equality A b idx p = (.error e, q) →
      e = .valueError ∧ q.A = p.A ∧ q.b = p.b ∧ q.C = p.C ∧ q.d = p.d) := by
  constructor
  · intro h
    rw [Poly.add_inequality_run] at h
    split_ifs at h with h1 h2
    · cases h; exact ⟨rfl, rfl, rfl, rfl, rfl⟩
    · cases h; exact ⟨rfl, rfl, rfl, rfl, rfl⟩
    · cases b with
      | d1 v => simp at h
      | d2 v => rcases hb with hb | hb
                · simp [NDArr.ndim] at hb
                · exact absurd (not_not.1 h1).symm hb
  · intro h
    rw [Poly.add_equality_run _ _ _ _ (hp.2.2.1.trans hp.1.symm)] at h
    split_ifs at h with h1 h2
    · cases h; exact ⟨rfl, rfl, rfl, rfl, rfl⟩
    · cases h; exact ⟨rfl, rfl, rfl, rfl, rfl⟩
    · cases b with
      | d1 v => simp at h
      | d2 v => rcases hb with hb | hb
                · simp [NDArr.ndim] at hb
                · exact absurd (not_not.1 h1).symm hb

/-- a failing call that meets the hypotheses: two columns for a polyhedron in `R` -/
example : ∃ q, Poly.add_inequality ⟨1, 2, fun _ _ => 1⟩ (.d1 ⟨1, fun _ => 1⟩) none
    (Poly.fresh (Mat.zeros 0 1) (Vec.zeros 0) (Mat.zeros 0 1) (Vec.zeros 0)) = (.error .valueError, q) :=
  ⟨_, rfl⟩

/-- C07: `normalize` keeps the sizes and the set, gives unit norm to the rows with norm above the
threshold, leaves the other rows untouched, and a second call changes nothing. -/
theorem C07 (n : ℕ) (p : Poly) (hp : p.Inv n) (tol : ℝ) (htol : 0 ≤ tol) :
    let q := p.normalize tol
    q.Inv n ∧ q.A.nr = p.A.nr ∧ q.C.nr = p.C.nr ∧ (∀ x, q.Mem x ↔ p.Mem x) ∧
    (∀ i < p.A.nr, tol < Real.sqrt (∑ j ∈ range n, p.A.e i j ^ 2) → ∑ j ∈ range n, q.A.e i j ^ 2 = 1) ∧
    (∀ i < p.A.nr, ¬ tol < Real.sqrt (∑ j ∈ range n, p.A.e i j ^ 2) →
      (∀ j < n, q.A.e i j = p.A.e i j) ∧ q.b.e i = p.b.e i) ∧
    (∀ i < p.C.nr, tol < Real.sqrt (∑ j ∈ range n, p.C.e i j ^ 2) → ∑ j ∈ range n, q.C.e i j ^ 2 = 1) ∧
    (∀ i < p.C.nr, ¬ tol < Real.sqrt (∑ j ∈ range n, p.C.e i j ^ 2) →
      (∀ j < n, q.C.e i j = p.C.e i j) ∧ q.d.e i = p.d.e i) ∧
    q.normalize tol = q := by
  intro q
  obtain ⟨s1, s2, s3, s4⟩ := hp
  obtain ⟨a1, a2, a3, a4, a5⟩ := Poly.normalizeRow_foldl tol p.A p.b p.A.nr
  obtain ⟨c1, c2, c3, c4, c5⟩ := Poly.normalizeRow_foldl tol p.C p.d p.C.nr
  have key : ∀ {A B : Mat ℝ} {i : ℕ}, A.nc = n → i < A.nr →
      (∀ i j, B.e i j = if i < A.nr ∧ vnorm (A.row i) > tol then A.e i j / vnorm (A.row i) else A.e i j) →
      tol < Real.sqrt (∑ j ∈ range n, A.e i j ^ 2) → ∑ j ∈ range n, B.e i j ^ 2 = 1 := by
    intro A B i hn hi hB ht
    have hv : vnorm (A.row i) = Real.sqrt (∑ j ∈ range n, A.e i j ^ 2) := by rw [← hn]; rfl
    have hpos : 0 < vnorm (A.row i) := by rw [hv]; exact lt_of_le_of_lt htol ht
    have : ∑ j ∈ range n, B.e i j ^ 2 = (∑ j ∈ range n, A.e i j ^ 2) / vnorm (A.row i) ^ 2 := by
      rw [Finset.sum_div]
      exact Finset.sum_congr rfl fun j _ => by rw [hB, if_pos ⟨hi, by rw [hv]; exact ht⟩, div_pow]
    rw [this, vnorm_sq, ← hn]
    refine div_self ?_
    have h2 := vnorm_sq (A.row i)
    have h3 : 0 < vnorm (A.row i) ^ 2 := by positivity
    rw [h2] at h3
    exact h3.ne'
  have key2 : ∀ {A B : Mat ℝ} {b c : Vec ℝ} {i : ℕ}, A.nc = n → i < A.nr →
      (∀ i j, B.e i j = if i < A.nr ∧ vnorm (A.row i) > tol then A.e i j / vnorm (A.row i) else A.e i j) →
      (∀ i, c.e i = if i < A.nr ∧ vnorm (A.row i) > tol then b.e i / vnorm (A.row i) else b.e i) →
      ¬ tol < Real.sqrt (∑ j ∈ range n, A.e i j ^ 2) →
      (∀ j < n, B.e i j = A.e i j) ∧ c.e i = b.e i := by
    intro A B b c i hn hi hB hc ht
    have hv : vnorm (A.row i) = Real.sqrt (∑ j ∈ range n, A.e i j ^ 2) := by rw [← hn]; rfl
    rw [← hv] at ht
    exact ⟨fun j _ => by rw [hB, if_neg (by simp [ht])], by rw [hc, if_neg (by simp [ht])]⟩
  have keyS : ∀ {A B : Mat ℝ} {b c : Vec ℝ}, 
      (∀ i j, B.e i j = if i < A.nr ∧ vnorm (A.row i) > tol then A.e i j / vnorm (A.row i) else A.e i j) →
      (∀ i, c.e i = if i < A.nr ∧ vnorm (A.row i) > tol then b.e i / vnorm (A.row i) else b.e i) →
      ∀ (x : ℕ → ℝ) (i : ℕ), ∃ s > 0, ∑ j ∈ range A.nc, B.e i j * x j = s * ∑ j ∈ range A.nc, A.e i j * x j ∧
        c.e i = s * b.e i := by
    intro A B b c hB hc x i
    by_cases h : i < A.nr ∧ vnorm (A.row i) > tol
    · refine ⟨1 / vnorm (A.row i), one_div_pos.2 (lt_of_le_of_lt htol h.2), ?_, ?_⟩
      · rw [Finset.mul_sum]
        exact Finset.sum_congr rfl fun j _ => by rw [hB, if_pos h]; ring
      · rw [hc, if_pos h]; ring
    · refine ⟨1, one_pos, ?_, ?_⟩
      · rw [one_mul]
        exact Finset.sum_congr rfl fun j _ => by rw [hB, if_neg h]
      · rw [hc, if_neg h, one_mul]
  refine ⟨⟨a2.trans s1, a3.trans (s2.trans a1.symm), c2.trans s3, c3.trans (s4.trans c1.symm)⟩, a1, c1,
    fun x => ?_, ?_, ?_, ?_, ?_, ?_⟩
  · show ((∀ i < q.A.nr, ∑ j ∈ range q.A.nc, q.A.e i j * x j ≤ q.b.e i) ∧
      ∀ i < q.C.nr, ∑ j ∈ range q.C.nc, q.C.e i j * x j = q.d.e i) ↔
      (∀ i < p.A.nr, ∑ j ∈ range p.A.nc, p.A.e i j * x j ≤ p.b.e i) ∧
      ∀ i < p.C.nr, ∑ j ∈ range p.C.nc, p.C.e i j * x j = p.d.e i
    rw [show q.A.nr = p.A.nr from a1, show q.A.nc = p.A.nc from a2, show q.C.nr = p.C.nr from c1,
      show q.C.nc = p.C.nc from c2]
    refine and_congr ?_ ?_
    · refine forall_congr' fun i => forall_congr' fun _ => ?_
      obtain ⟨s, hs, h1, h2⟩ := keyS a4 a5 x i
      rw [show ∑ j ∈ range p.A.nc, q.A.e i j * x j = _ from h1, show q.b.e i = _ from h2,
        mul_le_mul_iff_right₀ hs]
    · refine forall_congr' fun i => forall_congr' fun _ => ?_
      obtain ⟨s, hs, h1, h2⟩ := keyS c4 c5 x i
      rw [show ∑ j ∈ range p.C.nc, q.C.e i j * x j = _ from h1, show q.d.e i = _ from h2,
        mul_right_inj' hs.ne']
  · exact fun i hi => key s1 hi a4
  · exact fun i hi => key2 s1 hi a4 a5
  · exact fun i hi => key s3 hi c4
  · exact fun i hi => key2 s3 hi c4 c5
  · have e1 := Poly.normalizeRow_idem htol p.A p.b
    have e2 := Poly.normalizeRow_idem htol p.C p.d
    show Poly.normalize tol q = q
    unfold Poly.normalize
    have h1 : (List.range q.A.nr).foldl (Poly.normalizeRow tol) (q.A, q.b) = (q.A, q.b) := e1
    have h2 : (List.range q.C.nr).foldl (Poly.normalizeRow tol) (q.C, q.d) = (q.C, q.d) := e2
    rw [h1, h2]

/-- a row above and a row below the threshold 1/2 -/
example : ∃ p : Poly, p.Inv 1 ∧ (1 / 2 : ℝ) < Real.sqrt (∑ j ∈ range 1, p.A.e 0 j ^ 2) ∧
    ¬ (1 / 2 : ℝ) < Real.sqrt (∑ j ∈ range 1, p.A.e 1 j ^ 2) := by
  refine ⟨Poly.fresh ⟨2, 1, fun i _ => if i = 0 then 3 else 0⟩ ⟨2, fun _ => 1⟩ (Mat.zeros 0 1)
    (Vec.zeros 0), ⟨rfl, rfl, rfl, rfl⟩, ?_, ?_⟩
  · simp [Poly.fresh]; norm_num
  · simp [Poly.fresh]

theorem np_max_le {v : Vec ℝ} {m t : ℝ} (h : np.max v = .ok m) : m ≤ t ↔ ∀ i < v.n, v.e i ≤ t := by
  unfold np.max at h
  split_ifs at h
  injection h with h
  rw [← h]
  exact (Finset.sup'_le_iff _ _).trans (by simp)

theorem np_max_attained {v : Vec ℝ} {m : ℝ} (h : np.max v = .ok m) : ∃ i < v.n, v.e i = m := by
  unfold np.max at h
  split_ifs at h with h0
  injection h with h
  obtain ⟨i, hi, he⟩ := Finset.exists_mem_eq_sup' (⟨0, by simp; omega⟩ : (range v.n).Nonempty) v.e
  exact ⟨i, mem_range.1 hi, by rw [← h, he]⟩

theorem np_max_ok {v : Vec ℝ} (h : 0 < v.n) : ∃ m, np.max v = .ok m := by
  unfold np.max
  rw [dif_neg (by omega)]
  exact ⟨_, rfl⟩

/-- what `contains` computes -/
theorem contains_iff {n : ℕ} {p : Poly} (hp : p.Inv n) (hA : 0 < p.A.nr) (x : Vec ℝ) (hx : x.n = n)
    (tol : ℝ) : ∃ r, p.contains x tol = .ok r ∧ (r = true ↔
      (∀ i < p.A.nr, ∑ j ∈ range n, p.A.e i j * x.e j - p.b.e i ≤ tol) ∧
      (0 < p.C.nr → (∀ i < p.C.nr, ∑ j ∈ range n, p.C.e i j * x.e j - p.d.e i ≤ tol) ∧
        ∃ i < p.C.nr, (∀ k < p.C.nr, ∑ j ∈ range n, p.C.e k j * x.e j - p.d.e k
            ≤ ∑ j ∈ range n, p.C.e i j * x.e j - p.d.e i) ∧
          -tol ≤ ∑ j ∈ range n, p.C.e i j * x.e j - p.d.e i)) := by
  obtain ⟨s1, s2, s3, s4⟩ := hp
  have e1 : np.dotMV p.A x = .ok (p.A.mulVec x) := if_pos (s1.trans hx.symm)
  have e2 : np.subV (p.A.mulVec x) p.b = .ok ((p.A.mulVec x).sub p.b) := if_pos s2.symm
  obtain ⟨m, hm⟩ := np_max_ok (v := (p.A.mulVec x).sub p.b) hA
  have hm1 := np_max_le (t := tol) hm
  have hin : m ≤ tol ↔ ∀ i < p.A.nr, ∑ j ∈ range n, p.A.e i j * x.e j - p.b.e i ≤ tol := by
    rw [hm1, ← s1]; rfl
  unfold Poly.contains
  rw [e1, Py.ok_bind, e2, Py.ok_bind, hm, Py.ok_bind]
  by_cases hC : 0 < p.C.nr
  · have f1 : np.dotMV p.C x = .ok (p.C.mulVec x) := if_pos (s3.trans hx.symm)
    have f2 : np.subV (p.C.mulVec x) p.d = .ok ((p.C.mulVec x).sub p.d) := if_pos s4.symm
    obtain ⟨k, hk⟩ := np_max_ok (v := (p.C.mulVec x).sub p.d) hC
    obtain ⟨i, hi, hik⟩ := np_max_attained hk
    have hk1 := np_max_le (t := tol) hk
    have hk2 := (np_max_le (t := k) hk).1 le_rfl
    have hr : ∀ i, ((p.C.mulVec x).sub p.d).e i = ∑ j ∈ range n, p.C.e i j * x.e j - p.d.e i := by
      intro i; rw [← s3]; rfl
    simp only [hr] at hik hk1 hk2
    have e3 : Poly.eqResidualOk p.C p.d x tol = .ok (decide (|k| ≤ tol)) := by
      unfold Poly.eqResidualOk
      rw [if_pos hC, f1, Py.ok_bind, f2, Py.ok_bind, hk, Py.ok_bind]; rfl
    rw [e3, Py.ok_bind]
    refine ⟨_, rfl, ?_⟩
    rw [Bool.and_eq_true, decide_eq_true_eq, decide_eq_true_eq, hin, abs_le]
    refine and_congr_right fun _ => ?_
    constructor
    · rintro ⟨h1, h2⟩ -
      exact ⟨hk1.1 h2, i, hi, fun k' hk' => by rw [hik]; exact hk2 k' hk', by rw [hik]; exact h1⟩
    · intro h
      obtain ⟨h1, i', hi', h2, h3⟩ := h hC
      refine ⟨?_, hk1.2 h1⟩
      have := h2 i hi
      rw [hik] at this
      have h4 := hk2 i' hi'
      linarith
  · have e3 : Poly.eqResidualOk p.C p.d x tol = .ok true := by
      unfold Poly.eqResidualOk; rw [if_neg hC]; rfl
    rw [e3, Py.ok_bind]
    refine ⟨_, rfl, ?_⟩
    rw [Bool.and_true, decide_eq_true_eq, hin]
    exact ⟨fun h => ⟨h, fun h' => absurd h' hC⟩, fun h => h.1⟩

/-- C08 is false of the code: for the equalities `x0 = 0`, `x1 = 0` the point `(-5, 0)` is accepted. -/
theorem C08_false : ∃ (p : Poly) (x : Vec ℝ), p.Inv 2 ∧ 0 < p.A.nr ∧ x.n = 2 ∧
    p.contains x = .ok true ∧
    ¬ ∀ i < p.C.nr, |∑ j ∈ range 2, p.C.e i j * x.e j - p.d.e i| ≤ 1e-7 := by
  have hp : (Poly.fresh (Mat.zeros 1 2) (Vec.zeros 1) (Mat.eye 2) (Vec.zeros 2)).Inv 2 :=
    ⟨rfl, rfl, rfl, rfl⟩
  refine ⟨_, ⟨2, fun i => if i = 0 then -5 else 0⟩, hp, by norm_num [Poly.fresh], rfl, ?_, ?_⟩
  · obtain ⟨r, h1, h2⟩ := contains_iff hp (by norm_num [Poly.fresh])
      ⟨2, fun i => if i = 0 then -5 else 0⟩ rfl 1e-7
    rw [h1]
    congr 1
    rw [h2]
    have hc0 : ∑ j ∈ range 2, (Mat.eye 2 : Mat ℝ).e 0 j * (if j = 0 then (-5 : ℝ) else 0) = -5 := by
      simp [Mat.eye_e]
    have hc1 : ∑ j ∈ range 2, (Mat.eye 2 : Mat ℝ).e 1 j * (if j = 0 then (-5 : ℝ) else 0) = 0 := by
      simp [Mat.eye_e]
    refine ⟨fun i _ => ?_, fun _ => ⟨fun i hi => ?_, 1, by norm_num [Poly.fresh], fun k hk => ?_, ?_⟩⟩
    · simp [Poly.fresh]; norm_num
    · have hi' : i < 2 := hi
      simp only [Poly.fresh, Vec.zeros_e]
      interval_cases i
      · rw [hc0]; norm_num
      · rw [hc1]; norm_num
    · have hk' : k < 2 := hk
      simp only [Poly.fresh, Vec.zeros_e, hc1]
      interval_cases k
      · rw [hc0]; norm_num
      · rw [hc1]
    · simp only [Poly.fresh, Vec.zeros_e, hc1]; norm_num
  · intro h
    have := h 0 (by norm_num [Poly.fresh])
    simp [Poly.fresh, Mat.eye_e] at this
    norm_num at this

/-- C08, what holds: with at least one inequality `contains` answers; a point whose residuals are all
within `tol` is accepted; if there is at most one equality, only these are; and with any number of
equalities, an accepted point satisfies the inequalities and one side of the equalities within `tol`.
Missing with respect to C08: the other side of the equalities (false, see `C08_false`). -/
theorem C08_partial (n : ℕ) (p : Poly) (hp : p.Inv n) (hA : 0 < p.A.nr) (x : Vec ℝ) (hx : x.n = n)
    (tol : ℝ) : ∃ r, p.contains x tol = .ok r ∧
      ((∀ i < p.A.nr, ∑ j ∈ range n, p.A.e i j * x.e j - p.b.e i ≤ tol) →
        (∀ i < p.C.nr, |∑ j ∈ range n, p.C.e i j * x.e j - p.d.e i| ≤ tol) → r = true) ∧
      (r = true → (∀ i < p.A.nr, ∑ j ∈ range n, p.A.e i j * x.e j - p.b.e i ≤ tol) ∧
        (∀ i < p.C.nr, ∑ j ∈ range n, p.C.e i j * x.e j - p.d.e i ≤ tol) ∧
        (p.C.nr ≤ 1 → ∀ i < p.C.nr, |∑ j ∈ range n, p.C.e i j * x.e j - p.d.e i| ≤ tol)) := by
  obtain ⟨r, h1, h2⟩ := contains_iff hp hA x hx tol
  refine ⟨r, h1, fun h3 h4 => h2.2 ⟨h3, fun hC => ⟨fun i hi => (abs_le.1 (h4 i hi)).2, ?_⟩⟩, fun h => ?_⟩
  · obtain ⟨i, hi, hmax⟩ := Finset.exists_max_image (range p.C.nr)
      (fun i => ∑ j ∈ range n, p.C.e i j * x.e j - p.d.e i) ⟨0, mem_range.2 hC⟩
    exact ⟨i, mem_range.1 hi, fun k hk => hmax k (mem_range.2 hk), (abs_le.1 (h4 i (mem_range.1 hi))).1⟩
  · obtain ⟨h3, h4⟩ := h2.1 h
    refine ⟨h3, fun i hi => (h4 (by omega)).1 i hi, fun hle i hi => ?_⟩
    obtain ⟨h5, i', hi', h6, h7⟩ := h4 (by omega)
    have : i' = i := by omega
    subst this
    exact abs_le.2 ⟨h7, h5 _ hi⟩

/-- one inequality and one equality -/
example : ∃ p : Poly, p.Inv 2 ∧ 0 < p.A.nr ∧ p.C.nr = 1 :=
  ⟨Poly.fresh ⟨1, 2, fun _ _ => 1⟩ ⟨1, fun _ => 1⟩ ⟨1, 2, fun _ j => j⟩ ⟨1, fun _ => 2⟩,
    ⟨rfl, rfl, rfl, rfl⟩, by norm_num [Poly.fresh], rfl⟩

/-- C13: the intersection represents the points in both sets (and has no cached answers); polyhedra of
different dimensions are rejected. -/
theorem C13 (m n : ℕ) (p q : Poly) (hp : p.Inv m) (hq : q.Inv n) :
    (m = n → ∃ r, p.intersection q = .ok r ∧ r.Inv n ∧ (∀ x, r.Mem x ↔ p.Mem x ∧ q.Mem x) ∧
      r = Poly.fresh r.A r.b r.C r.d) ∧
    (m ≠ n → p.intersection q = .error .valueError) := by
  have hs : (Poly.sel n none).length = n := by rw [Poly.sel_none]; simp
  constructor
  · rintro rfl
    have h1 := (Poly.add_inequality_ok hq p.A (.d1 p.b) none _).2
      ⟨p.b, rfl, hp.2.1, by rw [hs]; exact hp.1, rfl⟩
    obtain ⟨i1, v, hv, -, -, h2⟩ := Poly.add_inequality_spec hq h1
    cases hv
    have h3 := (Poly.add_equality_ok i1 p.C (.d1 p.d) none _).2
      ⟨p.d, rfl, hp.2.2.2, by rw [hs]; exact hp.2.2.1, rfl⟩
    obtain ⟨i2, w, hw, -, -, h4⟩ := Poly.add_equality_spec i1 h3
    cases hw
    refine ⟨_, runOn_ok.2 (by rw [PyM.bind_ok h1]; exact h3), i2, fun x => ?_, rfl⟩
    rw [h4, h2]
    have e : ∀ (M : Mat ℝ) (i : ℕ), M.nc = m → ∑ k ∈ range M.nc, M.e i k * x ((Poly.sel m none).getD k 0)
        = ∑ k ∈ range M.nc, M.e i k * x k := fun M i hM => Finset.sum_congr rfl fun k hk => by
      rw [Poly.sel_none, Poly.getD_range (by rw [← hM]; exact mem_range.1 hk)]
    have e1 : Spec.IneqAt p.A p.b.e (Poly.sel m none) x ↔
        ∀ i < p.A.nr, ∑ j ∈ range p.A.nc, p.A.e i j * x j ≤ p.b.e i :=
      forall_congr' fun i => forall_congr' fun _ => by rw [e _ _ hp.1]
    have e2 : Spec.EqAt p.C p.d.e (Poly.sel m none) x ↔
        ∀ i < p.C.nr, ∑ j ∈ range p.C.nc, p.C.e i j * x j = p.d.e i :=
      forall_congr' fun i => forall_congr' fun _ => by rw [e _ _ hp.2.2.1]
    rw [e1, e2]
    unfold Poly.Mem Spec.InPoly
    tauto
  · intro hmn
    refine runOn_error (q := q.deleteAttributes) (PyM.bind_error ?_)
    rw [Poly.add_inequality_run, if_neg (by simp [NDArr.size, hp.2.1]), if_pos]
    rw [hq.1, hs, hp.1]
    exact hmn

/-- C14: the Cartesian product contains `(x, y)` exactly when the factors contain `x` and `y`. -/
theorem C14 (m n : ℕ) (p q : Poly) (hp : p.Inv m) (hq : q.Inv n) :
    ∃ r, p.cartesian_product q = .ok r ∧ r.Inv (m + n) ∧
      ∀ z : ℕ → ℝ, r.Mem z ↔ p.Mem z ∧ q.Mem fun j => z (m + j) := by
  obtain ⟨p1, p2, p3, p4⟩ := hp
  obtain ⟨q1, q2, q3, q4⟩ := hq
  refine ⟨Poly.fresh (Mat.bdiag [p.A, q.A]) (p.b.append q.b) (Mat.bdiag [p.C, q.C]) (p.d.append q.d),
    ?_, ?_, fun z => ?_⟩
  · unfold Poly.cartesian_product
    refine Poly.init_eq_ok.2 ⟨p.b.append q.b, rfl, ?_, Or.inr ⟨_, p.d.append q.d, rfl, rfl, ?_, rfl⟩⟩
    · show p.b.n + q.b.n = p.A.nr + (q.A.nr + 0); omega
    · show p.d.n + q.d.n = p.C.nr + (q.C.nr + 0); omega
  · refine ⟨?_, ?_, ?_, ?_⟩
    · show p.A.nc + (q.A.nc + 0) = m + n; omega
    · show p.b.n + q.b.n = p.A.nr + (q.A.nr + 0); omega
    · show p.C.nc + (q.C.nc + 0) = m + n; omega
    · show p.d.n + q.d.n = p.C.nr + (q.C.nr + 0); omega
  · have e : ∀ (M N : Mat ℝ), M.nc = m → N.nc = n → ∀ i,
        ∑ j ∈ range (Mat.bdiag [M, N]).nc, (Mat.bdiag [M, N]).e i j * z j
          = if i < M.nr then ∑ j ∈ range M.nc, M.e i j * z j
            else if i < M.nr + N.nr then ∑ j ∈ range N.nc, N.e (i - M.nr) j * z (m + j) else 0 := by
      intro M N hM hN i
      show ∑ j ∈ range (M.nc + (N.nc + 0)), (Mat.bdiag2 M (Mat.bdiag2 N ⟨0, 0, fun _ _ => 0⟩)).e i j * z j = _
      rw [Nat.add_zero, Finset.sum_range_add]
      by_cases hi : i < M.nr
      · rw [if_pos hi]
        have h1 : ∀ j ∈ range M.nc, (Mat.bdiag2 M (Mat.bdiag2 N ⟨0, 0, fun _ _ => 0⟩)).e i j * z j
            = M.e i j * z j := fun j hj => by simp [Mat.bdiag2, hi, mem_range.1 hj]
        have h2 : ∀ j ∈ range N.nc, (Mat.bdiag2 M (Mat.bdiag2 N ⟨0, 0, fun _ _ => 0⟩)).e i (M.nc + j)
            * z (M.nc + j) = 0 := fun j hj => by simp [Mat.bdiag2, hi]
        rw [Finset.sum_congr rfl h1, Finset.sum_eq_zero h2, add_zero]
      · rw [if_neg hi]
        have h1 : ∀ j ∈ range M.nc, (Mat.bdiag2 M (Mat.bdiag2 N ⟨0, 0, fun _ _ => 0⟩)).e i j * z j
            = 0 := fun j hj => by simp [Mat.bdiag2, hi, mem_range.1 hj]
        rw [Finset.sum_eq_zero h1, zero_add]
        split_ifs with h3
        · refine Finset.sum_congr rfl fun j hj => ?_
          have : i - M.nr < N.nr := by omega
          simp [Mat.bdiag2, hi, mem_range.1 hj, this, hM]
        · refine Finset.sum_eq_zero fun j hj => ?_
          have : ¬ i - M.nr < N.nr := by omega
          simp [Mat.bdiag2, hi, mem_range.1 hj, this]
    unfold Poly.Mem Spec.InPoly
    simp only [Poly.fresh]
    have a1 : (∀ i < (Mat.bdiag [p.A, q.A]).nr, ∑ j ∈ range (Mat.bdiag [p.A, q.A]).nc,
        (Mat.bdiag [p.A, q.A]).e i j * z j ≤ (p.b.append q.b).e i) ↔
        (∀ i < p.A.nr, ∑ j ∈ range p.A.nc, p.A.e i j * z j ≤ p.b.e i) ∧
        ∀ i < q.A.nr, ∑ j ∈ range q.A.nc, q.A.e i j * z (m + j) ≤ q.b.e i := by
      rw [show (Mat.bdiag [p.A, q.A]).nr = p.A.nr + q.A.nr from rfl, forall_lt_add]
      refine and_congr ?_ ?_
      · refine forall_congr' fun i => forall_congr' fun hi => ?_
        rw [e _ _ p1 q1, if_pos hi, Vec.append_e_lt _ _ (by omega)]
      · refine forall_congr' fun i => forall_congr' fun hi => ?_
        rw [e _ _ p1 q1, if_neg (by omega), if_pos (by omega)]
        rw [show (p.b.append q.b).e (p.A.nr + i) = q.b.e i by rw [← p2, Vec.append_e_add]]
        rw [Nat.add_sub_cancel_left]
    have a2 : (∀ i < (Mat.bdiag [p.C, q.C]).nr, ∑ j ∈ range (Mat.bdiag [p.C, q.C]).nc,
        (Mat.bdiag [p.C, q.C]).e i j * z j = (p.d.append q.d).e i) ↔
        (∀ i < p.C.nr, ∑ j ∈ range p.C.nc, p.C.e i j * z j = p.d.e i) ∧
        ∀ i < q.C.nr, ∑ j ∈ range q.C.nc, q.C.e i j * z (m + j) = q.d.e i := by
      rw [show (Mat.bdiag [p.C, q.C]).nr = p.C.nr + q.C.nr from rfl, forall_lt_add]
      refine and_congr ?_ ?_
      · refine forall_congr' fun i => forall_congr' fun hi => ?_
        rw [e _ _ p3 q3, if_pos hi, Vec.append_e_lt _ _ (by omega)]
      · refine forall_congr' fun i => forall_congr' fun hi => ?_
        rw [e _ _ p3 q3, if_neg (by omega), if_pos (by omega)]
        rw [show (p.d.append q.d).e (p.C.nr + i) = q.d.e i by rw [← p4, Vec.append_e_add]]
        rw [Nat.add_sub_cancel_left]
    rw [a1, a2]
    tauto

/-- factors without inequalities and without equalities meet the hypotheses of C13 and C14 -/
example : ∃ p q : Poly, p.Inv 2 ∧ q.Inv 2 ∧ p.A.nr = 0 ∧ p.C.nr = 1 ∧ q.A.nr = 1 ∧ q.C.nr = 0 :=
  ⟨Poly.fresh (Mat.zeros 0 2) (Vec.zeros 0) ⟨1, 2, fun _ j => j⟩ ⟨1, fun _ => 2⟩,
    Poly.fresh ⟨1, 2, fun _ _ => 1⟩ ⟨1, fun _ => 1⟩ (Mat.zeros 0 2) (Vec.zeros 0),
    ⟨rfl, rfl, rfl, rfl⟩, ⟨rfl, rfl, rfl, rfl⟩, rfl, rfl, rfl, rfl⟩

end Verif.Props
