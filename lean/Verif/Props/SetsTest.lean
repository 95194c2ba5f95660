import Verif.Model.TestSets
import Verif.Props.PolyhedronTests
import Verif.Props.UncondensedTest
import Verif.Props.GeomUtils

/- C201: the tests of `normalize` and `cartesian_product`. -/
namespace Verif.TestSuite
open Finset Verif.Props Spec

/-- the array with the columns of `A` and `b` has `m` rows with the integers `M`, `n` in each row -/
structure Table (m n : ℕ) (A : Mat ℝ) (b : Vec ℝ) (M : ℕ → ℕ → ℤ) : Prop where
  rows : A.nr = m
  len : b.n = m
  cols : A.nc + 1 = n
  ent : ∀ i < m, ∀ j < n, (if j < A.nc then A.e i j else b.e i) = M i j

theorem columnStack_ok {A : Mat ℝ} {b : Vec ℝ} (h : b.n = A.nr) : ∃ X, columnStack A b = .ok X ∧ X.nr = A.nr ∧ X.nc = A.nc + 1 ∧
    ∀ i j, X.e i j = if j < A.nc then A.e i j else b.e i :=
  ⟨_, if_pos (by simp [h]), rfl, rfl, fun _ _ => rfl⟩

/-- `same_rows` is `True` on arrays with the numbers -1, 0, 1 that have the same rows in another order, the rows being different and of the same norm -/
theorem same_tables {m n : ℕ} {A A' : Mat ℝ} {b b' : Vec ℝ} {M M' : ℕ → ℕ → ℤ} (h : Table m n A b M) (h' : Table m n A' b' M') (nz : Bool)
    (σ : Equiv.Perm (Fin m)) (hσ : ∀ i : Fin m, ∀ j < n, M' i j = M (σ i) j) (h1 : ∀ i < m, ∀ j < n, |M i j| ≤ 1) (q : ℤ) (hq : 1 ≤ q ∧ q ≤ 4)
    (hn : nz = true → ∀ i < m, ∑ j ∈ range n, M i j ^ 2 = q) (hd : ∀ i < m, ∀ k < m, i ≠ k → ∃ j < n, M i j ≠ M k j) :
    assertSameRows A b A' b' nz = .ok () := by
  obtain ⟨r, l, c, e⟩ := h
  obtain ⟨r', l', c', e'⟩ := h'
  obtain ⟨X, hX, x1, x2, x3⟩ : ∃ X : Mat ℝ, columnStack A b = .ok X ∧ X.nr = m ∧ X.nc = n ∧ ∀ i < m, ∀ j < n, X.e i j = M i j := by
    refine ⟨_, if_pos (by simp [r, l]), r, c, fun i hi j hj => ?_⟩
    exact e i hi j hj
  obtain ⟨Y, hY, y1, y2, y3⟩ : ∃ X : Mat ℝ, columnStack A' b' = .ok X ∧ X.nr = m ∧ X.nc = n ∧ ∀ i < m, ∀ j < n, X.e i j = M' i j := by
    refine ⟨_, if_pos (by simp [r', l']), r', c', fun i hi j hj => ?_⟩
    exact e' i hi j hj
  have key : Geom.same_rows X Y nz = .ok true := by
    obtain ⟨xr, xc, X⟩ := X
    obtain ⟨yr, yc, Y⟩ := Y
    dsimp only at x1 x2 x3 y1 y2 y3
    subst x1 x2 y1 y2
    have hs : nz = true → ∀ i < yr, ∑ j ∈ range yc, X i j ^ 2 = q := fun hz i hi => by
      rw [← hn hz i hi, Int.cast_sum]
      refine Finset.sum_congr rfl fun j hj => ?_
      rw [x3 i hi j (mem_range.1 hj), Int.cast_pow]
    refine C28_partial ⟨yr, yc, X⟩ ⟨yr, yc, Y⟩ rfl rfl σ (fun i j hj => ?_) nz (fun hz i hi => ?_) fun i hi k hk hik => ?_
    · show Y i j = X (σ i) j
      rw [y3 i i.2 j hj, x3 _ (σ i).2 j hj, hσ i j hj]
    · by_contra hne
      push Not at hne
      have := hs hz i hi
      rw [Finset.sum_eq_zero fun j hj => by rw [show X i j = 0 from hne j (mem_range.1 hj)]; ring] at this
      have : (0 : ℤ) = q := by exact_mod_cast this
      omega
    · obtain ⟨j, hj, hne⟩ := hd i hi k hk hik
      refine ⟨j, hj, ?_⟩
      obtain ⟨s, hs0, hs2, h3⟩ : ∃ s : ℝ, 0 < s ∧ s ≤ 2 ∧ ∀ i < yr, (if nz = true then Real.sqrt (∑ j ∈ range yc, X i j ^ 2) else 1) = s := by
        cases nz with
        | false => exact ⟨1, by norm_num, by norm_num, fun i hi => by simp⟩
        | true =>
          refine ⟨Real.sqrt q, Real.sqrt_pos.2 (by exact_mod_cast (by omega : 0 < q)), ?_, fun i hi => by rw [if_pos rfl, hs rfl i hi]⟩
          rw [Real.sqrt_le_left (by norm_num)]
          have : (q : ℝ) ≤ 4 := by exact_mod_cast hq.2
          linarith
      dsimp only
      rw [h3 i hi, h3 k hk, ← sub_div, abs_div, abs_div, abs_of_pos hs0, x3 i hi j hj, x3 k hk j hj, lt_div_iff₀ hs0, add_mul, mul_assoc, div_mul_cancel₀ _ hs0.ne']
      have a1 : |(M k j : ℝ)| ≤ 1 := by exact_mod_cast h1 k hk j hj
      have a2 : (1 : ℝ) ≤ |(M i j : ℝ) - M k j| := by
        exact_mod_cast Int.one_le_abs (sub_ne_zero.2 hne)
      norm_num
      nlinarith
  unfold assertSameRows
  rw [hX, Py.ok_bind, hY, Py.ok_bind, key]
  rfl

theorem single_entry {A : Mat ℝ} {n : ℕ} (hA : A.nc = n) (i j : ℕ) (hj : j < n) : A.e i j = rowVal A i (fun k => if k = j then 1 else 0) := by
  unfold rowVal
  rw [hA, Finset.sum_eq_single j (fun k _ hk => by show _ * (if k = j then (1 : ℝ) else 0) = 0; rw [if_neg hk, mul_zero]) fun h => absurd (mem_range.2 hj) h]
  simp

theorem rows_entry {A : Mat ℝ} {b : Vec ℝ} {n m : ℕ} {I : List (((ℕ → ℝ) → ℝ) × ℝ)} (hA : A.nc = n)
    (h : (List.range m).map (fun i => (rowVal A i, b.e i)) = I) {i : ℕ} {r} (hr : I[i]? = some r) :
    (∀ j < n, A.e i j = r.1 (fun k => if k = j then 1 else 0)) ∧ b.e i = r.2 := by
  subst h
  rw [List.getElem?_map, Option.map_eq_some_iff] at hr
  obtain ⟨k, hk, rfl⟩ := hr
  obtain ⟨_, rfl⟩ := List.getElem?_eq_some_iff.1 hk
  simp only [List.getElem_range]
  exact ⟨fun j hj => single_entry hA _ j hj, trivial⟩

theorem table_of_rows {A : Mat ℝ} {b : Vec ℝ} {n m : ℕ} {I : List (((ℕ → ℝ) → ℝ) × ℝ)} {M : ℕ → ℕ → ℤ} (hr : A.nr = m) (hb : b.n = m) (hc : A.nc = n)
    (h : (List.range A.nr).map (fun i => (rowVal A i, b.e i)) = I)
    (hM : ∀ i < m, ∃ r, I[i]? = some r ∧ (∀ j < n, r.1 (fun k => if k = j then 1 else 0) = M i j) ∧ r.2 = M i n) : Table m (n + 1) A b M := by
  refine ⟨hr, hb, by rw [hc], fun i hi j hj => ?_⟩
  obtain ⟨r, h1, h2, h3⟩ := hM i hi
  obtain ⟨h4, h5⟩ := rows_entry hc h h1
  by_cases hj' : j < n
  · rw [if_pos (by rw [hc]; exact hj'), h4 j hj', h2 j hj']
  · rw [if_neg (by rw [hc]; exact hj'), h5, h3, show j = n by omega]

/-- a table of integers -/
def tab (l : List (List ℤ)) (i j : ℕ) : ℤ := (l.getD i []).getD j 0

/-- the inequalities of the product: those of the first factor, then those of the second -/
def productRows : List (List ℤ) :=
  [[-1, 0, 0, 0, 1], [0, -1, 0, 0, 1], [1, 0, 0, 0, 1], [0, 1, 0, 0, 1], [0, 0, -1, 0, 1], [0, 0, 0, -1, 1], [0, 0, 1, 0, 1], [0, 0, 0, 1, 1]]

/-- the inequalities of the box in four dimensions: lower, then upper bounds -/
def boxRows : List (List ℤ) :=
  [[-1, 0, 0, 0, 1], [0, -1, 0, 0, 1], [0, 0, -1, 0, 1], [0, 0, 0, -1, 1], [1, 0, 0, 0, 1], [0, 1, 0, 0, 1], [0, 0, 1, 0, 1], [0, 0, 0, 1, 1]]

/-- the equalities -/
def sumRows : List (List ℤ) := [[1, 1, 0, 0, 0], [0, 0, 1, 1, 0]]

theorem product_tables {p r : Poly} (h : Rep 2 p [(fun z => -1 * z 0, - -1), (fun z => -1 * z 1, - -1), (fun z => 1 * z 0, 1), (fun z => 1 * z 1, 1)] [(fun z => z 0 + z 1, 0)])
    (hr : p.cartesian_product p = .ok r) : Table 8 5 r.A r.b (tab productRows) ∧ Table 2 5 r.C r.d (tab sumRows) := by
  obtain ⟨⟨p1, p2, p3, p4⟩, hI, hE⟩ := h
  have n1 : p.A.nr = 4 := by simpa using congrArg List.length hI
  have n2 : p.C.nr = 1 := by simpa using congrArg List.length hE
  have a0 := rows_entry (i := 0) p1 hI rfl
  have a1 := rows_entry (i := 1) p1 hI rfl
  have a2 := rows_entry (i := 2) p1 hI rfl
  have a3 := rows_entry (i := 3) p1 hI rfl
  have c0 := rows_entry (i := 0) p3 hE rfl
  have : p.cartesian_product p = .ok (Poly.fresh (Mat.bdiag [p.A, p.A]) (p.b.append p.b) (Mat.bdiag [p.C, p.C]) (p.d.append p.d)) := by
    unfold Poly.cartesian_product
    refine Poly.init_eq_ok.2 ⟨p.b.append p.b, rfl, ?_, Or.inr ⟨_, p.d.append p.d, rfl, rfl, ?_, rfl⟩⟩
    · show p.b.n + p.b.n = p.A.nr + (p.A.nr + 0); omega
    · show p.d.n + p.d.n = p.C.nr + (p.C.nr + 0); omega
  cases this.symm.trans hr
  have b4 : p.b.n = 4 := by omega
  have d1 : p.d.n = 1 := by omega
  simp only [Nat.lt_succ_iff] at *
  constructor
  · refine ⟨by simp [Poly.fresh, Mat.bdiag, Mat.bdiag2, n1], by simp [Poly.fresh, Vec.append, b4], by simp [Poly.fresh, Mat.bdiag, Mat.bdiag2, p1], fun i hi j hj => ?_⟩
    interval_cases i <;> interval_cases j <;>
      simp [Poly.fresh, Mat.bdiag, Mat.bdiag2, Vec.append, n1, b4, p1, a0.1 0, a0.1 1, a1.1 0, a1.1 1, a2.1 0, a2.1 1, a3.1 0, a3.1 1, a0.2, a1.2, a2.2, a3.2, tab, productRows]
  · refine ⟨by simp [Poly.fresh, Mat.bdiag, Mat.bdiag2, n2], by simp [Poly.fresh, Vec.append, d1], by simp [Poly.fresh, Mat.bdiag, Mat.bdiag2, p3], fun i hi j hj => ?_⟩
    interval_cases i <;> interval_cases j <;>
      simp [Poly.fresh, Mat.bdiag, Mat.bdiag2, Vec.append, n2, d1, p3, c0.1 0, c0.1 1, c0.2, tab, sumRows]

/-- the box in four dimensions with the two equalities -/
theorem box_tables : ∃ p q, Poly.from_bounds (fullB 4 (-1)) (fullB 4 1) = .ok p ∧
    Poly.runOn p (Poly.add_equality (np.block_diag [ones12, ones12]) (.d1 (full 2 0))) = .ok q ∧
    Table 8 5 q.A q.b (tab boxRows) ∧ Table 2 5 q.C q.d (tab sumRows) := by
  obtain ⟨p, h1, -, h3⟩ := rep_from_bounds 4 (full 4 (-1)) (full 4 1) none none (Or.inr ⟨rfl, rfl, rfl⟩) rfl rfl
  obtain ⟨q, k1, -, k3⟩ := rep_eq h3 (F := np.block_diag [ones12, ones12]) (f := full 2 0) (idx := none) rfl rfl
  rw [show Poly.sel 4 none = [0, 1, 2, 3] from rfl, show (np.block_diag [ones12, ones12]).nr = 2 from rfl, show (np.block_diag [ones12, ones12]).nc = 4 from rfl] at k3
  have e0 : ∀ j, (np.block_diag [ones12, ones12]).e 0 j = if j < 2 then 1 else 0 := fun j => rfl
  have e1 : ∀ j, (np.block_diag [ones12, ones12]).e 1 j = if j < 2 then 0 else if j - 2 < 2 then 1 else 0 := fun j => rfl
  refine ⟨p, q, h1, k1, ?_, ?_⟩
  · have n1 : q.A.nr = 8 := by simpa using k3.len.1
    refine table_of_rows n1 (by rw [k3.inv.2.1, n1]) k3.inv.1 k3.ineq fun i hi => ?_
    interval_cases i <;> refine ⟨_, rfl, fun j hj => ?_, ?_⟩ <;> (try interval_cases j) <;> simp [tab, boxRows, full]
  · have n1 : q.C.nr = 2 := by simpa using k3.len.2
    refine table_of_rows n1 (by rw [k3.inv.2.2.2, n1]) k3.inv.2.2.1 k3.eqs fun i hi => ?_
    interval_cases i <;> refine ⟨_, rfl, fun j hj => ?_, ?_⟩ <;> (try interval_cases j) <;>
      simp [tab, sumRows, full, Finset.sum_range_succ, e0, e1]

theorem test_cartesian_product_ok : test_cartesian_product = .ok () := by
  obtain ⟨p, h1, -, h3⟩ := rep_box (-1) 1
  obtain ⟨p1, k1, -, k3⟩ := rep_diag h3 0
  obtain ⟨r, hr, -⟩ := C14 2 2 p1 p1 k3.inv k3.inv
  obtain ⟨t1, t2⟩ := product_tables k3 hr
  obtain ⟨p', q, l1, l2, l3, l4⟩ := box_tables
  unfold test_cartesian_product
  rw [h1, Py.ok_bind, k1, Py.ok_bind, hr, Py.ok_bind, l1, Py.ok_bind, l2, Py.ok_bind,
    same_tables t1 l3 true (Equiv.swap 2 4 * Equiv.swap 3 5) (by decide) (by decide) 2 (by decide) (fun _ => by decide) (by decide), Py.ok_bind]
  exact same_tables t2 l4 true 1 (by decide) (by decide) 2 (by decide) (fun _ => by decide) (by decide)

/-- the polyhedron of `test_normalize`, and its data after `normalize`: exactly the expected numbers -/
theorem normalized : ∃ p, Poly.init (zeroCol 2 (-3)) (.d1 (pairV 2 0)) (some ones12) (some (.d1 (full 1 1))) = .ok p ∧
    Table 2 3 p.normalize.A p.normalize.b (tab [[0, 1, 1], [0, -1, 0]]) ∧
    p.normalize.C.nr = 1 ∧ p.normalize.C.nc = 2 ∧ p.normalize.d.n = 1 ∧ (∀ j < 2, p.normalize.C.e 0 j = 1 / Real.sqrt 2) ∧ p.normalize.d.e 0 = 1 / Real.sqrt 2 := by
  refine ⟨Poly.fresh (zeroCol 2 (-3)) (pairV 2 0) ones12 (full 1 1), Poly.init_eq_ok.2 ⟨_, rfl, rfl, Or.inr ⟨_, _, rfl, rfl, rfl, rfl⟩⟩, ?_, ?_⟩
  · obtain ⟨h1, h2, h3, h4, h5⟩ := Poly.normalizeRow_foldl 1e-7 (zeroCol 2 (-3)) (pairV 2 0) 2
    have v0 : vnorm ((zeroCol 2 (-3)).row 0) = 2 := by
      simp [vnorm, Mat.row, zeroCol, Finset.sum_range_succ]
    have v1 : vnorm ((zeroCol 2 (-3)).row 1) = 3 := by
      simp [vnorm, Mat.row, zeroCol, Finset.sum_range_succ]
    have g2 : (2 : ℝ) > 1e-7 := by norm_num
    have g3 : (3 : ℝ) > 1e-7 := by norm_num
    refine ⟨h1, h3, congrArg (· + 1) h2, fun i hi j hj => ?_⟩
    show (if j < ((List.range 2).foldl (Poly.normalizeRow 1e-7) (zeroCol 2 (-3), pairV 2 0)).1.nc then _ else _) = _
    rw [h2]
    show (if j < 2 then ((List.range 2).foldl (Poly.normalizeRow 1e-7) (zeroCol 2 (-3), pairV 2 0)).1.e i j else
      ((List.range 2).foldl (Poly.normalizeRow 1e-7) (zeroCol 2 (-3), pairV 2 0)).2.e i) = _
    rw [h4, h5]
    interval_cases i <;> interval_cases j <;> simp only [v0, v1, g2, g3] <;> norm_num [zeroCol, pairV, tab]
  · obtain ⟨h1, h2, h3, h4, h5⟩ := Poly.normalizeRow_foldl 1e-7 ones12 (full 1 1) 1
    have v0 : vnorm (ones12.row 0) = Real.sqrt 2 := by
      simp [vnorm, Mat.row, ones12]
    have g2 : Real.sqrt 2 > 1e-7 := by
      have : (1 : ℝ) ≤ Real.sqrt 2 := Real.one_le_sqrt.2 (by norm_num)
      norm_num
      linarith
    refine ⟨h1, h2, h3, fun j _ => (h4 0 j).trans ?_, (h5 0).trans ?_⟩
    · rw [v0, if_pos ⟨by norm_num, g2⟩]
      rfl
    · rw [v0, if_pos ⟨by norm_num, g2⟩]
      rfl

theorem test_normalize_ok : test_normalize = .ok () := by
  obtain ⟨p, hp, t, c1, c2, c3, c4, c5⟩ := normalized
  have t' : Table 2 3 (zeroCol 1 (-1)) (pairV 1 0) (tab [[0, 1, 1], [0, -1, 0]]) := by
    refine ⟨rfl, rfl, rfl, fun i hi j hj => ?_⟩
    interval_cases i <;> interval_cases j <;> simp [zeroCol, pairV, tab]
  unfold test_normalize
  rw [hp, Py.ok_bind]
  dsimp only
  rw [same_tables t' t false 1 (by decide) (by decide) 1 (by decide) (fun h => by cases h) (by decide), Py.ok_bind]
  obtain ⟨X, e1, x1, x2, x3⟩ := columnStack_ok (A := ⟨1, 2, fun _ _ => 1 / Real.sqrt 2⟩) (b := ⟨1, fun _ => 1 / Real.sqrt 2⟩) rfl
  obtain ⟨Y, e2, y1, y2, y3⟩ := columnStack_ok (c3.trans c1.symm)
  have key : Geom.same_rows X Y false = .ok true := by
    refine C28_partial X Y (x1.trans (c1.symm.trans y1.symm)) (x2.trans (by rw [y2, c2])) (finCongr (by rw [y1, c1, x1])) ?_ false (fun h => by cases h) ?_
    · intro i j hj
      obtain ⟨i, hi⟩ := i
      obtain rfl : i = 0 := by omega
      show Y.e 0 j = X.e 0 j
      rw [y3, x3, c2, c5]
      by_cases h : j < 2
      · rw [if_pos h, if_pos h, c4 j h]
      · rw [if_neg h, if_neg h]
    · intro i hi k hk hik
      have : X.nr = 1 := x1
      omega
  unfold assertSameRows
  rw [e1, Py.ok_bind, e2, Py.ok_bind, key]
  rfl

/-- C201: `test_normalize` and `test_cartesian_product` pass.  More precisely, `normalize` gives exactly the expected rows in the expected order, and the rows of the
product are those of the first factor followed by those of the second, another order than that of the box in four dimensions, which `same_rows` does not mind. -/
theorem C201 : test_normalize = .ok () ∧ test_cartesian_product = .ok () ∧
    (∃ p, Poly.init (zeroCol 2 (-3)) (.d1 (pairV 2 0)) (some ones12) (some (.d1 (full 1 1))) = .ok p ∧
      Table 2 3 p.normalize.A p.normalize.b (tab [[0, 1, 1], [0, -1, 0]])) ∧
    ∃ p p1 p2 p' p3, Poly.from_bounds (fullB 2 (-1)) (fullB 2 1) = .ok p ∧ Poly.runOn p (Poly.add_equality ones12 (.d1 (full 1 0))) = .ok p1 ∧
      p1.cartesian_product p1 = .ok p2 ∧ Poly.from_bounds (fullB 4 (-1)) (fullB 4 1) = .ok p' ∧
      Poly.runOn p' (Poly.add_equality (np.block_diag [ones12, ones12]) (.d1 (full 2 0))) = .ok p3 ∧
      Table 8 5 p2.A p2.b (tab productRows) ∧ Table 2 5 p2.C p2.d (tab sumRows) ∧ Table 8 5 p3.A p3.b (tab boxRows) ∧ Table 2 5 p3.C p3.d (tab sumRows) ∧
      productRows ≠ boxRows := by
  obtain ⟨p, hp, t, -⟩ := normalized
  refine ⟨test_normalize_ok, test_cartesian_product_ok, ⟨p, hp, t⟩, ?_⟩
  obtain ⟨p, h1, -, h3⟩ := rep_box (-1) 1
  obtain ⟨p1, k1, -, k3⟩ := rep_diag h3 0
  obtain ⟨r, hr, -⟩ := C14 2 2 p1 p1 k3.inv k3.inv
  obtain ⟨t1, t2⟩ := product_tables k3 hr
  obtain ⟨p', q, l1, l2, l3, l4⟩ := box_tables
  exact ⟨p, p1, r, p', q, h1, k1, hr, l1, l2, t1, t2, l3, l4, by decide⟩

end Verif.TestSuite
