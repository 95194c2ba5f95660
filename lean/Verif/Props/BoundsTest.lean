import Verif.Model.TestBounds
import Verif.Props.SetsTest

/- C204: the tests of the functions that add constraints and of the constructors from bounds. -/
namespace Verif.TestSuite
open Finset Verif.Props Spec

/-- rows with integers that differ after the normalization: in an entry of other sign, or in an entry that is the same in rows of another norm -/
def RowsDiffer (n : ℕ) (v w : ℕ → ℤ) : Prop := ∃ j < n, (v j * w j ≤ 0 ∧ v j ≠ w j) ∨
  (v j = w j ∧ v j ≠ 0 ∧ ∑ k ∈ range n, v k ^ 2 ≠ ∑ k ∈ range n, w k ^ 2)

instance (n : ℕ) (v w : ℕ → ℤ) : Decidable (RowsDiffer n v w) := by unfold RowsDiffer; infer_instance

theorem differ_sign {a b : ℤ} {s t : ℝ} (hs : 0 < s) (hs' : s ≤ 7) (ht : 0 < t) (ht' : t ≤ 7) (h : a * b ≤ 0) (hne : a ≠ b) :
    1e-8 + 1e-5 * |(b : ℝ) / t| < |(a : ℝ) / s - b / t| := by
  have hx : ((a : ℝ) / s) * (b / t) ≤ 0 := by
    rw [div_mul_div_comm]
    exact div_nonpos_of_nonpos_of_nonneg (by exact_mod_cast h) (by positivity)
  have big : ∀ {c : ℤ} {r : ℝ}, c ≠ 0 → 0 < r → r ≤ 7 → 1 / 7 ≤ |(c : ℝ) / r| := fun {c r} hc h0 h7 => by
    have h1 : (1 : ℝ) ≤ |(c : ℝ)| := by exact_mod_cast Int.one_le_abs hc
    rw [abs_div, abs_of_pos h0, div_le_div_iff₀ (by norm_num) h0]
    nlinarith
  generalize hxe : (a : ℝ) / s = x at *
  generalize hye : (b : ℝ) / t = y at *
  have h1 : |y| ≤ |x - y| := by
    rw [← sq_le_sq]
    nlinarith [sq_nonneg x]
  have h2 : |x| ≤ |x - y| := by
    rw [← sq_le_sq]
    nlinarith [sq_nonneg y]
  by_cases hb : b = 0
  · have ha : a ≠ 0 := fun ha => hne (ha.trans hb.symm)
    have := big ha hs hs'
    rw [hxe] at this
    have y0 : y = 0 := by rw [← hye, hb]; simp
    rw [y0, abs_zero]
    rw [y0] at h2
    norm_num
    linarith
  · have := big hb ht ht'
    rw [hye] at this
    norm_num
    linarith

theorem differ_norm {c q r : ℤ} (hc : c ≠ 0) (hq : 0 < q) (hq' : q ≤ 49) (hr : 0 < r) (hr' : r ≤ 49) (hne : q ≠ r) :
    1e-8 + 1e-5 * |(c : ℝ) / Real.sqrt r| < |(c : ℝ) / Real.sqrt q - c / Real.sqrt r| := by
  have sq : Real.sqrt q ^ 2 = q := Real.sq_sqrt (by exact_mod_cast hq.le)
  have sr : Real.sqrt r ^ 2 = r := Real.sq_sqrt (by exact_mod_cast hr.le)
  have q0 : 0 < Real.sqrt q := Real.sqrt_pos.2 (by exact_mod_cast hq)
  have r0 : 0 < Real.sqrt r := Real.sqrt_pos.2 (by exact_mod_cast hr)
  have q7 : Real.sqrt q ≤ 7 := by
    rw [Real.sqrt_le_left (by norm_num)]
    have : (q : ℝ) ≤ 49 := by exact_mod_cast hq'
    linarith
  have r7 : Real.sqrt r ≤ 7 := by
    rw [Real.sqrt_le_left (by norm_num)]
    have : (r : ℝ) ≤ 49 := by exact_mod_cast hr'
    linarith
  have c1 : (1 : ℝ) ≤ |(c : ℝ)| := by exact_mod_cast Int.one_le_abs hc
  generalize Real.sqrt q = s at *
  generalize Real.sqrt r = t at *
  have hd : (1 : ℝ) ≤ |t - s| * (t + s) := by
    have : (1 : ℝ) ≤ |(r : ℝ) - q| := by exact_mod_cast Int.one_le_abs (sub_ne_zero.2 hne.symm)
    rw [← sq, ← sr, show t ^ 2 - s ^ 2 = (t - s) * (t + s) by ring, abs_mul, abs_of_pos (by linarith : 0 < t + s)] at this
    exact this
  have hd : (1 : ℝ) / 14 ≤ |t - s| := by
    have := abs_nonneg (t - s)
    nlinarith
  rw [show (c : ℝ) / s - c / t = c / t * ((t - s) / s) by field_simp, abs_mul, abs_div (t - s), abs_of_pos q0]
  have y : 1 / 7 ≤ |(c : ℝ) / t| := by
    rw [abs_div, abs_of_pos r0, div_le_div_iff₀ (by norm_num) r0]
    linarith
  have z : 1 / 98 ≤ |t - s| / s := by
    rw [div_le_div_iff₀ (by norm_num) q0]
    linarith
  norm_num
  nlinarith

/-- `same_rows` is `True` on equal arrays of integers with rows that differ after the normalization -/
theorem same_ints {m n : ℕ} {A A' : Mat ℝ} {b b' : Vec ℝ} {M : ℕ → ℕ → ℤ} (h : Table m n A b M) (h' : Table m n A' b' M)
    (hq : ∀ i < m, 0 < ∑ j ∈ range n, M i j ^ 2 ∧ ∑ j ∈ range n, M i j ^ 2 ≤ 49) (hd : ∀ i < m, ∀ k < m, i ≠ k → RowsDiffer n (M i) (M k)) :
    assertSameRows A b A' b' = .ok () := by
  obtain ⟨r, l, c, e⟩ := h
  obtain ⟨r', l', c', e'⟩ := h'
  obtain ⟨X, hX, x1, x2, x3⟩ := columnStack_ok (l.trans r.symm)
  obtain ⟨Y, hY, y1, y2, y3⟩ := columnStack_ok (l'.trans r'.symm)
  rw [r] at x1
  rw [c] at x2
  rw [r'] at y1
  rw [c'] at y2
  have x3 : ∀ i < m, ∀ j < n, X.e i j = M i j := fun i hi j hj => (x3 i j).trans (e i hi j hj)
  have y3 : ∀ i < m, ∀ j < n, Y.e i j = M i j := fun i hi j hj => (y3 i j).trans (e' i hi j hj)
  have key : Geom.same_rows X Y true = .ok true := by
    obtain ⟨xr, xc, X⟩ := X
    obtain ⟨yr, yc, Y⟩ := Y
    dsimp only at x1 x2 x3 y1 y2 y3
    subst x1 x2 y1 y2
    have hs : ∀ i < yr, ∑ j ∈ range yc, X i j ^ 2 = ((∑ j ∈ range yc, M i j ^ 2 : ℤ) : ℝ) := fun i hi => by
      rw [Int.cast_sum]
      refine Finset.sum_congr rfl fun j hj => ?_
      rw [x3 i hi j (mem_range.1 hj), Int.cast_pow]
    refine C28_partial ⟨yr, yc, X⟩ ⟨yr, yc, Y⟩ rfl rfl 1 (fun i j hj => ?_) true (fun _ i hi => ?_) fun i hi k hk hik => ?_
    · exact (y3 i i.2 j hj).trans (x3 i i.2 j hj).symm
    · by_contra hne
      push Not at hne
      have := hs i hi
      rw [Finset.sum_eq_zero fun j hj => by rw [show X i j = 0 from hne j (mem_range.1 hj)]; ring] at this
      have : (0 : ℤ) = ∑ j ∈ range yc, M i j ^ 2 := by exact_mod_cast this
      have := (hq i hi).1
      omega
    · simp only [if_true]
      show ∃ j < yc, 1e-8 + 1e-5 * |X k j / Real.sqrt (∑ j ∈ range yc, X k j ^ 2)| <
        |X i j / Real.sqrt (∑ j ∈ range yc, X i j ^ 2) - X k j / Real.sqrt (∑ j ∈ range yc, X k j ^ 2)|
      rw [hs i hi, hs k hk]
      obtain ⟨j, hj, hd⟩ := hd i hi k hk hik
      refine ⟨j, hj, ?_⟩
      rw [x3 i hi j hj, x3 k hk j hj]
      obtain ⟨i0, i1⟩ := hq i hi
      obtain ⟨k0, k1⟩ := hq k hk
      have seven : ∀ {q : ℤ}, q ≤ 49 → Real.sqrt q ≤ 7 := fun {q} h => by
        rw [Real.sqrt_le_left (by norm_num)]
        have : (q : ℝ) ≤ 49 := by exact_mod_cast h
        linarith
      rcases hd with ⟨h1, h2⟩ | ⟨h1, h2, h3⟩
      · exact differ_sign (Real.sqrt_pos.2 (by exact_mod_cast i0)) (seven i1) (Real.sqrt_pos.2 (by exact_mod_cast k0)) (seven k1) h1 h2
      · rw [← h1]
        exact differ_norm h2 i0 i1 k0 k1 h3
  unfold assertSameRows
  rw [hX, Py.ok_bind, hY, Py.ok_bind, key]
  rfl

/-- an array of integers as a table -/
theorem intTable {n : ℕ} {l : List (List ℤ)} {v : List ℤ} (hv : v.length = l.length) (M : List (List ℤ))
    (h : ∀ i < l.length, ∀ j < n + 1, (if j < n then tab l i j else v.getD i 0) = tab M i j) : Table l.length (n + 1) (intArray n l) (intVec v) (tab M) :=
  ⟨rfl, hv, rfl, fun i hi j hj => by
    rw [← h i hi j hj]
    show (if j < n then ((tab l i j : ℤ) : ℝ) else ((v.getD i 0 : ℤ) : ℝ)) = _
    split <;> rfl⟩

theorem same_lists {n : ℕ} {l : List (List ℤ)} {v : List ℤ} (hv : v.length = l.length) (M : List (List ℤ))
    (h : ∀ i < l.length, ∀ j < n + 1, (if j < n then tab l i j else v.getD i 0) = tab M i j) {A : Mat ℝ} {b : Vec ℝ} (t : Table l.length (n + 1) A b (tab M))
    (hq : ∀ i < l.length, 0 < ∑ j ∈ range (n + 1), tab M i j ^ 2 ∧ ∑ j ∈ range (n + 1), tab M i j ^ 2 ≤ 49)
    (hd : ∀ i < l.length, ∀ k < l.length, i ≠ k → RowsDiffer (n + 1) (tab M i) (tab M k)) : assertSameRows (intArray n l) (intVec v) A b = .ok () :=
  same_ints (intTable hv M h) t hq hd

theorem rep_init {A : Mat ℝ} {b : Vec ℝ} (hb : b.n = A.nr) : ∃ p, Poly.init A (.d1 b) = .ok p ∧
    Rep A.nc p ((List.range A.nr).map fun i => (rowVal A i, b.e i)) [] :=
  ⟨Poly.fresh A b (Mat.zeros 0 A.nc) (Vec.zeros 0), Poly.init_eq_ok.2 ⟨b, rfl, hb, Or.inl ⟨rfl, rfl, rfl⟩⟩, ⟨rfl, hb, rfl, rfl⟩, rfl, rfl⟩

theorem rep_bounds {n : ℕ} {p : Poly} {I E} (h : Rep n p I E) (v w : Vec ℝ) (idx) (hv : v.n = (Poly.sel n idx).length) (hw : w.n = (Poly.sel n idx).length) :
    ∃ q, Poly.runOn p (Poly.add_bounds (.arr (.d1 v)) (.arr (.d1 w)) idx) = .ok q ∧
      Rep n q ((I ++ (List.range (Poly.sel n idx).length).map (fun i => ((fun z : ℕ → ℝ => -1 * z ((Poly.sel n idx).getD i 0)), -v.e i))) ++
        (List.range (Poly.sel n idx).length).map (fun i => ((fun z : ℕ → ℝ => 1 * z ((Poly.sel n idx).getD i 0)), w.e i))) E := by
  obtain ⟨q, h1, -, h3⟩ := rep_lower h v idx hv
  obtain ⟨r, r1, -, r3⟩ := rep_upper h3 w idx hw
  refine ⟨r, ?_, r3⟩
  rw [runOn_ok] at h1 r1 ⊢
  unfold Poly.add_bounds
  rw [PyM.bind_ok h1]
  exact r1

theorem rep_from_upper (n : ℕ) (v : Vec ℝ) (idx) (N) (hN : N = some n ∨ (N = none ∧ idx = none ∧ n = v.n)) (hv : v.n = (Poly.sel n idx).length) :
    ∃ q, Poly.from_upper_bound (.arr (.d1 v)) idx N = .ok q ∧ q = Poly.fresh q.A q.b q.C q.d ∧
      Rep n q ((List.range (Poly.sel n idx).length).map (fun i => ((fun z : ℕ → ℝ => 1 * z ((Poly.sel n idx).getD i 0)), v.e i))) [] := by
  obtain ⟨q, h1, h2, h3⟩ := rep_upper (rep_empty n) v idx hv
  refine ⟨q, ?_, h2, h3⟩
  rw [← h1]
  rcases hN with rfl | ⟨rfl, rfl, rfl⟩
  · unfold Poly.from_upper_bound
    rw [show Poly.checkN idx (some n) = .ok () from if_neg (by simp), Py.ok_bind]
    rfl
  · rfl

theorem sel2 : Poly.sel 2 none = [0, 1] := rfl
theorem sel20 : Poly.sel 2 (some [0]) = [0] := rfl
theorem sel21 : Poly.sel 2 (some [1]) = [1] := rfl

/-- the inequalities of a polyhedron as a table -/
theorem rep_table {n m : ℕ} {p : Poly} {I E} (h : Rep n p I E) (hm : I.length = m) (M : ℕ → ℕ → ℤ)
    (hM : ∀ i < m, ∃ r, I[i]? = some r ∧ (∀ j < n, r.1 (fun k => if k = j then 1 else 0) = M i j) ∧ r.2 = M i n) : Table m (n + 1) p.A p.b M :=
  table_of_rows (h.len.1.trans hm) (h.inv.2.1.trans (h.len.1.trans hm)) h.inv.1 h.ineq hM

theorem rep_tableE {n m : ℕ} {p : Poly} {I E} (h : Rep n p I E) (hm : E.length = m) (M : ℕ → ℕ → ℤ)
    (hM : ∀ i < m, ∃ r, E[i]? = some r ∧ (∀ j < n, r.1 (fun k => if k = j then 1 else 0) = M i j) ∧ r.2 = M i n) : Table m (n + 1) p.C p.d M :=
  table_of_rows (h.len.2.trans hm) (h.inv.2.2.2.trans (h.len.2.trans hm)) h.inv.2.2.1 h.eqs hM

/-- the table of the bounds in `addBounds` -/
def boundTable : List (List ℤ) :=
  [[-1, 0, 1], [0, -1, 1], [1, 0, 2], [0, 1, 2], [-1, 0, 3], [0, -1, 3], [1, 0, 3], [0, 1, 3], [-1, 0, 4], [1, 0, 5], [0, -1, 6], [0, 1, 6]]

theorem addBounds_ok : addBounds = .ok () := by
  obtain ⟨p1, h1, -, r1⟩ := rep_lower (rep_empty 2) (full 2 (-1)) none rfl
  obtain ⟨p2, h2, -, r2⟩ := rep_upper r1 (full 2 2) none rfl
  obtain ⟨p3, h3, r3⟩ := rep_bounds r2 (full 2 (-3)) (full 2 3) none rfl rfl
  obtain ⟨p4, h4, -, r4⟩ := rep_lower r3 (full 1 (-4)) (some [0]) rfl
  obtain ⟨p5, h5, -, r5⟩ := rep_upper r4 (full 1 5) (some [0]) rfl
  obtain ⟨p6, h6, r6⟩ := rep_bounds r5 (full 1 (-6)) (full 1 6) (some [1]) rfl rfl
  rw [sel2, sel20, sel21] at r6
  have t : Table 12 3 p6.A p6.b (tab boundTable) := by
    refine rep_table (m := 12) r6 rfl _ fun i hi => ?_
    interval_cases i <;> refine ⟨_, rfl, fun j hj => ?_, ?_⟩ <;> (try interval_cases j) <;> simp [tab, boundTable, full]
  unfold addBounds
  rw [show Poly.init (Mat.zeros 0 2) (.d1 (Vec.zeros 0)) = .ok (Poly.fresh (Mat.zeros 0 2) (Vec.zeros 0) (Mat.zeros 0 2) (Vec.zeros 0)) from
    Poly.init_eq_ok.2 ⟨Vec.zeros 0, rfl, rfl, Or.inl ⟨rfl, rfl, rfl⟩⟩, Py.ok_bind]
  unfold fullB
  rw [h1, Py.ok_bind, h2, Py.ok_bind, h3, Py.ok_bind, h4, Py.ok_bind, h5, Py.ok_bind, h6, Py.ok_bind]
  exact same_lists (n := 2) rfl boundTable (by decide) t (by decide) (by decide)

theorem addRows_ok : addRows = .ok () := by
  obtain ⟨p0, h0, r0⟩ := rep_init (A := Mat.eye 2) (b := full 2 1) rfl
  obtain ⟨p1, h1, -, r1⟩ := rep_ineq (n := 2) r0 (F := ones12) (f := full 1 1) (idx := none) rfl rfl
  obtain ⟨p2, h2, -, r2⟩ := rep_ineq r1 (F := one11 1) (f := full 1 3) (idx := some [1]) rfl rfl
  obtain ⟨p3, h3, -, r3⟩ := rep_eq r2 (F := Mat.eye 2) (f := full 2 1) (idx := none) rfl rfl
  obtain ⟨p4, h4, -, r4⟩ := rep_eq r3 (F := one11 3) (f := full 1 1) (idx := some [0]) rfl rfl
  rw [sel2, sel21] at r2
  rw [sel2, sel20] at r4
  have t : Table 4 3 p2.A p2.b (tab [[1, 0, 1], [0, 1, 1], [1, 1, 1], [0, 1, 3]]) := by
    refine rep_table (m := 4) r2 rfl _ fun i hi => ?_
    interval_cases i <;> refine ⟨_, rfl, fun j hj => ?_, ?_⟩ <;> (try interval_cases j) <;> simp [tab, full, rowVal, Mat.eye, ones12, one11] <;> decide
  have t' : Table 3 3 p4.C p4.d (tab [[1, 0, 1], [0, 1, 1], [3, 0, 1]]) := by
    refine rep_tableE (m := 3) r4 rfl _ fun i hi => ?_
    interval_cases i <;> refine ⟨_, rfl, fun j hj => ?_, ?_⟩ <;> (try interval_cases j) <;> simp [tab, full, Mat.eye, one11, Finset.sum_range_succ]
  unfold addRows
  rw [h0, Py.ok_bind, h1, Py.ok_bind, h2, Py.ok_bind]
  dsimp only
  rw [same_lists (n := 2) (l := [[1, 0], [0, 1], [1, 1], [0, 1]]) (v := [1, 1, 1, 3]) rfl [[1, 0, 1], [0, 1, 1], [1, 1, 1], [0, 1, 3]] (by decide) t (by decide) (by decide), Py.ok_bind]
  rw [show assertValueError (Poly.runOn p2 (Poly.add_inequality (intArray 2 [[1, 0], [0, 1], [1, 1], [0, 1]]) (.d1 (full 2 1)))) = .ok () from rfl, Py.ok_bind,
    h3, Py.ok_bind, h4, Py.ok_bind,
    same_lists (n := 2) (l := [[1, 0], [0, 1], [3, 0]]) (v := [1, 1, 1]) rfl [[1, 0, 1], [0, 1, 1], [3, 0, 1]] (by decide) t' (by decide) (by decide), Py.ok_bind]
  rfl

theorem fromBounds_ok : fromBounds = .ok () := by
  obtain ⟨p1, h1, -, r1⟩ := rep_from_lower 2 (full 2 1) none none (Or.inr ⟨rfl, rfl, rfl⟩) rfl
  obtain ⟨p2, h2, -, r2⟩ := rep_from_upper 2 (full 2 1) none none (Or.inr ⟨rfl, rfl, rfl⟩) rfl
  obtain ⟨p3, h3, -, r3⟩ := rep_from_bounds 2 (full 2 1) (full 2 1) none none (Or.inr ⟨rfl, rfl, rfl⟩) rfl rfl
  obtain ⟨p4, h4, -, r4⟩ := rep_from_lower 3 (full 2 1) (some [1, 2]) (some 3) (Or.inl rfl) rfl
  obtain ⟨p5, h5, -, r5⟩ := rep_from_upper 3 (full 2 1) (some [0, 2]) (some 3) (Or.inl rfl) rfl
  obtain ⟨p6, h6, -, r6⟩ := rep_from_bounds 3 (full 2 1) (full 2 1) (some [0, 1]) (some 3) (Or.inl rfl) rfl rfl
  rw [sel2] at r1 r2 r3
  rw [show Poly.sel 3 (some [1, 2]) = [1, 2] from rfl] at r4
  rw [show Poly.sel 3 (some [0, 2]) = [0, 2] from rfl] at r5
  rw [show Poly.sel 3 (some [0, 1]) = [0, 1] from rfl] at r6
  have t1 : Table 2 3 p1.A p1.b (tab [[-1, 0, -1], [0, -1, -1]]) := by
    refine rep_table (m := 2) r1 rfl _ fun i hi => ?_
    interval_cases i <;> refine ⟨_, rfl, fun j hj => ?_, ?_⟩ <;> (try interval_cases j) <;> simp [tab, full]
  have t2 : Table 2 3 p2.A p2.b (tab [[1, 0, 1], [0, 1, 1]]) := by
    refine rep_table (m := 2) r2 rfl _ fun i hi => ?_
    interval_cases i <;> refine ⟨_, rfl, fun j hj => ?_, ?_⟩ <;> (try interval_cases j) <;> simp [tab, full]
  have t3 : Table 4 3 p3.A p3.b (tab [[-1, 0, -1], [0, -1, -1], [1, 0, 1], [0, 1, 1]]) := by
    refine rep_table (m := 4) r3 rfl _ fun i hi => ?_
    interval_cases i <;> refine ⟨_, rfl, fun j hj => ?_, ?_⟩ <;> (try interval_cases j) <;> simp [tab, full]
  have t4 : Table 2 4 p4.A p4.b (tab [[0, -1, 0, -1], [0, 0, -1, -1]]) := by
    refine rep_table (m := 2) r4 rfl _ fun i hi => ?_
    interval_cases i <;> refine ⟨_, rfl, fun j hj => ?_, ?_⟩ <;> (try interval_cases j) <;> simp [tab, full]
  have t5 : Table 2 4 p5.A p5.b (tab [[1, 0, 0, 1], [0, 0, 1, 1]]) := by
    refine rep_table (m := 2) r5 rfl _ fun i hi => ?_
    interval_cases i <;> refine ⟨_, rfl, fun j hj => ?_, ?_⟩ <;> (try interval_cases j) <;> simp [tab, full]
  have t6 : Table 4 4 p6.A p6.b (tab [[-1, 0, 0, -1], [0, -1, 0, -1], [1, 0, 0, 1], [0, 1, 0, 1]]) := by
    refine rep_table (m := 4) r6 rfl _ fun i hi => ?_
    interval_cases i <;> refine ⟨_, rfl, fun j hj => ?_, ?_⟩ <;> (try interval_cases j) <;> simp [tab, full]
  unfold fromBounds fullB
  rw [h1, Py.ok_bind, same_lists (n := 2) (l := [[-1, 0], [0, -1]]) (v := [-1, -1]) rfl [[-1, 0, -1], [0, -1, -1]] (by decide) t1 (by decide) (by decide), Py.ok_bind,
    h2, Py.ok_bind, same_lists (n := 2) (l := [[1, 0], [0, 1]]) (v := [1, 1]) rfl [[1, 0, 1], [0, 1, 1]] (by decide) t2 (by decide) (by decide), Py.ok_bind,
    h3, Py.ok_bind, same_lists (n := 2) (l := [[-1, 0], [0, -1], [1, 0], [0, 1]]) (v := [-1, -1, 1, 1]) rfl [[-1, 0, -1], [0, -1, -1], [1, 0, 1], [0, 1, 1]] (by decide) t3 (by decide) (by decide), Py.ok_bind,
    h4, Py.ok_bind, same_lists (n := 3) (l := [[0, -1, 0], [0, 0, -1]]) (v := [-1, -1]) rfl [[0, -1, 0, -1], [0, 0, -1, -1]] (by decide) t4 (by decide) (by decide), Py.ok_bind,
    h5, Py.ok_bind, same_lists (n := 3) (l := [[1, 0, 0], [0, 0, 1]]) (v := [1, 1]) rfl [[1, 0, 0, 1], [0, 0, 1, 1]] (by decide) t5 (by decide) (by decide), Py.ok_bind,
    h6, Py.ok_bind]
  exact same_lists (n := 3) (l := [[-1, 0, 0], [0, -1, 0], [1, 0, 0], [0, 1, 0]]) (v := [-1, -1, 1, 1]) rfl [[-1, 0, 0, -1], [0, -1, 0, -1], [1, 0, 0, 1], [0, 1, 0, 1]] (by decide) t6 (by decide) (by decide)

/-- C204: the parts of `test_add_functions` and `test_from_functions` with numbers pass: adding inequalities, equalities and bounds, on all or some of the coordinates, gives
the expected rows, and so do the constructors from bounds; the calls with wrong sizes raise `ValueError`. -/
theorem C204 : addRows = .ok () ∧ addBounds = .ok () ∧ fromBounds = .ok () ∧ test_bound_errors = .ok () :=
  ⟨addRows_ok, addBounds_ok, fromBounds_ok, test_bound_errors_ok⟩

end Verif.TestSuite
