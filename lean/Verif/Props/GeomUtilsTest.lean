import Verif.Props.GeomUtils
import Verif.Props.ExplicitTest
import Verif.Props.ParametricTest
import Verif.Model.TestGeomUtils

/-
The tests of the functions of geometry/utils.py (C194).
-/
namespace Verif.Props
open Finset TestSuite

/-- the columns of a basis solve the equations -/
theorem basis_col {A Z : Mat ℝ} (h : ∀ x : ℕ → ℝ, (∀ i < A.nr, ∑ k ∈ range A.nc, A.e i k * x k = 0) ↔
    ∃ y : ℕ → ℝ, ∀ k < A.nc, x k = ∑ j ∈ range Z.nc, Z.e k j * y j) {j : ℕ} (hj : j < Z.nc) :
    ∀ i < A.nr, ∑ k ∈ range A.nc, A.e i k * Z.e k j = 0 :=
  (h fun k => Z.e k j).2 ⟨fun i => if i = j then 1 else 0, fun k _ => by simp [hj]⟩

theorem nullspaceEmpty_ok {L : Lib} (hL : LibSpec L) : nullspaceEmpty L = .ok () := by
  obtain ⟨Z, h1, h2, -, h4, h5⟩ := (C24 L hL (Mat.eye 3)).1 (by norm_num [Mat.eye]) (by norm_num [Mat.eye])
  unfold nullspaceEmpty
  rw [h1, Py.ok_bind]
  have h0 : Z.nc = 0 := by
    by_contra hz
    have hp : 0 < Z.nc := Nat.pos_of_ne_zero hz
    have hc := basis_col h5 hp
    have hn := h4 0 hp 0 hp
    have e0 := hc 0 (by norm_num [Mat.eye])
    have e1 := hc 1 (by norm_num [Mat.eye])
    have e2 := hc 2 (by norm_num [Mat.eye])
    simp [Mat.eye, sum_range_succ] at e0 e1 e2 hn
    rw [e0, e1, e2] at hn
    norm_num at hn
  simp [h0, h2, assertTrue, Mat.eye]

/-- the basis of the second case: the third axis, in one of the two directions -/
theorem nullspacePlane_basis {L : Lib} (hL : LibSpec L) : ∃ Z : Mat ℝ, Geom.nullspace_basis L planeRows = .ok Z ∧ Z.nr = 3 ∧ Z.nc = 1 ∧ Z.e 0 0 = 0 ∧
    Z.e 1 0 = 0 ∧ (Z.e 2 0 = 1 ∨ Z.e 2 0 = -1) := by
  obtain ⟨Z, h1, h2, -, h4, h5⟩ := (C24 L hL planeRows).1 (by norm_num [planeRows]) (by norm_num [planeRows])
  have hcol : ∀ j < Z.nc, Z.e 0 j = 0 ∧ Z.e 1 j = 0 := by
    intro j hj
    have e0 := basis_col h5 hj 0 (by norm_num [planeRows])
    have e1 := basis_col h5 hj 1 (by norm_num [planeRows])
    simp [planeRows, sum_range_succ] at e0 e1
    exact ⟨e0, e1⟩
  have hdot : ∀ i < Z.nc, ∀ j < Z.nc, Z.e 2 i * Z.e 2 j = if i = j then 1 else 0 := by
    intro i hi j hj
    have := h4 i hi j hj
    rw [← this]
    simp [planeRows, sum_range_succ, (hcol i hi).1, (hcol i hi).2]
  have hpos : Z.nc ≠ 0 := by
    intro hz
    obtain ⟨y, hy⟩ := (h5 fun k => if k = 2 then 1 else 0).1 (by
      intro i hi
      have hi' : i < 2 := hi
      interval_cases i <;> simp [planeRows, sum_range_succ])
    have := hy 2 (by norm_num [planeRows])
    simp [hz] at this
  have hone : Z.nc = 1 := by
    by_contra hn
    have a0 := hdot 0 (by omega) 0 (by omega)
    have a1 := hdot 1 (by omega) 1 (by omega)
    have a2 := hdot 0 (by omega) 1 (by omega)
    simp at a0 a1 a2
    rcases a2 with h | h
    · simp [h] at a0
    · simp [h] at a1
  obtain ⟨c0, c1⟩ := hcol 0 (by omega)
  have hs := hdot 0 (by omega) 0 (by omega)
  exact ⟨Z, h1, h2, hone, c0, c1, mul_self_eq_one_iff.1 (by simpa using hs)⟩

theorem nullspacePlane_asserts {L : Lib} (hL : LibSpec L) :
    Asserts (nullspacePlane L) (∀ Z, Geom.nullspace_basis L planeRows = .ok Z → 0 < Z.e 2 0) := by
  obtain ⟨Z, h1, h2, h3, h4, h5, h6⟩ := nullspacePlane_basis hL
  unfold nullspacePlane
  rw [h1, Py.ok_bind]
  have e : (∀ Z', (.ok Z : Py (Mat ℝ)) = .ok Z' → 0 < Z'.e 2 0) ↔ 0 < Z.e 2 0 :=
    ⟨fun h => h Z rfl, fun h Z' hZ => by cases hZ; exact h⟩
  have key : (Z.nr = 3 ∧ Z.nc = 1 ∧ ∀ i < Z.nr, ∀ j < Z.nc, |Z.e i j - if i = 2 then 1 else 0| < 1.5e-6) ↔ 0 < Z.e 2 0 := by
    constructor
    · rintro ⟨-, -, h⟩
      have := h 2 (by omega) 0 (by omega)
      rcases h6 with h | h
      · rw [h]; norm_num
      · rw [h] at this; norm_num [abs_of_neg] at this
    · intro hp
      have hz : Z.e 2 0 = 1 := by
        rcases h6 with h | h
        · exact h
        · rw [h] at hp; norm_num at hp
      refine ⟨h2, h3, fun i hi j hj => ?_⟩
      obtain rfl : j = 0 := by omega
      rw [h2] at hi
      interval_cases i <;> simp [h4, h5, hz] <;> norm_num
  unfold assertMatAlmostEqual assertTrue
  constructor
  · intro h
    exact if_pos (decide_eq_true (key.2 (e.1 h)))
  · intro h
    exact if_neg fun hh => h (e.2 (key.1 (of_decide_eq_true hh)))

theorem nullspaceSlant_ok {L : Lib} (hL : LibSpec L) : nullspaceSlant L = .ok () := by
  obtain ⟨Z, h1, h2, -, h4, h5⟩ := (C24 L hL slantRows).1 (by norm_num [slantRows]) (by norm_num [slantRows])
  have hcol : ∀ j < Z.nc, Z.e 0 j = 0 ∧ Z.e 1 j = - Z.e 2 j := by
    intro j hj
    have e0 := basis_col h5 hj 0 (by norm_num [slantRows])
    have e1 := basis_col h5 hj 1 (by norm_num [slantRows])
    simp [slantRows, sum_range_succ] at e0 e1
    exact ⟨e0, by linarith⟩
  have hdot : ∀ i < Z.nc, ∀ j < Z.nc, 2 * (Z.e 2 i * Z.e 2 j) = if i = j then 1 else 0 := by
    intro i hi j hj
    have := h4 i hi j hj
    rw [← this]
    simp [slantRows, sum_range_succ, (hcol i hi).1, (hcol i hi).2, (hcol j hj).2]
    ring
  have hpos : Z.nc ≠ 0 := by
    intro hz
    obtain ⟨y, hy⟩ := (h5 fun k => if k = 2 then 1 else if k = 1 then -1 else 0).1 (by
      intro i hi
      have hi' : i < 2 := hi
      interval_cases i <;> simp [slantRows, sum_range_succ])
    have := hy 2 (by norm_num [slantRows])
    simp [hz] at this
  have hone : Z.nc = 1 := by
    by_contra hn
    have a0 := hdot 0 (by omega) 0 (by omega)
    have a1 := hdot 1 (by omega) 1 (by omega)
    have a2 := hdot 0 (by omega) 1 (by omega)
    simp at a0 a1 a2
    rcases a2 with h | h
    · simp [h] at a0
    · simp [h] at a1
  obtain ⟨c0, c1⟩ := hcol 0 (by omega)
  have hs := hdot 0 (by omega) 0 (by omega)
  have hne : Z.e 2 0 ≠ 0 := by
    intro h
    rw [h] at hs
    norm_num at hs
  have hq : Z.e 1 0 / Z.e 2 0 = -1 := by
    rw [c1]
    field_simp
  unfold nullspaceSlant
  rw [h1, Py.ok_bind]
  have e : decide (Z.nr = 3 ∧ Z.nc = 1) = true := decide_eq_true ⟨h2, hone⟩
  rw [e, c0, hq]
  simp only [assertTrue, if_true, Py.ok_bind, almost_self]

/-- C194, what holds of the test of `nullspace_basis`: its first and third cases pass with any library within its contract, its second case, and so the
test, passes exactly if the basis that the library finds for the plane has a positive last entry, and is an assertion error otherwise. -/
theorem C194_nullspace_partial (L : Lib) (hL : LibSpec L) :
    nullspaceEmpty L = .ok () ∧ nullspaceSlant L = .ok () ∧
    Asserts (test_nullspace_basis L) (∀ Z, Geom.nullspace_basis L planeRows = .ok Z → 0 < Z.e 2 0) := by
  refine ⟨nullspaceEmpty_ok hL, nullspaceSlant_ok hL, ?_⟩
  have h := nullspacePlane_asserts hL
  unfold test_nullspace_basis
  rw [nullspaceEmpty_ok hL, Py.ok_bind]
  refine ⟨fun p => ?_, fun p => ?_⟩
  · rw [h.1 p, Py.ok_bind, nullspaceSlant_ok hL]
  · rw [h.2 p]
    rfl

/-- the library with the opposite singular vectors -/
def flipped (L : Lib) : Lib := { L with svdV := fun A => ⟨(L.svdV A).nr, (L.svdV A).nc, fun i j => - (L.svdV A).e i j⟩ }

theorem flipped_spec {L : Lib} (hL : LibSpec L) : LibSpec (flipped L) where
  nnls_n := hL.nnls_n
  nnls_nonneg := hL.nnls_nonneg
  nnls_min := hL.nnls_min
  nnls_res := hL.nnls_res
  pinv_nr := hL.pinv_nr
  pinv_nc := hL.pinv_nc
  pinv_1 := hL.pinv_1
  pinv_2 := hL.pinv_2
  pinv_3 := hL.pinv_3
  pinv_4 := hL.pinv_4
  chol_ok := hL.chol_ok
  chol_err := hL.chol_err
  svd_nr := hL.svd_nr
  svd_nc := hL.svd_nc
  svd_orth A := by
    have e : ((flipped L).svdV A).asM A.nc A.nc = - (L.svdV A).asM A.nc A.nc := rfl
    rw [e, Matrix.transpose_neg, Matrix.neg_mul, Matrix.mul_neg, neg_neg, hL.svd_orth A]
  svd_ker A j hj hr i hi := by
    have := hL.svd_ker A j hj hr i hi
    show ∑ k ∈ range A.nc, A.e i k * - (L.svdV A).e k j = 0
    have h' : ∑ k ∈ range A.nc, A.e i k * (L.svdV A).e k j = 0 := this
    simp only [mul_neg, sum_neg_distrib, h', neg_zero]
  qr_nr := hL.qr_nr
  qr_nc := hL.qr_nc
  qr_tri := hL.qr_tri
  qr_eq := hL.qr_eq

/-- C194 is false of the test of `nullspace_basis`: of a library and the one with the opposite singular vectors, both within the contract, exactly one
passes the test. -/
theorem C194_nullspace_false (L : Lib) (hL : LibSpec L) : ∃ L₁ L₂, (L₁ = L ∧ L₂ = flipped L ∨ L₁ = flipped L ∧ L₂ = L) ∧ LibSpec L₁ ∧ LibSpec L₂ ∧
    test_nullspace_basis L₁ = .ok () ∧ test_nullspace_basis L₂ = .error .assertionError := by
  have hF := flipped_spec hL
  obtain ⟨Z, h1, -, -, -, -, h6⟩ := nullspacePlane_basis hL
  have hr : ∃ r, np.rank planeRows = .ok r := ⟨_, if_neg (by norm_num [planeRows])⟩
  obtain ⟨r, hr⟩ := hr
  have eZ : Z = Geom.colsFromRank (L.svdV planeRows) r := by
    unfold Geom.nullspace_basis at h1
    rw [hr] at h1
    cases h1
    rfl
  have hZF : Geom.nullspace_basis (flipped L) planeRows = .ok (Geom.colsFromRank ((flipped L).svdV planeRows) r) := by
    unfold Geom.nullspace_basis
    rw [hr]
    rfl
  have eF : (Geom.colsFromRank ((flipped L).svdV planeRows) r).e 2 0 = - Z.e 2 0 := by rw [eZ]; rfl
  have a1 := (C194_nullspace_partial L hL).2.2
  have a2 := (C194_nullspace_partial _ hF).2.2
  rcases h6 with h | h
  · refine ⟨L, flipped L, .inl ⟨rfl, rfl⟩, hL, hF, a1.1 fun Z' hZ' => ?_, a2.2 fun hall => ?_⟩
    · rw [h1] at hZ'
      cases hZ'
      rw [h]; norm_num
    · have := hall _ hZF
      rw [eF, h] at this
      norm_num at this
  · refine ⟨flipped L, L, .inr ⟨rfl, rfl⟩, hF, hL, a2.1 fun Z' hZ' => ?_, a1.2 fun hall => ?_⟩
    · rw [hZF] at hZ'
      cases hZ'
      rw [eF, h]; norm_num
    · have := hall _ h1
      rw [h] at this
      norm_num at this

/-- there are libraries within the contract -/
example : ∃ L₁ L₂, LibSpec L₁ ∧ LibSpec L₂ ∧ test_nullspace_basis L₁ = .ok () ∧ test_nullspace_basis L₂ = .error .assertionError := by
  obtain ⟨L, hL⟩ := exists_lib
  obtain ⟨L₁, L₂, -, h⟩ := C194_nullspace_false L hL
  exact ⟨L₁, L₂, h⟩

/-- the rows that are found for the matrix with a repeated row -/
theorem repeated_rows {L : Lib} (hL : LibSpec L) : Geom.linearly_independent_rows L repeatedRow = [0, 1] := by
  obtain ⟨h1, h2, h3, h4⟩ := C25_partial L hL repeatedRow 1e-6 (by norm_num)
  have m0 : 0 ∈ Geom.linearly_independent_rows L repeatedRow := by
    refine (h4 0 (by norm_num [repeatedRow])).2 (fun c _ m hm => absurd hm (by omega)) fun c => ?_
    simp [repeatedRow, sum_range_succ]
    norm_num
  have m1 : 1 ∈ Geom.linearly_independent_rows L repeatedRow := by
    refine (h4 1 (by norm_num [repeatedRow])).2 (fun c hc m hm => ?_) fun c => ?_
    · obtain rfl : m = 0 := by omega
      have := hc 0 (by norm_num [repeatedRow])
      simpa [repeatedRow] using this
    · refine lt_of_lt_of_le (by norm_num) (Real.le_sqrt_of_sq_le (x := 1) ?_)
      simp [repeatedRow, sum_range_succ]
      positivity
  have m2 : 2 ∉ Geom.linearly_independent_rows L repeatedRow := by
    intro h
    have := (h4 2 (by norm_num [repeatedRow])).1 h fun m => if m = 0 then 1 else 0
    simp [repeatedRow, sum_range_succ] at this
    norm_num at this
  refine List.Perm.eq_of_pairwise (le := (· < ·)) (fun a b _ _ h h' => absurd h (by omega)) h1 (by simp) ?_
  refine (List.perm_ext_iff_of_nodup (h1.imp fun h => ne_of_lt h) (by simp)).2 fun a => ?_
  constructor
  · intro ha
    have hlt : a < 3 := h2 a ha
    interval_cases a
    · simp
    · simp
    · exact absurd ha m2
  · intro ha
    simp at ha
    rcases ha with rfl | rfl
    · exact m0
    · exact m1

/-- all the rows of the identity are found -/
theorem eye_rows {L : Lib} (hL : LibSpec L) (n : ℕ) : Geom.linearly_independent_rows L (Mat.eye n) = List.range n := by
  obtain ⟨h1, h2, h3, h4⟩ := C25_partial L hL (Mat.eye n) 1e-6 (by norm_num)
  refine List.Perm.eq_of_pairwise (le := (· < ·)) (fun a b _ _ h h' => absurd h (by omega)) h1 List.pairwise_lt_range ?_
  refine (List.perm_ext_iff_of_nodup (h1.imp fun h => ne_of_lt h) List.nodup_range).2 fun a => ?_
  rw [List.mem_range]
  refine ⟨fun ha => h2 a ha, fun ha => (h4 a ha).2 (fun c hc m hm => ?_) fun c => ?_⟩
  · have := hc m (hm.trans ha)
    simpa [Mat.eye, hm] using this
  · refine lt_of_lt_of_le (by norm_num) (Real.le_sqrt_of_sq_le (x := 1) ?_)
    refine le_trans (le_of_eq ?_) (single_le_sum (f := fun j => ((Mat.eye n : Mat ℝ).e a j - ∑ m ∈ range a, c m * (Mat.eye n : Mat ℝ).e m j) ^ 2)
      (fun j _ => sq_nonneg _) (mem_range.2 ha))
    have : ∑ m ∈ range a, c m * (Mat.eye n : Mat ℝ).e m a = 0 := by
      refine sum_eq_zero fun m hm => ?_
      have : m ≠ a := ne_of_lt (mem_range.1 hm)
      simp [Mat.eye, this]
    simp only [this]
    simp [Mat.eye]

/-- C194: the test of `linearly_independent_rows` passes with any library within its contract. -/
theorem C194_rows (L : Lib) (hL : LibSpec L) : test_linearly_independent_rows L = .ok () := by
  unfold test_linearly_independent_rows
  simp only [repeated_rows hL, eye_rows hL]
  rfl

/-- the case of dimension `n` passes for any offset with nonnegative entries -/
theorem planeSimplex_ok {n : ℕ} (hn : 0 < n) {offset : Vec ℝ} (ho : ∀ j < n, 0 ≤ offset.e j) : planeSimplex offset n = .ok () := by
  have hl : ((List.range n).map (Mat.eye n : Mat ℝ).row).length = n := by simp
  have hp : ∀ p ∈ (List.range n).map (Mat.eye n : Mat ℝ).row, p.n = n := by
    intro p hp
    obtain ⟨i, -, rfl⟩ := List.mem_map.1 hp
    rfl
  obtain ⟨a, d, h⟩ := C26_returns n hn offset _ hl hp (by
    intro c hc
    have hc' : ∀ j : Fin n, c j + (∑ i, c i) * offset.e j = 0 := by
      intro j
      have := hc j j.2
      simp only [List.getElem_range, Mat.row, Mat.eye, mul_add, sum_add_distrib, ← sum_mul] at this
      rw [← this]
      congr 1
      rw [sum_eq_single j]
      · simp
      · intro b _ hb
        have : (b : ℕ) ≠ j := fun h => hb (Fin.ext h)
        simp [this]
      · simp
    have hs : (∑ i, c i) * (1 + ∑ j : Fin n, offset.e j) = 0 := by
      have := sum_congr rfl fun j (_ : j ∈ (univ : Finset (Fin n))) => hc' j
      rw [sum_add_distrib, ← mul_sum, sum_const_zero] at this
      linarith
    have hz : ∑ i, c i = 0 := by
      rcases mul_eq_zero.1 hs with h | h
      · exact h
      · have : 0 ≤ ∑ j : Fin n, offset.e j := sum_nonneg fun j _ => ho j j.2
        linarith
    funext j
    have := hc' j
    rw [hz] at this
    simpa using this)
  obtain ⟨h1, -, h3, h4, h5, -⟩ := C26 offset _ a d (fun p hp' q hq => (hp p hp').trans (hp q hq).symm) h
  have han : a.n = n := h1.symm.trans hl
  have had : ∀ i < n, a.e i = d := by
    intro i hi
    have := h5 _ (List.mem_map.2 ⟨i, List.mem_range.2 hi, rfl⟩)
    rw [han] at this
    rw [← this, sum_eq_single i]
    · simp [Mat.row, Mat.eye]
    · intro b _ hb
      simp [Mat.row, Mat.eye, hb.symm]
    · intro hb
      exact absurd (mem_range.2 hi) hb
  have hd : d = 1 / Real.sqrt n := by
    rw [han, sum_congr rfl fun j hj => by rw [had j (mem_range.1 hj)]] at h3
    rw [sum_const, card_range, nsmul_eq_mul] at h3
    have hn' : (0 : ℝ) < n := by exact_mod_cast hn
    have hs : 0 < Real.sqrt n := Real.sqrt_pos.2 hn'
    have hsq := Real.sq_sqrt hn'.le
    have : (d * Real.sqrt n) ^ 2 = 1 := by rw [mul_pow, hsq]; linarith
    have h1 : d * Real.sqrt n = 1 := by
      rcases mul_self_eq_one_iff.1 ((sq _).symm.trans this) with h | h
      · exact h
      · have := mul_nonneg h4 hs.le
        linarith
    rw [eq_div_iff hs.ne', h1]
  unfold planeSimplex
  rw [h, Py.ok_bind]
  simp only []
  rw [almost_same han fun i hi => (had i (han ▸ hi)).trans hd, Py.ok_bind, hd, almost_self]

/-- the plane through the origin passes unless the offset is on that plane -/
theorem planeLine_ok {offset : Vec ℝ} (ho : offset.e 0 + offset.e 1 ≠ 0) : planeLine offset = .ok () := by
  have hp : ∀ p ∈ linePoints, p.n = 2 := by simp [linePoints]
  obtain ⟨a, d, h⟩ := C26_returns 2 (by norm_num) offset linePoints rfl hp (by
    intro c hc
    have e0 := hc 0 (by norm_num)
    have e1 := hc 1 (by norm_num)
    simp [linePoints] at e0 e1
    have hs : (c 0 + c 1) * (offset.e 0 + offset.e 1) = 0 := by linarith
    have hz : c 0 + c 1 = 0 := (mul_eq_zero.1 hs).resolve_right ho
    have h0 : c 0 = 0 := by
      have : c 1 = - c 0 := by linarith
      rw [this] at e0
      linarith
    funext i
    fin_cases i
    · exact h0
    · show c 1 = 0
      linarith)
  obtain ⟨h1, -, h3, -, h5, -⟩ := C26 offset _ a d (fun p hp' q hq => (hp p hp').trans (hp q hq).symm) h
  have han : a.n = 2 := h1.symm
  have f1 := h5 ⟨2, fun i => if i = 0 then 1 else -1⟩ (by simp [linePoints])
  have f2 := h5 ⟨2, fun i => if i = 0 then -1 else 1⟩ (by simp [linePoints])
  rw [han] at h3 f1 f2
  simp [sum_range_succ] at h3 f1 f2
  have hd : d = 0 := by linarith
  have ha : a.e 0 = a.e 1 := by linarith
  have hne : a.e 1 ≠ 0 := by
    intro h0
    rw [ha, h0] at h3
    norm_num at h3
  unfold planeLine
  rw [h, Py.ok_bind]
  simp only []
  rw [ha, div_self hne, hd, almost_self, Py.ok_bind, almost_self]

/-- ... and the linear system is singular if it is -/
theorem planeLine_singular {offset : Vec ℝ} (ho : offset.e 0 + offset.e 1 = 0) : planeLine offset = .error .linAlgError := by
  set q0 : Vec ℝ := Vec.add ⟨2, fun i => if i = 0 then 1 else -1⟩ ⟨2, offset.e⟩ with hq0
  set q1 : Vec ℝ := Vec.add ⟨2, fun i => if i = 0 then -1 else 1⟩ ⟨2, offset.e⟩ with hq1
  have hs : Geom.shiftPoints linePoints ⟨2, offset.e⟩ = .ok [q0, q1] := rfl
  obtain ⟨P, hP, hPn⟩ := vstack_ofRow_ok (l := [q0, q1]) (n := 2) (by simp) (by
    intro v hv
    simp at hv
    rcases hv with rfl | rfl <;> rfl)
  obtain ⟨r1, r2, r3⟩ := vstack_ofRow hP
  have hnr : P.nr = 2 := r1
  have e00 := r3 0 (by simp) 0
  have e01 := r3 0 (by simp) 1
  have e10 := r3 1 (by simp) 0
  have e11 := r3 1 (by simp) 1
  have hdet : (P.asM P.nr P.nr).det = 0 := by
    rw [hnr, Matrix.det_fin_two]
    show P.e 0 0 * P.e 1 1 - P.e 0 1 * P.e 1 0 = 0
    rw [e00, e01, e10, e11]
    simp [hq0, hq1]
    have : offset.e 1 = - offset.e 0 := by linarith
    rw [this]
    ring
  have h3 : np.solve P (Vec.ones q0.n) = .error .linAlgError := by
    unfold np.solve
    rw [if_neg (by rw [hnr, hPn]; simp), if_neg (by rw [hnr]; simp [hq0]), if_pos hdet]
  have h4 : Geom.plane_through_points offset linePoints = .error .linAlgError := by
    show Geom.planeOffset ⟨2, offset.e⟩ linePoints = _
    unfold Geom.planeOffset
    rw [hs, Py.ok_bind]
    have hg : np.listGet [q0, q1] 0 = .ok q0 := rfl
    rw [hg, Py.ok_bind, hP, Py.ok_bind, h3]
    rfl
  unfold planeLine
  rw [h4]
  rfl

/-- C194: the test of `plane_through_points` passes for any offsets with nonnegative entries of which the last is not zero.  If the last is zero the linear
system is singular; `np.random.rand` draws numbers from zero, included, to one. -/
theorem C194_plane (offsets : ℕ → Vec ℝ) (offset : Vec ℝ) (ho : ∀ i < 8, ∀ j < i + 2, 0 ≤ (offsets i).e j) (ho' : ∀ j < 2, 0 ≤ offset.e j) :
    ((∃ j < 2, offset.e j ≠ 0) → test_plane_through_points offsets offset = .ok ()) ∧
    ((∀ j < 2, offset.e j = 0) → test_plane_through_points offsets offset = .error .linAlgError) ∧
    ∀ n, 0 < n → ∀ o : Vec ℝ, (∀ j < n, 0 ≤ o.e j) → planeSimplex o n = .ok () := by
  have h1 : forRange (fun i => planeSimplex (offsets i) (i + 2)) 8 = .ok () := forRange_ok fun i hi => planeSimplex_ok (by omega) (ho i hi)
  unfold test_plane_through_points
  rw [h1, Py.ok_bind]
  refine ⟨fun ⟨j, hj, hne⟩ => planeLine_ok fun h => hne ?_, fun h => planeLine_singular ?_, fun n hn o ho => planeSimplex_ok hn ho⟩
  · have a0 := ho' 0 (by norm_num)
    have a1 := ho' 1 (by norm_num)
    interval_cases j <;> linarith
  · rw [h 0 (by norm_num), h 1 (by norm_num), add_zero]

/-- both cases occur -/
example : test_plane_through_points (fun i => ⟨i + 2, fun _ => 1 / 2⟩) ⟨2, fun _ => 1 / 4⟩ = .ok () ∧
    test_plane_through_points (fun i => ⟨i + 2, fun _ => 0⟩) ⟨2, fun _ => 0⟩ = .error .linAlgError :=
  ⟨(C194_plane _ _ (fun _ _ _ _ => by norm_num) fun _ _ => by norm_num).1 ⟨0, by norm_num, by norm_num⟩,
    (C194_plane _ _ (fun _ _ _ _ => le_refl _) fun _ _ => le_refl _).2.1 fun _ _ => rfl⟩

end Verif.Props
