import Verif.Model.TestRemoveEqualities
import Verif.Props.PolyhedronTests
import Verif.Props.ParametricTest
import Verif.Props.GeomUtils

/-
The test of `_remove_equalities` (C199).
-/
namespace Verif.Props
open Finset Spec TestSuite

theorem foldr_min_le {a : ℝ} : ∀ {l : List ℝ}, l.foldr min a ≤ a ∧ ∀ x ∈ l, l.foldr min a ≤ x
  | [] => ⟨le_refl _, by simp⟩
  | b :: l => by
    obtain ⟨h1, h2⟩ := foldr_min_le (a := a) (l := l)
    refine ⟨(min_le_right _ _).trans h1, fun x hx => ?_⟩
    rcases List.mem_cons.1 hx with rfl | hx
    · exact min_le_left _ _
    · exact (min_le_right _ _).trans (h2 x hx)

theorem foldr_min_nonneg {a : ℝ} (ha : 0 ≤ a) : ∀ {l : List ℝ}, (∀ x ∈ l, 0 ≤ x) → 0 ≤ l.foldr min a
  | [], _ => ha
  | b :: l, h => le_min (h b (by simp)) (foldr_min_nonneg ha fun x hx => h x (List.mem_cons_of_mem _ hx))

/-- the smallest of nonnegative numbers of which one is zero -/
theorem minList_zero {l : List ℝ} (h : ∀ x ∈ l, 0 ≤ x) (h0 : 0 ∈ l) : minList l = .ok 0 := by
  cases l with
  | nil => cases h0
  | cons a l =>
    show Except.ok _ = Except.ok _
    congr 1
    refine le_antisymm ?_ (foldr_min_nonneg (h a (by simp)) fun x hx => h x (List.mem_cons_of_mem _ hx))
    rcases List.mem_cons.1 h0 with h0 | h0
    · rw [h0]; exact foldr_min_le.1
    · exact foldr_min_le.2 0 h0

/-- one entry of the matrix of differences suffices -/
theorem residual_pass {E : Mat ℝ} {f : Vec ℝ} {n : ℝ} (hE : E.nc = 1) {i k : ℕ} (hi : i < E.nr) (hk : k < f.n) (h : E.e i 0 * n = f.e k) :
    residualCheck E f n = .ok () := by
  unfold residualCheck absResiduals
  have e : np.dotMM E (⟨1, 1, fun _ _ => n⟩ : Mat ℝ) = .ok (E.mul ⟨1, 1, fun _ _ => n⟩) := if_pos hE
  have e1 : ∀ i, (E.mul (⟨1, 1, fun _ _ => n⟩ : Mat ℝ)).e i 0 = E.e i 0 * n := by
    intro i
    simp [Mat.mul, hE]
  rw [e, Py.ok_bind]
  show (minList _ >>= fun m => assertAlmostEqual m 0) = _
  rw [minList_zero, Py.ok_bind, almost_self]
  · intro x hx
    simp only [List.mem_flatMap, List.mem_map] at hx
    obtain ⟨_, _, _, _, rfl⟩ := hx
    exact abs_nonneg _
  · simp only [List.mem_flatMap, List.mem_map, List.mem_range]
    exact ⟨i, hi, k, hk, by rw [e1, h, sub_self, abs_zero]⟩

/-- the polyhedron of the test -/
theorem rep_cut : ∃ p, (Poly.from_bounds (fullB 2 (-1)) (fullB 2 1) >>= fun p => Poly.runOn p (Poly.add_equality ones12 (.d1 (full 1 1)))) = .ok p ∧
    Rep 2 p [(fun z => -1 * z 0, - -1), (fun z => -1 * z 1, - -1), (fun z => 1 * z 0, 1), (fun z => 1 * z 1, 1)] [(fun z => z 0 + z 1, 1)] := by
  obtain ⟨p, a1, -, r1⟩ := rep_box (-1) 1
  obtain ⟨q, a2, -, r2⟩ := rep_diag r1 1
  exact ⟨q, by rw [a1, Py.ok_bind, a2], r2⟩

/-- the coordinates that `_remove_equalities` finds in the test -/
theorem cut_values {L : Lib} (hL : LibSpec L) {p : Poly}
    (h : Rep 2 p [(fun z => -1 * z 0, - -1), (fun z => -1 * z 1, - -1), (fun z => 1 * z 0, 1), (fun z => 1 * z 1, 1)] [(fun z => z 0 + z 1, 1)]) :
    ∃ E f N R a, Poly.removeEqualities L p = .ok (E, f, N, R) ∧ E.nr = 4 ∧ E.nc = 1 ∧ f.n = 4 ∧ N.nr = 2 ∧ N.nc = 1 ∧ N.e 0 0 = a ∧ N.e 1 0 = -a ∧ a ^ 2 = 1 / 2 ∧
      R.nr = 2 ∧ 0 < R.nc ∧ R.e 0 0 = R.e 1 0 ∧ R.e 0 0 ≠ 0 ∧
      ∀ n, (E.e 0 0 * n - f.e 0 = -(1 / 2 + a * n) - 1 ∧ E.e 1 0 * n - f.e 1 = -(1 / 2 - a * n) - 1) ∧
        E.e 2 0 * n - f.e 2 = 1 / 2 + a * n - 1 ∧ E.e 3 0 * n - f.e 3 = 1 / 2 - a * n - 1 := by
  have nr : p.A.nr = 4 := h.len.1
  have cr : p.C.nr = 1 := h.len.2
  have nc : p.A.nc = 2 := h.inv.1
  have cc : p.C.nc = 2 := h.inv.2.2.1
  have hI := h.ineq
  rw [nr] at hI
  simp [List.range_succ] at hI
  have hE := h.eqs
  rw [cr] at hE
  simp at hE
  obtain ⟨⟨r0, b0⟩, ⟨r1, b1⟩, ⟨r2, b2⟩, r3, b3⟩ := hI
  have hi : Spec.EqIndep 2 p.C := by
    refine ⟨by omega, fun w hw i hi => ?_⟩
    have := hw 0 (by norm_num)
    have e : p.C.e 0 0 = 1 := by
      have := congrFun hE.1 fun k => if k = 0 then 1 else 0
      simpa [rowVal, cc, sum_range_succ] using this
    rw [cr, sum_range_one, e, mul_one] at this
    rw [cr] at hi
    interval_cases i
    exact this
  obtain ⟨E, f, N, R, x0, h1, hN0, h2⟩ := Poly.removeEqualities_ok hL h.inv (by omega) (Poly.eqRank_iff.2 hi)
  have Nnc : N.nc = 1 := by have := h2.Nnc; omega
  have Nnr := h2.Nnr
  -- the column of N
  have k0 := h2.iso fun _ => 1
  simp only [Nnc, sum_range_one, sum_range_succ, sum_range_zero, mul_one] at k0
  have k1 : N.e 0 0 + N.e 1 0 = 0 := by
    have := (h2.ker (fun j => N.e j 0)).2 ⟨fun _ => 1, fun j _ => by simp [Nnc]⟩ 0 (by omega)
    have e := congrFun hE.1 fun j => N.e j 0
    simp only [rowVal, cc] at e
    rw [← e]
    exact this
  have ha : N.e 0 0 ^ 2 = 1 / 2 := by
    have : N.e 1 0 = - N.e 0 0 := by linarith
    rw [this] at k0
    nlinarith
  have hne : N.e 0 0 ≠ 0 := by
    intro h
    rw [h] at ha
    norm_num at ha
  -- the run
  have hrun := h1
  unfold Poly.removeEqualities at hrun
  obtain ⟨N', g1, hrun⟩ := Py.bind_eq_ok hrun
  split at hrun
  · cases hrun
  split at hrun
  · cases hrun
  obtain ⟨R', g2, hrun⟩ := Py.bind_eq_ok hrun
  obtain ⟨E', g3, hrun⟩ := Py.bind_eq_ok hrun
  obtain ⟨_, -, hrun⟩ := Py.bind_eq_ok hrun
  obtain ⟨_, -, hrun⟩ := Py.bind_eq_ok hrun
  obtain ⟨r, -, hrun⟩ := Py.bind_eq_ok hrun
  obtain ⟨x, g4, hrun⟩ := Py.bind_eq_ok hrun
  obtain ⟨Ax, g5, hrun⟩ := Py.bind_eq_ok hrun
  obtain ⟨f', g6, hrun⟩ := Py.bind_eq_ok hrun
  cases hrun
  -- the columns of R
  obtain ⟨Z, z1, z2, -, z4, z5⟩ := (C24 L hL N.T).1 (by show 0 < N.nc; omega) (by show 0 < N.nr; omega)
  cases g2.symm.trans z1
  have Tc : N.T.nc = 2 := Nnr
  have Tr : N.T.nr = 1 := Nnc
  have ker : ∀ v : ℕ → ℝ, (∀ i < N.T.nr, ∑ k ∈ range N.T.nc, N.T.e i k * v k = 0) ↔ v 0 = v 1 := by
    intro v
    rw [Tr, Tc]
    have e : ∑ k ∈ range 2, N.T.e 0 k * v k = N.e 0 0 * (v 0 - v 1) := by
      simp only [sum_range_succ, sum_range_zero, zero_add]
      show N.e 0 0 * v 0 + N.e 1 0 * v 1 = _
      have : N.e 1 0 = - N.e 0 0 := by linarith
      rw [this]
      ring
    constructor
    · intro k
      have := k 0 (by norm_num)
      rw [e] at this
      have := (mul_eq_zero.1 this).resolve_left hne
      linarith
    · intro k i hi
      interval_cases i
      rw [e, k, sub_self, mul_zero]
  have Rpos : 0 < R.nc := by
    by_contra hn
    obtain ⟨y, hy⟩ := (z5 fun _ => 1).1 ((ker _).2 rfl)
    have := hy 0 (by omega)
    rw [show R.nc = 0 by omega] at this
    simp at this
  have hcol : ∀ y : ℕ → ℝ, ∑ j ∈ range R.nc, R.e 0 j * y j = ∑ j ∈ range R.nc, R.e 1 j * y j := fun y =>
    (ker fun k => ∑ j ∈ range R.nc, R.e k j * y j).1 ((z5 _).2 ⟨y, fun _ _ => rfl⟩)
  have hR : R.e 0 0 = R.e 1 0 := by
    have := hcol fun j => if j = 0 then 1 else 0
    simpa [Rpos] using this
  have hR1 := z4 0 Rpos 0 Rpos
  rw [Tc] at hR1
  simp only [sum_range_succ, sum_range_zero, zero_add, if_true, ← hR] at hR1
  -- the point x
  unfold np.dotMV at g4 g5
  split at g4 <;> cases g4
  split at g5 <;> cases g5
  have hx : (R.mulVec r).e 0 = (R.mulVec r).e 1 := hcol r.e
  set X := R.mulVec r with hX
  have e6 : np.subV p.b (p.A.mulVec X) = .ok (p.b.sub (p.A.mulVec X)) := if_pos (by rw [h.inv.2.1]; rfl)
  cases e6.symm.trans g6
  unfold np.dotMM at g3
  split at g3 <;> cases g3
  have hf : ∀ i, (p.b.sub (p.A.mulVec X)).e i = p.b.e i - rowVal p.A i X.e := fun _ => rfl
  have hEe : ∀ i, (p.A.mul N).e i 0 = rowVal p.A i fun k => N.e k 0 := fun _ => rfl
  have res : ∀ i < 4, rowVal p.A i x0 = rowVal p.A i X.e := by
    intro i hi
    have := h2.res (fun _ => 0) i (by omega)
    simp only [mul_zero, sum_const_zero, zero_sub, affine, add_zero, hf] at this
    unfold rowVal at this ⊢
    rw [nc] at this ⊢
    linarith
  have x0e : x0 0 = X.e 0 := by
    have := res 2 (by norm_num)
    rw [r2] at this
    exact this
  have x1e : x0 1 = X.e 1 := by
    have := res 3 (by norm_num)
    rw [r3] at this
    exact this
  have hsum : x0 0 + x0 1 = 1 := by
    have := h2.eqs (fun _ => 0) 0 (by omega)
    simp only [mul_zero, sum_const_zero, affine, add_zero] at this
    have e := congrFun hE.1 x0
    simp only [rowVal, cc] at e
    rw [← e, this, hE.2]
  have hX0 : X.e 0 = 1 / 2 := by linarith
  have hX1 : X.e 1 = 1 / 2 := by linarith
  refine ⟨_, _, N, R, N.e 0 0, h1, nr, Nnc, h.inv.2.1.trans nr, Nnr, Nnc, rfl, by linarith, ha, z2.trans Tc, Rpos, hR, fun h0 => ?_, fun n => ?_⟩
  · rw [h0] at hR1
    norm_num at hR1
  · simp only [hf, hEe, r0, r1, r2, r3, b0, b1, b2, b3, hX0, hX1]
    have : N.e 1 0 = - N.e 0 0 := by linarith
    rw [this]
    refine ⟨⟨?_, ?_⟩, ?_, ?_⟩ <;> ring

/-- the product of the coordinate and the basis -/
theorem cut_product {a n c : ℝ} (ha : a ^ 2 = 1 / 2) (hn : n ^ 2 = 2 * c ^ 2) : a * n = c ∨ a * n = -c := by
  refine sq_eq_sq_iff_eq_or_eq_neg.1 ?_
  rw [mul_pow, ha, hn]
  ring

/-- C199: `test_remove_equalities` passes with every library within the contract.  The bounds of the segment that the test lists are the ones of the
inequalities in the new coordinates: at each of them an inequality is active.  The test asks less than that: the difference of a column and an array
with one axis is a matrix, and the test passes a number as soon as the product with any row of `E` is any entry of `f`. -/
theorem C199 (L : Lib) (hL : LibSpec L) :
    test_remove_equalities L = .ok () ∧
    (∃ p₀ p E f N R, Poly.from_bounds (fullB 2 (-1)) (fullB 2 1) = .ok p₀ ∧ Poly.runOn p₀ (Poly.add_equality ones12 (.d1 (full 1 1))) = .ok p ∧
      Poly.removeEqualities L p = .ok (E, f, N, R) ∧ E.nc = 1 ∧ E.nr = f.n ∧
      ∀ n ∈ [Real.sqrt 2 / 2, 3 * Real.sqrt 2 / 2, -Real.sqrt 2 / 2, -3 * Real.sqrt 2 / 2], ∃ i < E.nr, E.e i 0 * n = f.e i) ∧
    ∀ (E : Mat ℝ) (f : Vec ℝ) n i k, E.nc = 1 → i < E.nr → k < f.n → E.e i 0 * n = f.e k → residualCheck E f n = .ok () := by
  obtain ⟨p₀, a1, -, r1⟩ := rep_box (-1) 1
  obtain ⟨p, a2, -, r2⟩ := rep_diag r1 1
  obtain ⟨E, f, N, R, a, k1, k2, k3, k4, k5, k6, k7, k8, k9, k10, k11, k12, k13, k14⟩ := cut_values hL r2
  have s2 : Real.sqrt 2 ^ 2 = 2 := Real.sq_sqrt (by norm_num)
  have half : ∀ n : ℝ, n ^ 2 = 2 * (1 / 2) ^ 2 → ∃ i < E.nr, E.e i 0 * n = f.e i := by
    intro n hn
    obtain ⟨-, g3, g4⟩ := k14 n
    rcases cut_product k9 hn with c | c
    · exact ⟨2, by omega, by rw [c] at g3; linarith⟩
    · exact ⟨3, by omega, by rw [c] at g4; linarith⟩
  have more : ∀ n : ℝ, n ^ 2 = 2 * (3 / 2) ^ 2 → ∃ i < E.nr, E.e i 0 * n = f.e i := by
    intro n hn
    obtain ⟨⟨g1, g2⟩, -⟩ := k14 n
    rcases cut_product k9 hn with c | c
    · exact ⟨1, by omega, by rw [c] at g2; linarith⟩
    · exact ⟨0, by omega, by rw [c] at g1; linarith⟩
  have m1 := half (Real.sqrt 2 / 2) (by rw [div_pow, s2]; norm_num)
  have m2 := more (3 * Real.sqrt 2 / 2) (by rw [div_pow, mul_pow, s2]; norm_num)
  have m3 := half (-Real.sqrt 2 / 2) (by rw [div_pow, neg_pow, s2]; norm_num)
  have m4 := more (-3 * Real.sqrt 2 / 2) (by rw [div_pow, mul_pow, s2]; norm_num)
  have pass : ∀ n : ℝ, (∃ i < E.nr, E.e i 0 * n = f.e i) → residualCheck E f n = .ok () := fun n ⟨i, hi, h⟩ => residual_pass k3 hi (by omega) h
  have hv : removeEqualitiesValues L p = .ok () := by
    have ha0 : a ≠ 0 := by
      rintro rfl
      norm_num at k9
    have o1 : entryM N 0 0 = .ok a := by rw [← k7]; exact if_pos ⟨by omega, by omega⟩
    have o2 : entryM N 1 0 = .ok (-a) := by rw [← k8]; exact if_pos ⟨by omega, by omega⟩
    have o3 : entryM R 0 0 = .ok (R.e 0 0) := if_pos ⟨by omega, by omega⟩
    have o4 : entryM R 1 0 = .ok (R.e 0 0) := by rw [k12]; exact if_pos ⟨by omega, by omega⟩
    unfold removeEqualitiesValues
    rw [k1, Py.ok_bind]
    dsimp only
    rw [o1, Py.ok_bind, o2, Py.ok_bind, show a / -a = -1 by field_simp, almost_self, Py.ok_bind, o3, Py.ok_bind, o4, Py.ok_bind, div_self k13, almost_self, Py.ok_bind,
      pass _ m1, Py.ok_bind, pass _ m2, Py.ok_bind, pass _ m3, Py.ok_bind, pass _ m4]
  have bad : ∀ {q : Poly} {I E}, Rep 2 q I E → 2 ≤ E.length → assertValueError (Poly.removeEqualities L q) = .ok () := by
    intro q I E h hE
    rw [Poly.removeEqualities_error hL h.inv (by rw [h.len.2]; omega) (fun k => by have := k.2; rw [h.len.2] at this; omega)]
    rfl
  obtain ⟨q1, b1, -, t1⟩ := rep_eq r2 (F := ⟨1, 2, fun _ j => if j = 0 then 1 else -1⟩) (f := full 1 0) (idx := none) rfl rfl
  obtain ⟨q2, b2, -, t2⟩ := rep_eq t1 (F := ⟨1, 2, fun _ j => if j = 0 then 0 else 1⟩) (f := full 1 5) (idx := none) rfl rfl
  obtain ⟨q3, b3, -, t3⟩ := rep_eq r2 (F := ⟨1, 2, fun _ _ => 2⟩) (f := full 1 1) (idx := none) rfl rfl
  refine ⟨?_, ⟨p₀, p, E, f, N, R, a1, a2, k1, k3, k2.trans k4.symm, ?_⟩, fun E f n i k h1 h2 h3 h4 => residual_pass h1 h2 h3 h4⟩
  · unfold test_remove_equalities
    rw [a1, Py.ok_bind, a2, Py.ok_bind, hv, Py.ok_bind, b1, Py.ok_bind, bad t1 (by simp), Py.ok_bind, b2, Py.ok_bind, bad t2 (by simp), Py.ok_bind, b3, Py.ok_bind,
      bad t3 (by simp)]
  · simp only [List.forall_mem_cons, List.not_mem_nil, false_imp_iff, implies_true, and_true]
    exact ⟨m1, m2, m3, m4⟩

/-- there is a library within the contract; and the check passes on a point that is no bound: `-1 ≤ n ≤ 2` with `n = 1` -/
example : (∃ L, LibSpec L ∧ test_remove_equalities L = .ok ()) ∧
    residualCheck ⟨2, 1, fun i _ => if i = 0 then 1 else -1⟩ ⟨2, fun i => if i = 0 then 2 else 1⟩ 1 = .ok () := by
  obtain ⟨L, hL⟩ := exists_lib
  obtain ⟨h1, -, h3⟩ := C199 L hL
  exact ⟨⟨L, hL, h1⟩, h3 _ _ 1 0 1 rfl (by norm_num) (by norm_num) (by norm_num)⟩

end Verif.Props
