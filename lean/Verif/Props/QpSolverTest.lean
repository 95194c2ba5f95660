import Verif.Props.ProgramsTest
import Verif.Model.TestSolvers

/-
The test of the solvers of quadratic programs (C196).
-/
namespace Verif.Props
open Finset TestSuite

/-- an answer with a given value, one entry of the minimizer and two multipliers -/
theorem checkEntry_asserts {s : Sol} {m xi : ℝ} {i : ℕ} {x lam : Vec ℝ} (hm : s.min = some m) (hx : s.argmin = some x) (hi : i < x.n) (hxi : x.e i = xi)
    (hl : s.multiplier_inequality = some lam) (hmu : s.multiplier_equality = none) {act : List ℕ} {l : Vec ℝ} (hn : lam.n = l.n) :
    Asserts (checkEntry s m i xi act l) (s.active_set = some act ∧ ∀ i < l.n, |lam.e i - l.e i| < 1.5e-6) := by
  have a1 : assertAlmostEqualO (some m) m = .ok () := almost_self m
  have a2 : entryOf (some x) i = .ok (x.e i) := if_pos hi
  have a3 := almost_asserts hn (rfl : l.n = l.n)
  unfold checkEntry
  rw [hm, hx, hl, hmu, a1, Py.ok_bind, a2, Py.ok_bind, hxi, almost_self, Py.ok_bind]
  refine ⟨fun p => ?_, fun p => ?_⟩
  · rw [decide_eq_true p.1, a3.1 p.2]
    rfl
  · by_cases q : s.active_set = some act
    · rw [decide_eq_true q, a3.2 fun q' => p ⟨q, q'⟩]
      rfl
    · rw [decide_eq_false q]
      rfl

/-- the answer to the last quadratic program: the first multiplier is open -/
theorem qp4_is {tol : ℝ} (ht : 0 ≤ tol) (ht1 : tol < 1) {s : Sol} (h : QpAns (Mat.eye 2) (Vec.zeros 2) thinA (vec2 1 (-1)) none none tol s) :
    ∃ lam : Vec ℝ, s.multiplier_inequality = some lam ∧ 0 ≤ lam.e 0 ∧ lam.e 1 = 1 + lam.e 0 ∧
      Asserts (checkEntry s 0.5 0 1 [1] (vec2 0 1)) (lam.e 0 ≤ tol ∧ lam.e 0 < 1.5e-6) := by
  obtain ⟨x, lam, act, h1, h2, h3, h4, h5, h6, h7, h8, h9⟩ := h
  have s0 := h6.stat 0 (by norm_num [thinA])
  have s1 := h6.stat 1 (by norm_num [thinA])
  have p0 := h6.nonneg 0 (by norm_num [thinA])
  have f0 := h3.1 0 (by norm_num [thinA])
  have f1 := h3.1 1 (by norm_num [thinA])
  simp [thinA, sum_range_succ, Spec.eqGrad, Spec.qpGrad, Mat.eye, vec2] at s0 s1 f0 f1
  have x0 : x.e 0 = 1 := le_antisymm f0 f1
  have l1 : lam.e 1 = 1 + lam.e 0 := by linarith
  have hl : lam.n = 2 := h6.size
  have hm : s.min = some 0.5 := by
    rw [h4]
    simp [Spec.qpCost, sum_range_succ, x0, s1, Mat.eye]
    norm_num
  refine ⟨lam, h5, p0, l1, ?_⟩
  have key := checkEntry_asserts (act := [1]) (l := vec2 0 1) hm h1 (show 0 < x.n by rw [h2]; simp) x0 h5 (h7 rfl) hl
  have e : (s.active_set = some [1] ∧ ∀ i < (vec2 0 1).n, |lam.e i - (vec2 0 1).e i| < 1.5e-6) ↔ (lam.e 0 ≤ tol ∧ lam.e 0 < 1.5e-6) := by
    have ha : s.active_set = some [1] ↔ lam.e 0 ≤ tol := by
      rw [h8, h9]
      have : List.range thinA.nr = [0, 1] := rfl
      have h1' : tol < lam.e 1 := by linarith
      rw [this]
      by_cases hc : tol < lam.e 0
      · simp [hc, h1']
      · simp [hc, h1', not_lt.1 hc]
    rw [ha]
    refine and_congr_right fun _ => ⟨fun h => ?_, fun h i hi => ?_⟩
    · have := h 0 (by norm_num [vec2])
      simp [vec2, abs_of_nonneg p0] at this
      exact this
    · have hi' : i < 2 := hi
      interval_cases i
      · simpa [vec2, abs_of_nonneg p0] using h
      · simpa [vec2, l1, abs_of_nonneg p0] using h
  exact ⟨fun p => key.1 (e.2 p), fun p => key.2 fun q => p (e.1 q)⟩

/-- the infeasible program -/
theorem qp3_infeasible : ∀ x, ¬ Spec.Feasible negEye (vec2 (-1) (-1)) (some qpC) (some (at1 (-2))) x := by
  intro x hx
  have h1 := hx.1 1 (by norm_num [negEye])
  have h2 := hx.2 0 (by norm_num [qpC])
  simp [negEye, qpC, at1, vec2, sum_range_succ] at h1 h2
  linarith

/-- the four programs of the test for a solver -/
theorem qp_solver_asserts {qp : Mat ℝ → Vec ℝ → Mat ℝ → Vec ℝ → Option (Mat ℝ) → Option (Vec ℝ) → Py Sol} {tol : ℝ} (ht : 0 ≤ tol) (ht1 : tol < 1)
    (h1 : ∃ s, qp (Mat.eye 2) (Vec.ones 2) negEye (vec2 (-1) (-1)) none none = .ok s ∧
      QpAns (Mat.eye 2) (Vec.ones 2) negEye (vec2 (-1) (-1)) none none tol s)
    (h2 : ∃ s, qp (Mat.eye 2) (Vec.ones 2) negEye (vec2 (-1) (-1)) (some qpC) (some (at1 2)) = .ok s ∧
      QpAns (Mat.eye 2) (Vec.ones 2) negEye (vec2 (-1) (-1)) (some qpC) (some (at1 2)) tol s)
    (h3 : qp (Mat.eye 2) (Vec.ones 2) negEye (vec2 (-1) (-1)) (some qpC) (some (at1 (-2))) = .ok Sol.none)
    {s : Sol} (h4 : qp (Mat.eye 2) (Vec.zeros 2) thinA (vec2 1 (-1)) none none = .ok s) {p : Prop} (h5 : Asserts (checkEntry s 0.5 0 1 [1] (vec2 0 1)) p) :
    Asserts (test_qp_solver qp) p := by
  obtain ⟨s1, a1, a2⟩ := h1
  obtain ⟨s2, b1, b2⟩ := h2
  obtain ⟨i1, e1⟩ := qp1_is (by linarith) a2
  obtain ⟨i2, e2⟩ := qp2_is (by linarith) ht b2
  have c3 : checkNone Sol.none = .ok () := rfl
  unfold test_qp_solver
  rw [a1, Py.ok_bind, (i1.asserts _).1 e1, Py.ok_bind, b1, Py.ok_bind, (i2.asserts _).1 e2, Py.ok_bind, h3, Py.ok_bind, c3, Py.ok_bind, h4, Py.ok_bind]
  exact h5

open Classical in
/-- the solver `nnls` that returns another of its minimizers when the two columns are opposite -/
noncomputable def shifted (L : Lib) : Lib :=
  let nnls : Mat ℝ → Vec ℝ → Vec ℝ × ℝ := fun A b =>
    if A.nc = 2 ∧ ∀ i < A.nr, A.e i 1 = - A.e i 0 then (⟨2, fun i => (L.nnls A b).1.e i + 1⟩, (L.nnls A b).2) else L.nnls A b
  { L with nnls := nnls }

theorem shifted_mulVec {L : Lib} {A : Mat ℝ} {b : Vec ℝ} (h : A.nc = 2 ∧ ∀ i < A.nr, A.e i 1 = - A.e i 0) :
    vnorm ((A.mulVec ⟨2, fun i => (L.nnls A b).1.e i + 1⟩).sub b) = vnorm ((A.mulVec (L.nnls A b).1).sub b) := by
  unfold vnorm
  congr 1
  refine sum_congr rfl fun i hi => ?_
  have hi' : i < A.nr := mem_range.1 hi
  have e : ∑ j ∈ range A.nc, A.e i j * ((L.nnls A b).1.e j + 1) = ∑ j ∈ range A.nc, A.e i j * (L.nnls A b).1.e j := by
    rw [h.1]
    simp only [sum_range_succ, sum_range_zero, zero_add, h.2 i hi']
    ring
  show (∑ j ∈ range A.nc, A.e i j * ((L.nnls A b).1.e j + 1) - b.e i) ^ 2 = (∑ j ∈ range A.nc, A.e i j * (L.nnls A b).1.e j - b.e i) ^ 2
  rw [e]

theorem shifted_spec {L : Lib} (hL : LibSpec L) : LibSpec (shifted L) where
  nnls_n A b hb := by
    by_cases h : A.nc = 2 ∧ ∀ i < A.nr, A.e i 1 = - A.e i 0
    · simp only [shifted, if_pos h]
      exact h.1.symm
    · simp only [shifted, if_neg h]
      exact hL.nnls_n A b hb
  nnls_nonneg A b hb i hi := by
    by_cases h : A.nc = 2 ∧ ∀ i < A.nr, A.e i 1 = - A.e i 0
    · simp only [shifted, if_pos h]
      have := hL.nnls_nonneg A b hb i hi
      linarith
    · simp only [shifted, if_neg h]
      exact hL.nnls_nonneg A b hb i hi
  nnls_min A b hb y hy := by
    by_cases h : A.nc = 2 ∧ ∀ i < A.nr, A.e i 1 = - A.e i 0
    · simp only [shifted, if_pos h]
      rw [shifted_mulVec h]
      exact hL.nnls_min A b hb y hy
    · simp only [shifted, if_neg h]
      exact hL.nnls_min A b hb y hy
  nnls_res A b hb := by
    by_cases h : A.nc = 2 ∧ ∀ i < A.nr, A.e i 1 = - A.e i 0
    · simp only [shifted, if_pos h]
      rw [shifted_mulVec h]
      exact hL.nnls_res A b hb
    · simp only [shifted, if_neg h]
      exact hL.nnls_res A b hb
  pinv_nr := hL.pinv_nr
  pinv_nc := hL.pinv_nc
  pinv_1 := hL.pinv_1
  pinv_2 := hL.pinv_2
  pinv_3 := hL.pinv_3
  pinv_4 := hL.pinv_4
  chol_ok := hL.chol_ok
  chol_err := hL.chol_err
  svd_nr := hL.svd_nr
  svd_nc := hL.svd_nc
  svd_orth := hL.svd_orth
  svd_ker := hL.svd_ker
  qr_nr := hL.qr_nr
  qr_nc := hL.qr_nc
  qr_tri := hL.qr_tri
  qr_eq := hL.qr_eq

/-- the first multiplier of the last program with the shifted minimizer -/
theorem shifted_qp {L : Lib} (hL : LibSpec L) {tol : ℝ} {s : Sol} {lam : Vec ℝ}
    (h : Pnnls.quadratic_program (shifted L) (Mat.eye 2) (Vec.zeros 2) thinA (vec2 1 (-1)) none none tol = .ok s)
    (hl : s.multiplier_inequality = some lam) (h0 : 0 ≤ lam.e 0) (h1 : lam.e 1 = 1 + lam.e 0) : 2 ≤ lam.e 0 := by
  unfold Pnnls.quadratic_program at h
  have hst : Pnnls.stackEqualities thinA (vec2 1 (-1)) none none = .ok (0, thinA, vec2 1 (-1)) := rfl
  simp only [hst, Py.ok_bind] at h
  obtain ⟨F, -, h⟩ := Py.bind_eq_ok h
  obtain ⟨Li, -, h⟩ := Py.bind_eq_ok h
  obtain ⟨Hi, -, h⟩ := Py.bind_eq_ok h
  obtain ⟨M, hM, h⟩ := Py.bind_eq_ok h
  obtain ⟨ACH, hH, h⟩ := Py.bind_eq_ok h
  obtain ⟨ACHf, hf, h⟩ := Py.bind_eq_ok h
  obtain ⟨m, hm, h⟩ := Py.bind_eq_ok h
  obtain ⟨An, hA, h⟩ := Py.bind_eq_ok h
  obtain ⟨bn, hb, h⟩ := Py.bind_eq_ok h
  obtain ⟨⟨y, r⟩, hy, h⟩ := Py.bind_eq_ok h
  -- the two columns are opposite
  have eM : M = thinA.mul Li.T := by
    unfold np.dotMM at hM
    split at hM <;> cases hM
    rfl
  have hMr : M.nr = 2 := by rw [eM]; rfl
  have hM1 : ∀ k, M.e 1 k = - M.e 0 k := by
    intro k
    rw [eM]
    show ∑ j ∈ range 2, thinA.e 1 j * Li.T.e j k = - ∑ j ∈ range 2, thinA.e 0 j * Li.T.e j k
    simp [thinA]
  have hACH : ACHf.n = ACH.nr ∧ ∀ i, ACHf.e i = 0 := by
    unfold np.dotMV at hf
    split at hf <;> cases hf
    exact ⟨rfl, fun i => by simp [Mat.mulVec]⟩
  have eA : An = qpA M m := by
    have : np.vstack [M.T.neg, Mat.ofRow m.neg] = np.vstack2 M.T.neg (Mat.ofRow m.neg) := rfl
    rw [this] at hA
    unfold np.vstack2 at hA
    split at hA <;> cases hA
    rfl
  have hHr : ACH.nr = 2 := by
    unfold np.dotMM at hH
    split at hH <;> cases hH
    rfl
  have em : m = (vec2 1 (-1)).add ACHf := by
    unfold np.addV at hm
    rw [if_pos (show (vec2 1 (-1)).n = ACHf.n by rw [hACH.1, hHr]; rfl)] at hm
    cases hm
    rfl
  have m0 : m.e 0 = 1 := by rw [em]; simp [vec2, hACH.2]
  have m1 : m.e 1 = -1 := by rw [em]; simp [vec2, hACH.2]
  have mn : m.n = 2 := by rw [em]; rfl
  have hop : An.nc = 2 ∧ ∀ i < An.nr, An.e i 1 = - An.e i 0 := by
    rw [eA]
    refine ⟨hMr, fun i _ => ?_⟩
    unfold qpA
    rw [Mat.vapp_e, Mat.vapp_e]
    split_ifs
    · show - M.e 1 i = - - M.e 0 i
      rw [hM1]
    · show - m.e 1 = - - m.e 0
      rw [m0, m1]
  have hy0 : 1 ≤ y.e 0 := by
    unfold np.nnls at hy
    split at hy
    · cases hy
    rename_i hbn
    split at hy
    · cases hy
    have := hL.nnls_nonneg An bn (not_not.1 hbn) 0 (by rw [hop.1]; norm_num)
    simp only [shifted, if_pos hop] at hy
    cases hy
    show 1 ≤ (L.nnls An bn).1.e 0 + 1
    linarith
  -- the multipliers
  split at h
  rotate_left
  · cases h
    cases hl
  obtain ⟨my, hmy, h⟩ := Py.bind_eq_ok h
  obtain ⟨_, -, h⟩ := Py.bind_eq_ok h
  obtain ⟨_, -, h⟩ := Py.bind_eq_ok h
  obtain ⟨_, -, h⟩ := Py.bind_eq_ok h
  obtain ⟨_, -, h⟩ := Py.bind_eq_ok h
  obtain ⟨_, -, h⟩ := Py.bind_eq_ok h
  obtain ⟨_, -, h⟩ := Py.bind_eq_ok h
  obtain ⟨_, -, h⟩ := Py.bind_eq_ok h
  cases h
  cases hl
  have emy : my = y.e 0 - y.e 1 := by
    unfold np.dotVV at hmy
    split at hmy <;> cases hmy
    simp only [Vec.dot, mn, sum_range_succ, sum_range_zero, m0, m1]
    ring
  have e0 : (y.divS (1 + my)).e (0 + 0) = y.e 0 / (1 + my) := rfl
  have e1 : (y.divS (1 + my)).e (0 + 1) = y.e 1 / (1 + my) := rfl
  change 0 ≤ y.e 0 / (1 + my) at h0
  change y.e 1 / (1 + my) = 1 + y.e 0 / (1 + my) at h1
  show 2 ≤ y.e 0 / (1 + my)
  have ht : 1 + my ≠ 0 := by
    intro hz
    rw [hz] at h1
    simp at h1
  have ht' : 1 + my = 1 / 2 := by
    field_simp at h1
    rw [emy] at h1 ⊢
    linarith
  rw [ht']
  linarith

/-- C196, what holds of the test of the solvers of quadratic programs: all its assertions but two pass with any library (respectively any optimizer) within the
contract.  The multipliers of the last program are not unique: they are `(l, 1 + l)`, and the test passes exactly if the solver finds an `l` that is
almost zero. -/
theorem C196_partial (L : Lib) (hL : LibSpec L) (G : Gurobi) (hG : GurobiSpec G) :
    (∃ s lam, Pnnls.quadratic_program L (Mat.eye 2) (Vec.zeros 2) thinA (vec2 1 (-1)) none none = .ok s ∧ s.multiplier_inequality = some lam ∧
      0 ≤ lam.e 0 ∧ lam.e 1 = 1 + lam.e 0 ∧ Asserts (test_qp_solver fun H f A b C d => Pnnls.quadratic_program L H f A b C d) (lam.e 0 ≤ 1e-7)) ∧
    ∃ s lam, Grb.quadratic_program G (Mat.eye 2) (Vec.zeros 2) thinA (vec2 1 (-1)) none none = .ok s ∧ s.multiplier_inequality = some lam ∧
      0 ≤ lam.e 0 ∧ lam.e 1 = 1 + lam.e 0 ∧ Asserts (test_qp_solver fun H f A b C d => Grb.quadratic_program G H f A b C d) (lam.e 0 < 1.5e-6) := by
  have sh3 : Spec.ConstrShape 2 negEye (vec2 (-1) (-1)) none none := ⟨rfl, rfl⟩
  have sh4 : Spec.ConstrShape 2 negEye (vec2 (-1) (-1)) (some qpC) (some (at1 2)) := ⟨rfl, rfl, rfl, rfl⟩
  have sh5 : Spec.ConstrShape 2 negEye (vec2 (-1) (-1)) (some qpC) (some (at1 (-2))) := ⟨rfl, rfl, rfl, rfl⟩
  have sh6 : Spec.ConstrShape 2 thinA (vec2 1 (-1)) none none := ⟨rfl, rfl⟩
  have tiny1 : Spec.NoTinyV 1e-9 (Vec.ones 2) := fun i _ => .inr (by simp; norm_num)
  have tiny2 : Spec.NoTinyV 1e-9 (vec2 (-1) (-1)) := noTiny_vec2 (.inr (by norm_num)) (.inr (by norm_num))
  have tiny3 : Spec.NoTinyM 1e-9 qpC := by
    intro i _ j _
    by_cases hj : j = 0
    · exact .inl (by simp [qpC, hj])
    · exact .inr (by simp [qpC, hj]; norm_num)
  have tiny4 : ∀ a : ℝ, 1e-9 < |a| → Spec.NoTinyV 1e-9 (at1 a) := fun a ha i _ => .inr ha
  have tiny5 : Spec.NoTinyM 1e-9 thinA := by
    intro i _ j _
    by_cases hj : j = 0
    · right
      by_cases hi : i = 0 <;> simp [thinA, hj, hi] <;> norm_num
    · exact .inl (by simp [thinA, hj])
  have t5 : NoTiny (Vec.ones 2) negEye (vec2 (-1) (-1)) (some qpC) (some (at1 (-2))) :=
    ⟨tiny1, noTiny_negEye, tiny2, fun _ h => by cases h; exact tiny3, fun _ h => by cases h; exact tiny4 _ (by norm_num)⟩
  have hx0 : ∀ j < 2, ∑ k ∈ range 2, (Mat.eye 2 : Mat ℝ).e j k * (-1) + (Vec.ones 2 : Vec ℝ).e j = 0 := by
    intro j hj
    interval_cases j <;> simp [sum_range_succ, Mat.eye]
  have d1 := qpData (C := none) (d := none) 1 (by norm_num) (by norm_num) trivial fun x _ h => h
  have d2 := qpData (C := some qpC) (d := some (at1 2)) 2 (by norm_num) (by norm_num)
    (by intro i _; simp [qpC, vec2, at1, sum_range_succ]) (by
      intro x hx _
      have := hx 0 (by norm_num [qpC])
      simp [qpC, at1, sum_range_succ] at this
      linarith)
  obtain ⟨p1, g1⟩ := qp_ans hL hG eye_posDef rfl sh3 (by norm_num [negEye]) (noTiny_eye 2) ⟨tiny1, noTiny_negEye, tiny2, nofun, nofun⟩ d1.1 (fun _ => -1) hx0 d1.2
  obtain ⟨p2, g2⟩ := qp_ans hL hG eye_posDef rfl sh4 (by norm_num [negEye]) (noTiny_eye 2)
    ⟨tiny1, noTiny_negEye, tiny2, fun _ h => by cases h; exact tiny3, fun _ h => by cases h; exact tiny4 _ (by norm_num)⟩ d2.1 (fun _ => -1) hx0 d2.2
  have p3 : Pnnls.quadratic_program L (Mat.eye 2) (Vec.ones 2) negEye (vec2 (-1) (-1)) (some qpC) (some (at1 (-2))) = .ok Sol.none := by
    obtain ⟨s, h1, h2, h3⟩ := (C35 L hL 2 _ (Vec.ones 2) _ _ _ _ eye_posDef rfl sh5 1e-7 (by norm_num) (fun _ => -1) hx0).1 (.inl (by norm_num [negEye]))
    rw [h1, h3.1 (h2.2 (.inl qp3_infeasible))]
  have g3 : Grb.quadratic_program G (Mat.eye 2) (Vec.ones 2) negEye (vec2 (-1) (-1)) (some qpC) (some (at1 (-2))) = .ok Sol.none := by
    obtain ⟨⟨s, h1, h2, h3, -⟩, -⟩ := C79 G hG 2 _ (Vec.ones 2) _ _ _ _ eye_posDef.nr eye_posDef.nc eye_posDef.symm rfl sh5 (noTiny_eye 2) t5 1e-5
    rw [h1, h3.1 (h2.2 fun ⟨x, hx⟩ => qp3_infeasible x hx.1)]
  have hfe : ∀ x : Vec ℝ, Spec.Feasible thinA (vec2 1 (-1)) none none x ↔ x.e 0 = 1 := by
    intro x
    constructor
    · intro hx
      have f0 := hx.1 0 (by norm_num [thinA])
      have f1 := hx.1 1 (by norm_num [thinA])
      simp [thinA, vec2, sum_range_succ] at f0 f1
      exact le_antisymm f0 f1
    · intro hx
      refine ⟨fun i hi => ?_, trivial⟩
      have hi' : i < 2 := hi
      interval_cases i <;> simp [thinA, vec2, sum_range_succ, hx]
  have hopt : Spec.IsQpOpt (Mat.eye 2) (Vec.zeros 2) thinA (vec2 1 (-1)) none none (vec2 1 0) := by
    refine ⟨(hfe _).2 (by simp [vec2]), fun x hx => ?_⟩
    have e := (hfe x).1 hx
    simp [Spec.qpCost, vec2, sum_range_succ, Mat.eye, e]
    nlinarith [mul_self_nonneg (x.e 1)]
  obtain ⟨⟨s, h1, h2⟩, ⟨s', h1', h2'⟩⟩ := qp_ans hL hG eye_posDef rfl sh6 (by norm_num [thinA]) (noTiny_eye 2)
    ⟨fun i _ => .inl rfl, tiny5, noTiny_vec2 (.inr (by norm_num)) (.inr (by norm_num)), nofun, nofun⟩ ⟨_, hopt⟩ (fun _ => 0)
    (by intro j hj; simp) (by
      intro x hx
      have e := (hfe x).1 hx.1
      have := hx.2 _ hopt.1
      simp [Spec.qpCost, vec2, sum_range_succ, Mat.eye, e] at this
      simp [sum_range_succ, Mat.eye, e]
      norm_num at this ⊢
      linarith)
  obtain ⟨lam, k1, k2, k3, k4⟩ := qp4_is (by norm_num) (by norm_num) h2
  obtain ⟨lam', k1', k2', k3', k4'⟩ := qp4_is (by norm_num) (by norm_num) h2'
  refine ⟨⟨s, lam, h1, k1, k2, k3, ?_⟩, ⟨s', lam', h1', k1', k2', k3', ?_⟩⟩
  · have := qp_solver_asserts (qp := fun H f A b C d => Pnnls.quadratic_program L H f A b C d) (tol := 1e-7) (by norm_num) (by norm_num) p1 p2 p3 h1 k4
    have e : (lam.e 0 ≤ 1e-7 ∧ lam.e 0 < 1.5e-6) ↔ lam.e 0 ≤ 1e-7 := ⟨fun h => h.1, fun h => ⟨h, lt_of_le_of_lt h (by norm_num)⟩⟩
    exact ⟨fun p => this.1 (e.2 p), fun p => this.2 fun q => p (e.1 q)⟩
  · have := qp_solver_asserts (qp := fun H f A b C d => Grb.quadratic_program G H f A b C d) (tol := 1e-5) (by norm_num) (by norm_num) g1 g2 g3 h1' k4'
    have e : (lam'.e 0 ≤ 1e-5 ∧ lam'.e 0 < 1.5e-6) ↔ lam'.e 0 < 1.5e-6 := ⟨fun h => h.2, fun h => ⟨h.le.trans (by norm_num), h⟩⟩
    exact ⟨fun p => this.1 (e.2 p), fun p => this.2 fun q => p (e.1 q)⟩

/-- C196 is false of the code: from any library within the contract one gets another, whose `nnls` returns another minimizer when its columns are opposite,
with which the test fails. -/
theorem C196_false (L : Lib) (hL : LibSpec L) :
    LibSpec (shifted L) ∧ test_qp_solver (fun H f A b C d => Pnnls.quadratic_program (shifted L) H f A b C d) = .error .assertionError := by
  have hS := shifted_spec hL
  obtain ⟨G, hG⟩ := exists_gurobi
  obtain ⟨⟨s, lam, h1, h2, h3, h4, h5⟩, -⟩ := C196_partial (shifted L) hS G hG
  refine ⟨hS, h5.2 fun h => ?_⟩
  have := shifted_qp hL h1 h2 h3 h4
  norm_num at h
  linarith

/-- there is such a library -/
example : ∃ L, LibSpec L ∧ test_qp_solver (fun H f A b C d => Pnnls.quadratic_program L H f A b C d) = .error .assertionError := by
  obtain ⟨L, hL⟩ := exists_lib
  exact ⟨_, C196_false L hL⟩

end Verif.Props
