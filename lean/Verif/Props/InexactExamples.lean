import Verif.Props.InexactLp
import Verif.Props.InexactQp

/- C172: how the accuracy of `nnls` carries over to the answers of the QP solver; a library that stops early. -/
namespace Verif.Props
open Finset Matrix Verif.Math

/-- C172, what holds: if a feasible point is at squared distance `ρ` from the unconstrained optimum `x0` (in the norm of `H`), then
with `tol² (1 + ρ) < 1` and a complementarity tolerance `ε ≤ 1 / (2 (1 + ρ))` of `nnls`, `quadratic_program` answers; the
answer violates the constraints by at most `2 δ (1 + ρ)`, costs at most `4 ε (1 + ρ)²` more than any feasible point, and is
close to an optimum.  Missing with respect to C172: a bound that does not depend on `ρ` (false, see `C172_false`). -/
theorem C172_partial (L : Lib) (hL : LibSound L) (δ ε : ℝ) (hδ : 0 ≤ δ) (hε0 : 0 ≤ ε) (hN : NnlsStops L δ ε) (n : ℕ) (H : Mat ℝ)
    (f : Vec ℝ) (A : Mat ℝ) (b : Vec ℝ) (C : Option (Mat ℝ)) (d : Option (Vec ℝ)) (hH : Spec.SymPosDef n H) (hf : f.n = n)
    (hs : Spec.ConstrShape n A b C d) (hc : Spec.HasConstr A C) (tol : ℝ) (htol : 0 ≤ tol) (x0 : ℕ → ℝ)
    (hx0 : ∀ j < n, ∑ k ∈ range n, H.e j k * x0 k + f.e j = 0) (xb : Vec ℝ) (hxb : Spec.Feasible A b C d xb)
    (ρ : ℝ) (hρ : Spec.distSq H xb.e x0 ≤ ρ) (ht : tol ^ 2 * (1 + ρ) < 1) (hε : ε * (2 * (1 + ρ)) ≤ 1) :
    ∃ s x, Pnnls.quadratic_program L H f A b C d tol = .ok s ∧ s.argmin = some x ∧ x.n = n ∧
      s.min = some (Spec.qpCost H f x) ∧
      Spec.FeasibleTol (2 * δ * (1 + ρ)) A b C d x ∧
      (∀ x', Spec.Feasible A b C d x' →
        Spec.qpCost H f x + 1 / 2 * Spec.distSq H x'.e x.e ≤ Spec.qpCost H f x' + 4 * ε * (1 + ρ) ^ 2) ∧
      ∀ xs ls ms, Spec.Feasible A b C d xs → Spec.KKT (Spec.qpGrad H f xs) A b C xs ls ms →
        Spec.distSq H x.e xs.e ≤ 4 * ε * (1 + ρ) ^ 2
          + 2 * δ * (1 + ρ) * (∑ i ∈ range A.nr, ls.e i + Spec.eqNorm C ms) := by
  obtain ⟨q, AC, bd, lam, x, t, r, hS, h1, h2, h3, -, h5, h6, h7, -⟩ := qp_run_sound hL hH hf hs tol
  have h7 := h7 hc
  have hfar := h3 xb ((hS.feas xb).2 hxb) x0 hx0
  have hd : Spec.distSq H xb.e x0
      = ∑ i ∈ range n, ∑ j ∈ range n, (xb.e i - x0 i) * H.e i j * (xb.e j - x0 j) := by
    simp only [Spec.distSq, hH.nr, hH.nc]
  rw [← hd] at hfar
  have hfar : 1 ≤ r ^ 2 * (1 + ρ) :=
    hfar.trans (mul_le_mul_of_nonneg_left (by linarith) (_root_.sq_nonneg r))
  have hρ1 : 0 < 1 + ρ := by
    by_contra hneg
    have := mul_nonpos_of_nonneg_of_nonpos (_root_.sq_nonneg r) (not_lt.1 hneg)
    linarith
  have hr : r > tol := by
    by_contra hr
    have : r ^ 2 ≤ tol ^ 2 := pow_le_pow_left₀ h6 (not_lt.1 hr) 2
    have := mul_le_mul_of_nonneg_right this hρ1.le
    linarith
  rw [if_pos hr] at h7
  obtain ⟨k1, k2⟩ := h5 δ ε hN
  have ht1 : 1 ≤ t * (2 * (1 + ρ)) := by
    have := mul_le_mul_of_nonneg_right k1 (show 0 ≤ 2 * (1 + ρ) by linarith)
    nlinarith
  have ht0 : 0 < t := by
    by_contra hneg
    have := mul_nonpos_of_nonpos_of_nonneg (not_lt.1 hneg) (show 0 ≤ 2 * (1 + ρ) by linarith)
    linarith
  have hti : 1 / t ≤ 2 * (1 + ρ) := by rw [div_le_iff₀ ht0]; linarith
  have hdt : δ / t ≤ 2 * δ * (1 + ρ) := by
    have := mul_le_mul_of_nonneg_left hti hδ
    rw [mul_one_div] at this; linarith
  have het : ε / t ^ 2 ≤ 4 * ε * (1 + ρ) ^ 2 := by
    have h2 : (1 / t) ^ 2 ≤ (2 * (1 + ρ)) ^ 2 := pow_le_pow_left₀ (by positivity) hti 2
    have := mul_le_mul_of_nonneg_left h2 hε0
    rw [div_pow, one_pow, mul_one_div] at this
    linarith
  have hk := k2 ht0
  have hfeas := (hS.feasTol (δ / t) x).1 hk.prim
  refine ⟨_, x, h7, rfl, h1, rfl, ?_, fun x' hx' => ?_, fun xs ls ms hxs hKs => ?_⟩
  · rw [← hS.feasTol]
    exact fun i hi => (hk.prim i hi).trans (by linarith)
  · have := within_first hS.nc hH.nc hk ((hS.feas x').2 hx')
    rw [qp_expand hH hf x x']
    linarith
  · have a1 := within_first hS.nc hH.nc hk ((hS.feas xs).2 hxs)
    have a2 := opt_first hs hfeas hxs hKs
    have b1 := qp_expand hH hf x xs
    have b2 := qp_expand hH hf xs x
    have hsw : Spec.distSq H xs.e x.e = Spec.distSq H x.e xs.e := by
      refine Finset.sum_congr rfl fun i _ => Finset.sum_congr rfl fun j _ => by ring
    rw [hsw] at b1
    have hl : 0 ≤ ∑ i ∈ range A.nr, ls.e i + Spec.eqNorm C ms := by
      refine add_nonneg (Finset.sum_nonneg fun i hi => hKs.nonneg i (mem_range.1 hi)) ?_
      cases C <;> cases ms <;> simp only [Spec.eqNorm] <;>
        first | exact le_refl _ | exact Finset.sum_nonneg fun _ _ => abs_nonneg _
    have := mul_le_mul_of_nonneg_right hdt hl
    linarith

/-- an exact `nnls` satisfies the conditions of optimality exactly -/
theorem lib_stops {L : Lib} (h : LibSpec L) : NnlsStops L 0 0 := by
  intro A b hab
  set y := (L.nnls A b).1 with hy
  have e1 : ∀ w : Vec ℝ, ((A.mulVec w).sub b).asV A.nr = A.asM A.nr A.nc *ᵥ w.asV A.nc - b.asV A.nr := by
    intro w
    rw [← Mat.asV_mulVec A w A.nr rfl]; rfl
  obtain ⟨k1, k2⟩ := nnls_kkt (A := A.asM A.nr A.nc) (b := b.asV A.nr) (y := y.asV A.nc)
    (fun i => h.nnls_nonneg A b hab i i.2) (fun z hz => by
      have := h.nnls_min A b hab (Vec.ofFn z) (fun i hi => by rw [Vec.ofFn_e z ⟨i, hi⟩]; exact hz _)
      rw [vnorm_le_iff _ _ (m := A.nr) (n := A.nr) rfl rfl, e1, e1, Vec.ofFn_asV] at this
      exact this)
  have hg : ∀ j : Fin A.nc, ∑ i ∈ range A.nr, A.e i j * ((A.mulVec y).sub b).e i
      = ((A.asM A.nr A.nc)ᵀ *ᵥ (A.asM A.nr A.nc *ᵥ y.asV A.nc - b.asV A.nr)) j := by
    intro j
    rw [← e1, Finset.sum_range]
    rfl
  refine ⟨fun j hj => ?_, ?_⟩
  · have := hg ⟨j, hj⟩
    simp only [] at this
    rw [this, neg_zero]
    exact k1 _
  · rw [Finset.sum_range, Finset.sum_congr rfl fun j _ => by rw [hg j]]
    exact le_of_eq (abs_eq_zero.2 k2)

/-- the entry returned by `early` -/
noncomputable def earlyY : ℝ := (10000 + 5e-5) / 100000001

/-- the least squares problem that the QP solver builds for `min x²/2 s.t. x ≥ 10000` -/
def EarlyData (A : Mat ℝ) (b : Vec ℝ) : Prop :=
  A.nr = 2 ∧ A.nc = 1 ∧ b.n = 2 ∧ A.e 0 0 = 1 ∧ A.e 1 0 = 10000 ∧ b.e 0 = 0 ∧ b.e 1 = 1

open Classical in
/-- a library whose `nnls` stops early on one problem, and whose `cholesky` factors `[[1]]` as `[[1]] [[1]]'` -/
noncomputable def early (L : Lib) : Lib :=
  { L with
    nnls := fun A b => if EarlyData A b then (⟨1, fun _ => earlyY⟩, vnorm ((A.mulVec ⟨1, fun _ => earlyY⟩).sub b)) else L.nnls A b
    cholesky := fun H => if H = ⟨1, 1, fun _ _ => 1⟩ then .ok ⟨1, 1, fun _ _ => 1⟩ else L.cholesky H }

theorem early_norm {A : Mat ℝ} {b : Vec ℝ} (h : EarlyData A b) (y : Vec ℝ) :
    vnorm ((A.mulVec y).sub b) = Real.sqrt (y.e 0 ^ 2 + (10000 * y.e 0 - 1) ^ 2) := by
  obtain ⟨h1, h2, h3, h4, h5, h6, h7⟩ := h
  have e : ((A.mulVec y).sub b).n = 2 := h1
  rw [vnorm, e, Finset.sum_range_succ, Finset.sum_range_one]
  simp only [Vec.sub_e, Mat.mulVec_e, h2, Finset.sum_range_one, h4, h5, h6, h7, one_mul, sub_zero]

theorem early_sound {L : Lib} (h : LibSpec L) : LibSound (early L) := by
  classical
  refine ⟨fun A b hab => ?_, fun A b hab i hi => ?_, fun A b hab => ?_, h.pinv_nr, h.pinv_nc, h.pinv_1, h.pinv_3, fun H hH hP => ?_⟩
  · by_cases hc : EarlyData A b
    · simp only [early, if_pos hc]; exact hc.2.1.symm
    · simp only [early, if_neg hc]; exact h.nnls_n A b hab
  · by_cases hc : EarlyData A b
    · simp only [early, if_pos hc]; norm_num [earlyY]
    · simp only [early, if_neg hc]; exact h.nnls_nonneg A b hab i hi
  · by_cases hc : EarlyData A b
    · simp only [early, if_pos hc]
    · simp only [early, if_neg hc]; exact h.nnls_res A b hab
  · by_cases hc : H = ⟨1, 1, fun _ _ => 1⟩
    · refine ⟨⟨1, 1, fun _ _ => 1⟩, by simp only [early, if_pos hc], by rw [hc], by rw [hc], ?_⟩
      subst hc
      funext i j
      simp [Matrix.mul_apply]
    · simp only [early, if_neg hc]; exact h.chol_ok H hH hP

theorem early_within {L : Lib} (h : LibSpec L) : NnlsWithin (early L) 1e-12 := by
  classical
  intro A b hab y hy
  by_cases hc : EarlyData A b
  · simp only [early, if_pos hc]
    rw [early_norm hc, early_norm hc]
    simp only []
    set v := y.e 0
    have hQ : 1 / 100000001 ≤ v ^ 2 + (10000 * v - 1) ^ 2 := by
      nlinarith [_root_.sq_nonneg (100000001 * v - 10000)]
    set Q := v ^ 2 + (10000 * v - 1) ^ 2
    have hq : (9e-5 : ℝ) ≤ Real.sqrt Q := Real.le_sqrt_of_sq_le (le_trans (by norm_num) hQ)
    have hq2 : Real.sqrt Q ^ 2 = Q := Real.sq_sqrt (le_trans (by norm_num) hQ)
    rw [Real.sqrt_le_left (by positivity)]
    have : earlyY ^ 2 + (10000 * earlyY - 1) ^ 2 ≤ 1 / 100000001 + 1e-16 := by norm_num [earlyY]
    nlinarith
  · simp only [early, if_neg hc]
    have := h.nnls_min A b hab y hy
    rw [h.nnls_res A b hab]
    linarith [show (0 : ℝ) ≤ 1e-12 by norm_num]

theorem early_stops {L : Lib} (h : LibSpec L) : NnlsStops (early L) 0 1e-8 := by
  classical
  intro A b hab
  by_cases hc : EarlyData A b
  · simp only [early, if_pos hc]
    obtain ⟨h1, h2, h3, h4, h5, h6, h7⟩ := hc
    have hg : ∑ i ∈ range 2, A.e i 0 * ((A.mulVec ⟨1, fun _ => earlyY⟩).sub b).e i = 5e-5 := by
      rw [Finset.sum_range_succ, Finset.sum_range_one]
      simp only [Vec.sub_e, Mat.mulVec_e, h2, Finset.sum_range_one, h4, h5, h6, h7]
      norm_num [earlyY]
    rw [h1, h2]
    refine ⟨fun j hj => ?_, ?_⟩
    · obtain rfl : j = 0 := by omega
      rw [hg]; norm_num
    · rw [Finset.sum_range_one, hg]
      norm_num [earlyY, abs_le]
  · simp only [early, if_neg hc]
    obtain ⟨k1, k2⟩ := lib_stops h A b hab
    exact ⟨k1, k2.trans (by norm_num)⟩

/-- the QP `min x²/2 s.t. x ≥ 10000` -/
theorem early_run {L : Lib} (h : LibSpec L) : ∃ s, Pnnls.quadratic_program (early L) ⟨1, 1, fun _ _ => 1⟩ ⟨1, fun _ => 0⟩
    ⟨1, 1, fun _ _ => -1⟩ ⟨1, fun _ => -10000⟩ none none = .ok s ∧ ∃ x, s.argmin = some x ∧ x.n = 1 ∧ x.e 0 = 20000.0001 := by
  classical
  have e0 : Pnnls.stackEqualities ⟨1, 1, fun _ _ => -1⟩ ⟨1, fun _ => -10000⟩ none none
      = .ok (0, ⟨1, 1, fun _ _ => -1⟩, ⟨1, fun _ => -10000⟩) := rfl
  have e1 : (early L).cholesky ⟨1, 1, fun _ _ => 1⟩ = .ok ⟨1, 1, fun _ _ => 1⟩ := by simp [early]
  have hone : (⟨1, 1, fun _ _ => 1⟩ : Mat ℝ).asM 1 1 = 1 := by
    funext i j; fin_cases i; fin_cases j; rfl
  have e2 : np.inv (⟨1, 1, fun _ _ => 1⟩ : Mat ℝ) = .ok (Mat.ofM (1 : Matrix (Fin 1) (Fin 1) ℝ)) := by
    rw [np_inv_ok (n := 1) rfl rfl (by rw [hone]; simp), hone, inv_one]
  have hL00 : (Mat.ofM (1 : Matrix (Fin 1) (Fin 1) ℝ)).e 0 0 = 1 := by simp [Mat.ofM]
  unfold Pnnls.quadratic_program
  simp only [e0, e1, e2, Py.ok_bind]
  set Li : Mat ℝ := Mat.ofM (1 : Matrix (Fin 1) (Fin 1) ℝ) with hLi
  set A : Mat ℝ := ⟨1, 1, fun _ _ => -1⟩ with hA
  set b : Vec ℝ := ⟨1, fun _ => -10000⟩ with hb
  set f : Vec ℝ := ⟨1, fun _ => 0⟩ with hf
  set Hi := Li.T.mul Li with hHi
  set M := A.mul Li.T with hM
  set m := b.add ((A.mul Hi).mulVec f) with hm
  have k1 : np.dotMM Li.T Li = .ok Hi := if_pos rfl
  have k2 : np.dotMM A Li.T = .ok M := if_pos rfl
  have k3 : np.dotMM A Hi = .ok (A.mul Hi) := if_pos rfl
  have k4 : np.dotMV (A.mul Hi) f = .ok ((A.mul Hi).mulVec f) := if_pos rfl
  have k5 : np.addV b ((A.mul Hi).mulVec f) = .ok m := if_pos rfl
  have k6 : np.vstack [M.T.neg, Mat.ofRow m.neg] = .ok (qpA M m) := by
    simp [np.vstack, np.vstack2, qpA, hM, hm, hA, hb]
  have k7 : np.concatenate [Vec.zeros 1, Vec.ones 1] = .ok (qpb 1) := by
    simp [np.concatenate, Vec.concat, qpb]
  have hm0 : m.e 0 = -10000 := by
    simp [hm, hb, hf, Vec.add, Mat.mulVec]
  have hM0 : M.e 0 0 = -1 := by
    show ∑ k ∈ range 1, A.e 0 k * Li.e 0 k = -1
    rw [Finset.sum_range_one, hL00, hA]; norm_num
  have hH0 : Hi.e 0 0 = 1 := by
    show ∑ k ∈ range 1, Li.e k 0 * Li.e k 0 = 1
    rw [Finset.sum_range_one, hL00]; norm_num
  have hE : EarlyData (qpA M m) (qpb 1) := by
    refine ⟨rfl, rfl, rfl, ?_, ?_, ?_, ?_⟩
    · show -(M.e 0 0) = 1
      rw [hM0]; norm_num
    · show -(m.e 0) = 10000
      rw [hm0]; norm_num
    · rfl
    · rfl
  have k8 : np.nnls (early L) (qpA M m) (qpb 1)
      = .ok (⟨1, fun _ => earlyY⟩, vnorm (((qpA M m).mulVec ⟨1, fun _ => earlyY⟩).sub (qpb 1))) := by
    unfold np.nnls
    rw [if_neg (show ¬ (qpA M m).nr ≠ (qpb 1).n from fun h => h rfl), if_neg (show ¬ (qpA M m).nc = 0 from one_ne_zero)]
    simp only [early, if_pos hE]
  have hr : vnorm (((qpA M m).mulVec ⟨1, fun _ => earlyY⟩).sub (qpb 1)) > 1e-7 := by
    rw [early_norm hE]
    refine Real.lt_sqrt_of_sq_lt ?_
    norm_num [earlyY]
  simp only [k1, k2, k3, k4, k5, k6, k7, k8, Py.ok_bind, if_pos hr]
  set y : Vec ℝ := ⟨1, fun _ => earlyY⟩ with hy
  have k9 : np.dotVV m y = .ok (m.dot y) := if_pos rfl
  have hmy : m.dot y = -10000 * earlyY := by
    show ∑ i ∈ range 1, m.e i * y.e i = _
    rw [Finset.sum_range_one, hm0]
  set lam := y.divS (1 + m.dot y) with hlam
  have k10 : np.dotMV A.T lam = .ok (A.T.mulVec lam) := if_pos rfl
  have k11 : np.addV f (A.T.mulVec lam) = .ok (f.add (A.T.mulVec lam)) := if_pos rfl
  have k12 : np.dotMV Hi (f.add (A.T.mulVec lam)) = .ok (Hi.mulVec (f.add (A.T.mulVec lam))) := if_pos rfl
  set x := (Hi.mulVec (f.add (A.T.mulVec lam))).neg with hx
  have k13 : np.dotVM x ⟨1, 1, fun _ _ => 1⟩ = .ok (Mat.vecMul x ⟨1, 1, fun _ _ => 1⟩) := if_pos rfl
  have k14 : np.dotVV (Mat.vecMul x ⟨1, 1, fun _ _ => 1⟩) x = .ok ((Mat.vecMul x ⟨1, 1, fun _ _ => 1⟩).dot x) := if_pos rfl
  have k15 : np.dotVV f x = .ok (f.dot x) := if_pos rfl
  simp only [k9, Py.ok_bind, ← hlam, k10, k11, k12, ← hx, k13, k14, k15]
  refine ⟨_, rfl, x, rfl, rfl, ?_⟩
  have hl0 : lam.e 0 = earlyY / (1 + -10000 * earlyY) := by
    rw [hlam, ← hmy]; rfl
  show -(∑ j ∈ range 1, Hi.e 0 j * (f.e j + ∑ i ∈ range 1, A.e i j * lam.e i)) = _
  rw [Finset.sum_range_one, Finset.sum_range_one, hH0, hl0]
  norm_num [earlyY, hf, hA]

/-- C172 is false of the code: a residual of `nnls` within 1e-12 of the smallest one is not enough for an accurate answer.  For
`min x²/2 s.t. x ≥ 10000` there is such a library with which the solver answers `x = 20000.0001`. -/
theorem C172_false : ∃ L : Lib, LibSound L ∧ NnlsWithin L 1e-12 ∧ NnlsStops L 0 1e-8 ∧
    ∃ (H : Mat ℝ) (f : Vec ℝ) (A : Mat ℝ) (b xs : Vec ℝ), Spec.SymPosDef 1 H ∧ f.n = 1 ∧ Spec.ConstrShape 1 A b none none ∧
      Spec.IsQpOpt H f A b none none xs ∧ xs.e 0 = 10000 ∧
      ∃ s x, Pnnls.quadratic_program L H f A b none none = .ok s ∧ s.argmin = some x ∧ x.e 0 = 20000.0001 := by
  obtain ⟨L, hL⟩ := exists_lib
  obtain ⟨s, h1, x, h2, -, h3⟩ := early_run hL
  refine ⟨early L, early_sound hL, early_within hL, early_stops hL, _, _, _, _, ⟨1, fun _ => 10000⟩, ⟨rfl, rfl, fun _ _ _ _ => rfl, ?_⟩, rfl, ⟨rfl, rfl⟩,
    ⟨⟨fun i hi => ?_, trivial⟩, fun x' hx' => ?_⟩, rfl, s, x, h1, h2, h3⟩
  · rintro x ⟨i, hi, hne⟩
    obtain rfl : i = 0 := by omega
    simp only [Finset.sum_range_one]
    have := _root_.sq_pos_of_ne_zero hne
    nlinarith
  · simp
  · have := hx'.1 0 (by norm_num)
    simp only [Finset.sum_range_one] at this
    simp only [Spec.qpCost, Finset.sum_range_one]
    nlinarith

/-- the hypotheses of C168 – C171 and `C172_partial` are met by a library that does not satisfy the exact contract: here with
`min x²/2 s.t. x ≥ 1`, `ρ = 1` -/
example : ∃ L : Lib, LibSound L ∧ NnlsWithin L 1e-12 ∧ NnlsStops L 0 1e-8 ∧ ¬ LibSpec L ∧
    ∃ s x, Pnnls.quadratic_program L ⟨1, 1, fun _ _ => 1⟩ ⟨1, fun _ => 0⟩ ⟨1, 1, fun _ _ => -1⟩ ⟨1, fun _ => -1⟩ none none = .ok s ∧
      s.argmin = some x ∧ |x.e 0 - 1| ≤ 1e-3 := by
  obtain ⟨L, hL⟩ := exists_lib
  have hpd : Spec.SymPosDef 1 (⟨1, 1, fun _ _ => 1⟩ : Mat ℝ) := ⟨rfl, rfl, fun _ _ _ _ => rfl, by
    rintro x ⟨i, hi, hne⟩
    obtain rfl : i = 0 := by omega
    simp only [Finset.sum_range_one]
    have := _root_.sq_pos_of_ne_zero hne
    nlinarith⟩
  refine ⟨early L, early_sound hL, early_within hL, early_stops hL, fun hE => ?_, ?_⟩
  · obtain ⟨s, h1, x, h2, -, h3⟩ := early_run hL
    rcases qp_answer hE hpd rfl (b := ⟨1, fun _ => -10000⟩) (A := ⟨1, 1, fun _ _ => -1⟩) (C := none) (d := none) (f := ⟨1, fun _ => 0⟩)
      ⟨rfl, rfl⟩ (.inl Nat.one_pos) (tol := 1e-7) (by norm_num) with h | ⟨x', lam, mu, h, -, hopt, -⟩
    · rw [h1] at h; cases h; simp [Sol.none] at h2
    · rw [h1] at h; cases h
      simp only [Option.some.injEq] at h2
      subst h2
      have hb := hopt.2 ⟨1, fun _ => 10000⟩ ⟨fun i _ => by simp, trivial⟩
      simp only [Spec.qpCost, Finset.sum_range_one] at hb
      rw [h3] at hb
      norm_num at hb
  · obtain ⟨s, x, h1, h2, -, -, -, -, h5⟩ := C172_partial (early L) (early_sound hL) 0 1e-8 le_rfl (by norm_num) (early_stops hL) 1
      ⟨1, 1, fun _ _ => 1⟩ ⟨1, fun _ => 0⟩ ⟨1, 1, fun _ _ => -1⟩ ⟨1, fun _ => -1⟩ none none hpd rfl ⟨rfl, rfl⟩ (.inl Nat.one_pos) 1e-7
      (by norm_num) (fun _ => 0) (by simp) ⟨1, fun _ => 1⟩ ⟨fun i _ => by simp, trivial⟩ 1
      (by simp [Spec.distSq]) (by norm_num) (by norm_num)
    refine ⟨s, x, h1, h2, ?_⟩
    have := h5 ⟨1, fun _ => 1⟩ ⟨1, fun _ => 1⟩ none ⟨fun i _ => by simp, trivial⟩
      ⟨rfl, by simp, fun j hj => by simp [Spec.qpGrad, Spec.eqGrad], by simp, by simp⟩
    simp only [Spec.distSq, Finset.sum_range_one] at this
    refine abs_le_of_sq_le_sq ?_ (by norm_num)
    norm_num at this ⊢
    nlinarith

end Verif.Props
