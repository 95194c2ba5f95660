import Verif.Proofs.LPMain
import Verif.Math.Qp

/- The QP solver. -/
namespace Verif
open Finset Matrix Verif.Math

theorem np_inv_ok {A : Mat ℝ} {n : ℕ} (hr : A.nr = n) (hc : A.nc = n)
    (hdet : (A.asM n n).det ≠ 0) : np.inv A = .ok (Mat.ofM (A.asM n n)⁻¹) := by
  subst hr
  simp [np.inv, hc, hdet]

theorem np_inv_err {A : Mat ℝ} {n : ℕ} (hr : A.nr = n)
    (hdet : (A.asM n n).det = 0) : np.inv A = .error .linAlgError := by
  subst hr
  simp [np.inv, hdet]

theorem posDef_asM {n : ℕ} {H : Mat ℝ} (h : Spec.SymPosDef n H) : (H.asM n n).PosDef := by
  refine Matrix.PosDef.of_dotProduct_mulVec_pos ?_ ?_
  · rw [isHermitian_iff_isSymm]
    funext i j
    exact h.symm j j.2 i i.2
  · intro x hx
    have : ∃ i : Fin n, x i ≠ 0 := by
      by_contra hc; push Not at hc; exact hx (funext hc)
    obtain ⟨i, hi⟩ := this
    have := h.pos (Vec.ofFn x).e ⟨i, i.2, by rw [Vec.ofFn_e]; exact hi⟩
    rw [Finset.sum_range] at this
    simp only [Finset.sum_range, Vec.ofFn_e] at this
    simp only [star_trivial, dotProduct, Matrix.mulVec, Mat.asM_apply, Finset.mul_sum]
    refine lt_of_lt_of_eq this ?_
    exact Finset.sum_congr rfl fun i _ => Finset.sum_congr rfl fun j _ => by ring

theorem qpCost_fin {n : ℕ} {H : Mat ℝ} {f : Vec ℝ} (hr : H.nr = n) (hc : H.nc = n) (hf : f.n = n)
    (x : Vec ℝ) : Spec.qpCost H f x = qcost (H.asM n n) (f.asV n) (x.asV n) := by
  simp only [Spec.qpCost, qcost, hr, hc, hf, Finset.sum_range, dotProduct, Matrix.mulVec,
    Mat.asM_apply, Vec.asV_apply, Finset.mul_sum]
  congr 1
  exact Finset.sum_congr rfl fun i _ => Finset.sum_congr rfl fun j _ => by ring

def qpA (M : Mat ℝ) (m : Vec ℝ) : Mat ℝ := M.T.neg.vapp (Mat.ofRow m.neg)
def qpb (n : ℕ) : Vec ℝ := (Vec.zeros n).append (Vec.ones 1)

theorem qp_vnorm {M : Mat ℝ} {m y : Vec ℝ} {N n : ℕ} (hr : M.nr = N) (hc : M.nc = n) (hm : m.n = N) :
    vnorm (((qpA M m).mulVec y).sub (qpb n))
      = Real.sqrt (nsq ((M.asM N n)ᵀ *ᵥ y.asV N) + (1 + m.asV N ⬝ᵥ y.asV N) ^ 2) := by
  have hn : (((qpA M m).mulVec y).sub (qpb n)).n = n + 1 := by simp [qpA, hc]
  rw [vnorm, hn]
  congr 1
  rw [Finset.sum_range_add]
  congr 1
  · simp only [nsq, dotProduct, Finset.sum_range]
    refine Finset.sum_congr rfl fun i _ => ?_
    have e : ((qpA M m).mulVec y).e i = - ∑ k ∈ range N, M.e k i * y.e k := by
      rw [qpA, Mat.vapp_mulVec_lt _ _ _ (by simp [hc])]
      simp [Mat.mulVec_e, hr]
    have e2 : (qpb n).e i = 0 := by rw [qpb, Vec.append_e_lt _ _ (by simp)]; rfl
    rw [Vec.sub_e, e, e2, Finset.sum_range]
    simp only [Matrix.mulVec, dotProduct, transpose_apply, Mat.asM_apply, Vec.asV_apply]
    ring
  · rw [Finset.sum_range_one]
    have e : ((qpA M m).mulVec y).e (n + 0) = - ∑ k ∈ range N, m.e k * y.e k := by
      have h := Mat.vapp_mulVec_add M.T.neg (Mat.ofRow m.neg) y 0 (by simp [hr, hm])
      simp only [Mat.neg_nr, Mat.T_nr, hc] at h
      rw [qpA, h]
      simp [Mat.mulVec_e, hm]
    have e2 : (qpb n).e (n + 0) = 1 := by
      have := Vec.append_e_add (Vec.zeros n) (Vec.ones 1 : Vec ℝ) 0
      rw [Vec.zeros_n] at this
      rw [qpb, this]; rfl
    rw [Vec.sub_e, e, e2, Finset.sum_range]
    simp only [dotProduct, Vec.asV_apply]
    ring

/-- KKT conditions of the stacked QP -/
structure QpKKT (H : Mat ℝ) (f : Vec ℝ) (AC : Mat ℝ) (bd lam x : Vec ℝ) : Prop where
  prim : ∀ i < AC.nr, ∑ j ∈ range AC.nc, AC.e i j * x.e j ≤ bd.e i
  nonneg : ∀ i < AC.nr, 0 ≤ lam.e i
  compl : ∀ i < AC.nr, lam.e i * (bd.e i - ∑ j ∈ range AC.nc, AC.e i j * x.e j) = 0
  stat : ∀ j < AC.nc, (∑ k ∈ range AC.nc, H.e j k * x.e k + f.e j)
    + ∑ i ∈ range AC.nr, lam.e i * AC.e i j = 0

/-- evaluation of the QP code -/
theorem qp_run {L : Lib} (hL : LibSpec L) {n : ℕ} {H : Mat ℝ} {f : Vec ℝ} {A : Mat ℝ} {b : Vec ℝ}
    {C : Option (Mat ℝ)} {d : Option (Vec ℝ)} (hH : Spec.SymPosDef n H) (hf : f.n = n)
    (hs : Spec.ConstrShape n A b C d) (tol : ℝ) :
    ∃ q AC bd lam x t r, Stacked n A b C d q AC bd ∧ x.n = n ∧ 0 ≤ r ∧ r ^ 2 = t ∧
      (t ≤ 0 → ∀ x', ¬ Spec.Ineqs AC bd x') ∧
      (0 < t → QpKKT H f AC bd lam x) ∧
      (0 < t → ∀ x0 : ℕ → ℝ, (∀ j < n, ∑ k ∈ range n, H.e j k * x0 k + f.e j = 0) →
        ∑ i ∈ range n, ∑ j ∈ range n, (x.e i - x0 i) * H.e i j * (x.e j - x0 j) = 1 / t - 1) ∧
      (Spec.HasConstr A C → Pnnls.quadratic_program L H f A b C d tol = .ok (if r > tol then
        ⟨some (Spec.qpCost H f x), some x, some (whereGt (mulIneq A lam) tol),
          some (mulIneq A lam), mulEq A q lam⟩ else Sol.none)) ∧
      (¬ Spec.HasConstr A C → Pnnls.quadratic_program L H f A b C d tol = .error .runtimeError) := by
  obtain ⟨q, AC, bd, hst, hS⟩ := stackEqualities_ok hs
  have hb : bd.n = AC.nr := by rw [hS.bn, hS.nr]
  have hAn : A.nc = n := by
    cases C <;> cases d <;> simp only [Spec.ConstrShape] at hs
    · exact hs.1
    · exact hs.1
  have hPD := posDef_asM hH
  obtain ⟨F, hF, hFr, hFc, hFF⟩ := hL.chol_ok H (by rw [hH.nr, hH.nc]) (by rw [hH.nr]; exact hPD)
  rw [hH.nr] at hFr hFc hFF
  have hdet : (F.asM n n).det ≠ 0 := by
    have h1 := hPD.isUnit
    have h2 : (H.asM n n).det ≠ 0 := (Matrix.isUnit_iff_isUnit_det _).1 h1 |>.ne_zero
    rw [← hFF, det_mul, det_transpose] at h2
    exact fun h => h2 (by rw [h, zero_mul])
  set MF := F.asM n n with hMF
  set Li := MF⁻¹ with hLi
  have hFLi : MF * Li = 1 := mul_nonsing_inv _ (isUnit_iff_ne_zero.2 hdet)
  set Linv := Mat.ofM Li with hLinv
  have hinv : np.inv F = .ok Linv := np_inv_ok hFr hFc hdet
  have hLa : Linv.asM n n = Li := Mat.ofM_asM _
  set Hinv := Linv.T.mul Linv with hHinv
  set N := AC.nr with hN
  have hHa : Hinv.asM n n = Liᵀ * Li := by
    rw [hHinv, Mat.asM_mul Linv.T Linv n n (n := n) rfl, Mat.asM_T, hLa]
  set M := AC.mul Linv.T with hM
  have hMr : M.nr = N := rfl
  have hMc : M.nc = n := rfl
  have hMa : M.asM N n = AC.asM N n * Liᵀ := by
    rw [hM, Mat.asM_mul AC Linv.T N n hS.nc, Mat.asM_T, hLa]
  set m := bd.add ((AC.mul Hinv).mulVec f) with hm
  have hmn : m.n = N := hb
  have hma : m.asV N = bd.asV N + (AC.asM N n * (Liᵀ * Li)) *ᵥ f.asV n := by
    have : m.asV N = bd.asV N + ((AC.mul Hinv).mulVec f).asV N := rfl
    rw [this, Mat.asV_mulVec _ _ N (n := n) rfl, Mat.asM_mul AC Hinv N n hS.nc, hHa]
  have hsz : (qpA M m).nr = (qpb n).n := by simp [qpA, qpb, hMc]
  set y := (L.nnls (qpA M m) (qpb n)).1 with hy
  set r := (L.nnls (qpA M m) (qpb n)).2 with hr
  have hAnc : (qpA M m).nc = N := by simp [qpA, hMr]
  have hyn : y.n = N := (hL.nnls_n _ _ hsz).trans hAnc
  have hy0 : ∀ i < N, 0 ≤ y.e i := fun i hi => hL.nnls_nonneg _ _ hsz i (by rw [hAnc]; exact hi)
  have hrr : r = Real.sqrt (nsq ((M.asM N n)ᵀ *ᵥ y.asV N) + (1 + m.asV N ⬝ᵥ y.asV N) ^ 2) := by
    rw [hr, hL.nnls_res _ _ hsz, ← hy, qp_vnorm hMr hMc hmn]
  have hmin : ∀ y' : Fin N → ℝ, (∀ i, 0 ≤ y' i) →
      nsq ((AC.asM N n * Liᵀ)ᵀ *ᵥ y.asV N)
        + (1 + (bd.asV N + (AC.asM N n * (Liᵀ * Li)) *ᵥ f.asV n) ⬝ᵥ y.asV N) ^ 2
      ≤ nsq ((AC.asM N n * Liᵀ)ᵀ *ᵥ y')
        + (1 + (bd.asV N + (AC.asM N n * (Liᵀ * Li)) *ᵥ f.asV n) ⬝ᵥ y') ^ 2 := by
    intro y' hy'
    have := hL.nnls_min (qpA M m) (qpb n) hsz (Vec.ofFn y') (fun i hi => by
      rw [hAnc] at hi; rw [Vec.ofFn_e y' ⟨i, hi⟩]; exact hy' _)
    rw [← hy, qp_vnorm hMr hMc hmn, qp_vnorm hMr hMc hmn, Vec.ofFn_asV] at this
    rw [Real.sqrt_le_sqrt_iff (add_nonneg (nsq_nonneg _) (_root_.sq_nonneg _)), hMa, hma] at this
    exact this
  have hyF : ∀ i, 0 ≤ y.asV N i := fun i => hy0 i i.2
  set t := 1 + m.dot y with ht
  have htF : t = 1 + (bd.asV N + (AC.asM N n * (Liᵀ * Li)) *ᵥ f.asV n) ⬝ᵥ y.asV N := by
    rw [ht, Vec.dot_asV m y hmn, hma]
  have hr0 : 0 ≤ r := by rw [hrr]; exact Real.sqrt_nonneg _
  have hrt : r ^ 2 = t := by
    have k3 := (qp_nnls_kkt hyF hmin).2.2
    rw [hrr, Real.sq_sqrt (add_nonneg (nsq_nonneg _) (_root_.sq_nonneg _)), hMa, hma, k3, htF]
  set lam := y.divS t with hlam
  set x := (Hinv.mulVec (f.add (AC.T.mulVec lam))).neg with hx
  have hlamF : lam.asV N = t⁻¹ • y.asV N := by
    funext i; simp [hlam, div_eq_inv_mul]
  have hxF : x.asV n = -((Liᵀ * Li) *ᵥ (f.asV n + (AC.asM N n)ᵀ *ᵥ (t⁻¹ • y.asV N))) := by
    have e1 : x.asV n = -((Hinv.mulVec (f.add (AC.T.mulVec lam))).asV n) := rfl
    rw [e1, Mat.asV_mulVec _ _ n (n := n) rfl, hHa]
    have e2 : (f.add (AC.T.mulVec lam)).asV n = f.asV n + (AC.T.mulVec lam).asV n := rfl
    rw [e2, Mat.asV_mulVec _ _ n (n := N) rfl, Mat.asM_T, hlamF]
  refine ⟨q, AC, bd, lam, x, t, r, hS, rfl, hr0, hrt, ?_, ?_, ?_, ?_⟩
  · intro ht0 x' hx'
    rw [ineqs_iff_fin] at hx'
    have := bemporad_infeasible hFLi hyF hmin (by rw [← htF]; exact ht0) (x'.asV n)
    apply this
    rw [← hS.nc]; exact hx'
  · intro ht0
    obtain ⟨k1, k2, k3, k4, k5⟩ := bemporad_kkt hFLi hyF hmin htF ht0 hxF
    rw [← hlamF] at k2 k3 k4
    have eA : ∀ i : Fin N, (AC.asM N n *ᵥ x.asV n) i = ∑ j ∈ range AC.nc, AC.e i j * x.e j := by
      intro i; rw [hS.nc, Finset.sum_range]; rfl
    refine ⟨fun i hi => ?_, fun i hi => k2 ⟨i, hi⟩, fun i hi => ?_, fun j hj => ?_⟩
    · rw [← eA ⟨i, hi⟩]; exact k1 ⟨i, hi⟩
    · rw [← eA ⟨i, hi⟩]; exact k3 ⟨i, hi⟩
    · rw [hS.nc] at hj
      have := congrFun k4 ⟨j, hj⟩
      rw [hFF] at this
      simp only [Pi.add_apply, Matrix.mulVec, dotProduct, transpose_apply, Mat.asM_apply,
        Vec.asV_apply, Pi.zero_apply] at this
      rw [hS.nc, Finset.sum_range, Finset.sum_range]
      rw [← this]
      congr 1
      exact Finset.sum_congr rfl fun i _ => mul_comm _ _
  · intro ht0 x0 hx0
    obtain ⟨k1, k2, k3, k4, k5⟩ := bemporad_kkt hFLi hyF hmin htF ht0 hxF
    have h0 : (fun i : Fin n => x0 i) = -((Liᵀ * Li) *ᵥ f.asV n) := by
      have e1 : (H.asM n n) *ᵥ (fun i : Fin n => x0 i) = - f.asV n := by
        funext j
        have := hx0 j j.2
        rw [Finset.sum_range] at this
        simp only [Matrix.mulVec, dotProduct, Mat.asM_apply, Pi.neg_apply, Vec.asV_apply]
        linarith
      have e2 : (Liᵀ * Li) * H.asM n n = 1 := by
        rw [← hFF]
        have hLF : Li * MF = 1 := mul_eq_one_comm.1 hFLi
        calc Liᵀ * Li * (MF * MFᵀ) = Liᵀ * (Li * MF) * MFᵀ := by simp only [Matrix.mul_assoc]
          _ = 1 := by rw [hLF, Matrix.mul_one, ← transpose_mul, hFLi, transpose_one]
      have : (Liᵀ * Li) *ᵥ ((H.asM n n) *ᵥ (fun i : Fin n => x0 i)) = (fun i : Fin n => x0 i) := by
        rw [mulVec_mulVec, e2, one_mulVec]
      rw [← this, e1, mulVec_neg]
    have e3 : x.asV n + (Liᵀ * Li) *ᵥ f.asV n = fun i : Fin n => x.e i - x0 i := by
      have h0' : (Liᵀ * Li) *ᵥ f.asV n = - (fun i : Fin n => x0 i) := by rw [h0, neg_neg]
      rw [h0']; funext i; simp [sub_eq_add_neg]
    rw [hFF, e3] at k5
    rw [← k5]
    simp only [Finset.sum_range, dotProduct, Matrix.mulVec, Mat.asM_apply, Finset.mul_sum]
    exact Finset.sum_congr rfl fun i _ => Finset.sum_congr rfl fun j _ => by ring
  · unfold Pnnls.quadratic_program
    simp only [hst, Py.ok_bind, hF, hinv]
    have e1 : np.dotMM Linv.T Linv = .ok Hinv := if_pos rfl
    have e2 : np.dotMM AC Linv.T = .ok M := if_pos hS.nc
    have e3 : np.dotMM AC Hinv = .ok (AC.mul Hinv) := if_pos hS.nc
    have e4 : np.dotMV (AC.mul Hinv) f = .ok ((AC.mul Hinv).mulVec f) := if_pos hf.symm
    have e5 : np.addV bd ((AC.mul Hinv).mulVec f) = .ok m := if_pos hb
    have e6 : np.vstack [M.T.neg, Mat.ofRow m.neg] = .ok (qpA M m) := by
      simp [np.vstack, np.vstack2, qpA, hMr, hmn]
    have e7 : np.concatenate [Vec.zeros A.nc, Vec.ones 1] = .ok (qpb n) := by
      simp [np.concatenate, Vec.concat, qpb, hAn]
    simp only [e1, e2, e3, e4, e5, e6, e7, Py.ok_bind]
    rw [← hS.hasConstr]
    by_cases h0 : 0 < AC.nr
    rotate_left
    · refine ⟨fun h => absurd h h0, fun _ => ?_⟩
      have e8 : np.nnls L (qpA M m) (qpb n) = .error .runtimeError := by
        unfold np.nnls
        rw [if_neg (by simpa using hsz), if_pos (by rw [hAnc]; omega)]
      rw [e8]
      rfl
    refine ⟨fun _ => ?_, fun h => absurd h0 h⟩
    have e8 : np.nnls L (qpA M m) (qpb n) = .ok (L.nnls (qpA M m) (qpb n)) := by
      unfold np.nnls
      rw [if_neg (by simpa using hsz), if_neg (by rw [hAnc]; omega)]
    simp only [e8, Py.ok_bind]
    simp only [← hy, ← hr]
    by_cases hrt' : r > tol
    · simp only [if_pos hrt']
      have e9 : np.dotVV m y = .ok (m.dot y) := if_pos (by rw [hmn, hyn])
      have e10 : np.dotMV AC.T lam = .ok (AC.T.mulVec lam) := if_pos (by simp [hlam, hyn, hN])
      have e11 : np.addV f (AC.T.mulVec lam) = .ok (f.add (AC.T.mulVec lam)) :=
        if_pos (by simp [hf, hS.nc])
      have e12 : np.dotMV Hinv (f.add (AC.T.mulVec lam))
          = .ok (Hinv.mulVec (f.add (AC.T.mulVec lam))) := if_pos hf.symm
      have e13 : np.dotVM x H = .ok (Mat.vecMul x H) := if_pos hH.nr.symm
      have e14 : np.dotVV (Mat.vecMul x H) x = .ok ((Mat.vecMul x H).dot x) := if_pos hH.nc
      have e15 : np.dotVV f x = .ok (f.dot x) := if_pos hf
      have hle : A.nr + 2 * q ≤ lam.n := by
        have : lam.n = N := hyn
        rw [this, hN, hS.nr]
      simp only [e9, Py.ok_bind, ← ht, ← hlam, e10, e11, e12, ← hx, e13, e14, e15]
      rw [slice_mulIneq A lam (by omega)]
      have ec : (1 : ℝ) / 2 * (Mat.vecMul x H).dot x + f.dot x = Spec.qpCost H f x := by
        rw [qpCost_fin hH.nr hH.nc hf, Vec.dot_asV _ x (n := n) hH.nc, Vec.dot_asV f x hf,
          Mat.asV_vecMul H x n (m := n) rfl, qcost, dotProduct_mulVec]
      rw [ec]
      by_cases hq : q > 0
      · have e2 : np.addV (lam.slice A.nr (A.nr + q)) (lam.slice (A.nr + q) (A.nr + 2 * q)).neg
            = .ok ⟨q, fun i => lam.e (A.nr + i) + -(lam.e (A.nr + q + i))⟩ := by
          have : (lam.slice A.nr (A.nr + q)).n = (lam.slice (A.nr + q) (A.nr + 2 * q)).neg.n := by
            simp only [Vec.slice_n, Vec.neg_n]; omega
          rw [np.addV, if_pos this]
          have hq' : (lam.slice A.nr (A.nr + q)).n = q := by simp only [Vec.slice_n]; omega
          simp only [Vec.add, hq']
          rfl
        simp only [if_pos hq, e2, Py.ok_bind, mulEq]
        rfl
      · simp only [if_neg hq, mulEq]
        rfl
    · simp only [if_neg hrt']; rfl

end Verif
