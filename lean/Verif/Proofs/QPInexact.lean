import Verif.Proofs.QPMain
import Verif.Model.LibInexact

/- The QP solver with a least squares routine that need not reach the minimum (the proofs follow those of `Proofs.QP`). -/
namespace Verif
open Finset Matrix Verif.Math

/-- gradient of the least squares problem of the QP solver -/
theorem qp_grad {M : Mat ℝ} {m y : Vec ℝ} {N n : ℕ} (hr : M.nr = N) (hc : M.nc = n) (hm : m.n = N) (j : Fin N) :
    ∑ i ∈ range (qpA M m).nr, (qpA M m).e i j * (((qpA M m).mulVec y).sub (qpb n)).e i
      = (M.asM N n *ᵥ ((M.asM N n)ᵀ *ᵥ y.asV N)) j + m.asV N j * (1 + m.asV N ⬝ᵥ y.asV N) := by
  have hn : (qpA M m).nr = n + 1 := by simp [qpA, hc]
  rw [hn, Finset.sum_range_add]
  congr 1
  · simp only [Matrix.mulVec, dotProduct, Finset.sum_range]
    refine Finset.sum_congr rfl fun i _ => ?_
    have e : ((qpA M m).mulVec y).e i = - ∑ k ∈ range N, M.e k i * y.e k := by
      rw [qpA, Mat.vapp_mulVec_lt _ _ _ (by simp [hc])]
      simp [Mat.mulVec_e, hr]
    have e2 : (qpb n).e i = 0 := by rw [qpb, Vec.append_e_lt _ _ (by simp)]; rfl
    have e3 : (qpA M m).e i j = - M.e j i := by
      simp [qpA, Mat.vapp, hc]
    rw [Vec.sub_e, e, e2, e3, Finset.sum_range]
    simp only [transpose_apply, Mat.asM_apply, Vec.asV_apply]
    ring
  · rw [Finset.sum_range_one]
    have e : ((qpA M m).mulVec y).e (n + 0) = - ∑ k ∈ range N, m.e k * y.e k := by
      have h := Mat.vapp_mulVec_add M.T.neg (Mat.ofRow m.neg) y 0 (by simp [hr, hm])
      simp only [Mat.neg_nr, Mat.T_nr, hc] at h
      rw [qpA, h]
      simp [Mat.mulVec_e, hm]
    have e2 : (qpb n).e (n + 0) = 1 := by
      have := Vec.append_e_add (Vec.zeros n) (Vec.ones 1 : Vec ℝ) 0
      rw [Vec.zeros_n] at this
      rw [qpb, this]; rfl
    have e3 : (qpA M m).e (n + 0) j = - m.e j := by
      simp [qpA, Mat.vapp, hc]
    rw [Vec.sub_e, e, e2, e3, Finset.sum_range]
    simp only [dotProduct, Vec.asV_apply]
    ring

theorem qp_comp_sum {N n : ℕ} (M : Matrix (Fin N) (Fin n) ℝ) (μ y : Fin N → ℝ) :
    ∑ j, y j * ((M *ᵥ (Mᵀ *ᵥ y)) j + μ j * (1 + μ ⬝ᵥ y)) = nsq (Mᵀ *ᵥ y) + (μ ⬝ᵥ y) * (1 + μ ⬝ᵥ y) := by
  have e1 : nsq (Mᵀ *ᵥ y) = ∑ j, y j * (M *ᵥ (Mᵀ *ᵥ y)) j := by
    show (Mᵀ *ᵥ y) ⬝ᵥ (Mᵀ *ᵥ y) = y ⬝ᵥ (M *ᵥ (Mᵀ *ᵥ y))
    rw [dotProduct_mulVec y M, ← mulVec_transpose]
  rw [e1]
  simp only [mul_add, Finset.sum_add_distrib, dotProduct]
  simp only [mul_one, Finset.sum_mul]
  rw [add_right_inj]
  congr 1
  · exact Finset.sum_congr rfl fun i _ => by ring
  · exact Finset.sum_congr rfl fun i _ => by ring

/-- the point read off an approximate solution of the nonnegative least squares problem -/
theorem bemporad_near {N n : ℕ} {F Li : Matrix (Fin n) (Fin n) ℝ} {A : Matrix (Fin N) (Fin n) ℝ} {b y : Fin N → ℝ}
    {f : Fin n → ℝ} (hFi : F * Li = 1) (hy : ∀ i, 0 ≤ y i)
    {t : ℝ} (ht : t = 1 + (b + (A * (Liᵀ * Li)) *ᵥ f) ⬝ᵥ y) (ht0 : 0 < t)
    {x : Fin n → ℝ} (hx : x = -((Liᵀ * Li) *ᵥ (f + Aᵀ *ᵥ (t⁻¹ • y)))) :
    (∀ i, b i - (A *ᵥ x) i = t⁻¹ * (((A * Liᵀ) *ᵥ ((A * Liᵀ)ᵀ *ᵥ y)) i
      + (b + (A * (Liᵀ * Li)) *ᵥ f) i * t)) ∧ (∀ i, 0 ≤ (t⁻¹ • y) i) ∧
    (t⁻¹ • y) ⬝ᵥ (b - A *ᵥ x) = t⁻¹ ^ 2 * (nsq ((A * Liᵀ)ᵀ *ᵥ y) + (t - 1) * t) ∧
    ((F * Fᵀ) *ᵥ x + f) + Aᵀ *ᵥ (t⁻¹ • y) = 0 := by
  have hLF : Li * F = 1 := mul_eq_one_comm.1 hFi
  have hinv : (F * Fᵀ) * (Liᵀ * Li) = 1 := by
    calc (F * Fᵀ) * (Liᵀ * Li) = F * (Fᵀ * Liᵀ) * Li := by simp only [Matrix.mul_assoc]
      _ = 1 := by rw [← transpose_mul, hLF, transpose_one, Matrix.mul_one, hFi]
  have hMM : ∀ z : Fin N → ℝ, (A * Liᵀ) *ᵥ ((A * Liᵀ)ᵀ *ᵥ z) = A *ᵥ ((Liᵀ * Li) *ᵥ (Aᵀ *ᵥ z)) := by
    intro z
    simp only [mulVec_mulVec, transpose_mul, transpose_transpose, Matrix.mul_assoc]
  have hsl : ∀ i, b i - (A *ᵥ x) i = t⁻¹ * (((A * Liᵀ) *ᵥ ((A * Liᵀ)ᵀ *ᵥ y)) i
      + (b + (A * (Liᵀ * Li)) *ᵥ f) i * t) := by
    intro i
    rw [hx, mulVec_neg, mulVec_add, mulVec_smul, mulVec_smul, mulVec_add, mulVec_smul, hMM]
    simp only [Pi.neg_apply, Pi.add_apply, Pi.smul_apply, smul_eq_mul, mulVec_mulVec]
    field_simp
    ring
  have hti : 0 < t⁻¹ := inv_pos.2 ht0
  refine ⟨hsl, fun i => mul_nonneg hti.le (hy i), ?_, ?_⟩
  · have h1 := qp_comp_sum (A * Liᵀ) (b + (A * (Liᵀ * Li)) *ᵥ f) y
    rw [← ht] at h1
    have h2 : (b + (A * (Liᵀ * Li)) *ᵥ f) ⬝ᵥ y = t - 1 := by rw [ht]; ring
    rw [h2] at h1
    rw [← h1, Finset.mul_sum]
    refine Finset.sum_congr rfl fun i _ => ?_
    rw [Pi.sub_apply, hsl]
    simp only [Pi.smul_apply, smul_eq_mul]
    ring
  · rw [hx, mulVec_neg, mulVec_mulVec, hinv, one_mulVec]; abel

theorem cs_shift {p t W Z : ℝ} (hW : 0 ≤ W) (hZ : 0 ≤ Z) (h : p ^ 2 ≤ W * Z) (h1 : 1 ≤ t - p) :
    1 ≤ (W + t ^ 2) * (1 + Z) := by
  have k1 : |2 * (t * p)| ≤ t ^ 2 * Z + W := by
    refine abs_le_of_sq_le_sq ?_ (by positivity)
    have : t ^ 2 * p ^ 2 ≤ t ^ 2 * (W * Z) := mul_le_mul_of_nonneg_left h (_root_.sq_nonneg t)
    nlinarith [_root_.sq_nonneg (t ^ 2 * Z - W)]
  have k2 := (abs_le.1 k1).1
  have k3 : 1 ≤ (t - p) ^ 2 := by nlinarith
  nlinarith

/-- the residual of any nonnegative vector bounds the distance of the feasible points from the unconstrained optimum -/
theorem bemporad_far {N n : ℕ} {F Li : Matrix (Fin n) (Fin n) ℝ} {A : Matrix (Fin N) (Fin n) ℝ} {b y : Fin N → ℝ}
    {f : Fin n → ℝ} (hFi : F * Li = 1) (hy : ∀ i, 0 ≤ y i)
    {t : ℝ} (ht : t = 1 + (b + (A * (Liᵀ * Li)) *ᵥ f) ⬝ᵥ y)
    {x x0 : Fin n → ℝ} (hx : ∀ i, (A *ᵥ x) i ≤ b i) (hx0 : x0 = -((Liᵀ * Li) *ᵥ f)) :
    1 ≤ (nsq ((A * Liᵀ)ᵀ *ᵥ y) + t ^ 2) * (1 + (x - x0) ⬝ᵥ ((F * Fᵀ) *ᵥ (x - x0))) := by
  have hZ : (x - x0) ⬝ᵥ ((F * Fᵀ) *ᵥ (x - x0)) = nsq (Fᵀ *ᵥ (x - x0)) := by
    rw [nsq, ← mulVec_mulVec, dotProduct_mulVec, ← mulVec_transpose]
  rw [hZ]
  have hp : ((A * Liᵀ)ᵀ *ᵥ y) ⬝ᵥ (Fᵀ *ᵥ (x - x0)) = y ⬝ᵥ (A *ᵥ (x - x0)) := by
    rw [dotProduct_mulVec, ← mulVec_transpose, transpose_transpose, mulVec_mulVec, transpose_mul, transpose_transpose,
      ← Matrix.mul_assoc, hFi, Matrix.one_mul, mulVec_transpose, ← dotProduct_mulVec]
  refine cs_shift (nsq_nonneg _) (nsq_nonneg _) (p := ((A * Liᵀ)ᵀ *ᵥ y) ⬝ᵥ (Fᵀ *ᵥ (x - x0))) ?_ ?_
  · have := Finset.sum_mul_sq_le_sq_mul_sq Finset.univ ((A * Liᵀ)ᵀ *ᵥ y) (Fᵀ *ᵥ (x - x0))
    simpa only [nsq, dotProduct, pow_two] using this
  · have hle : y ⬝ᵥ (A *ᵥ (x - x0)) ≤ (b + (A * (Liᵀ * Li)) *ᵥ f) ⬝ᵥ y := by
      rw [dotProduct_comm y]
      refine Finset.sum_le_sum fun i _ => mul_le_mul_of_nonneg_right ?_ (hy i)
      rw [hx0, mulVec_sub, mulVec_neg, mulVec_mulVec]
      simp only [Pi.sub_apply, Pi.neg_apply, Pi.add_apply]
      linarith [hx i]
    rw [hp]; linarith

/-- KKT conditions of the stacked QP: constraints within `α`, complementarity within `β` -/
structure QpKKTWithin (α β : ℝ) (H : Mat ℝ) (f : Vec ℝ) (AC : Mat ℝ) (bd lam x : Vec ℝ) : Prop where
  prim : ∀ i < AC.nr, ∑ j ∈ range AC.nc, AC.e i j * x.e j ≤ bd.e i + α
  nonneg : ∀ i < AC.nr, 0 ≤ lam.e i
  compl : |∑ i ∈ range AC.nr, lam.e i * (bd.e i - ∑ j ∈ range AC.nc, AC.e i j * x.e j)| ≤ β
  stat : ∀ j < AC.nc, (∑ k ∈ range AC.nc, H.e j k * x.e k + f.e j)
    + ∑ i ∈ range AC.nr, lam.e i * AC.e i j = 0

/-- evaluation of the QP code -/
theorem qp_run_sound {L : Lib} (hL : LibSound L) {n : ℕ} {H : Mat ℝ} {f : Vec ℝ} {A : Mat ℝ} {b : Vec ℝ}
    {C : Option (Mat ℝ)} {d : Option (Vec ℝ)} (hH : Spec.SymPosDef n H) (hf : f.n = n)
    (hs : Spec.ConstrShape n A b C d) (tol : ℝ) :
    ∃ q AC bd lam x t r, Stacked n A b C d q AC bd ∧ x.n = n ∧ lam.n = AC.nr ∧
      (∀ x', Spec.Ineqs AC bd x' → ∀ x0 : ℕ → ℝ, (∀ j < n, ∑ k ∈ range n, H.e j k * x0 k + f.e j = 0) →
        1 ≤ r ^ 2 * (1 + ∑ i ∈ range n, ∑ j ∈ range n, (x'.e i - x0 i) * H.e i j * (x'.e j - x0 j))) ∧
      (∀ δ, NnlsWithin L δ → (∀ x', ¬ Spec.Ineqs AC bd x') → r ≤ δ) ∧
      (∀ δ ε, NnlsStops L δ ε → r ^ 2 - ε ≤ t ∧ (0 < t → QpKKTWithin (δ / t) (ε / t ^ 2) H f AC bd lam x)) ∧
      0 ≤ r ∧
      (Spec.HasConstr A C → Pnnls.quadratic_program L H f A b C d tol = .ok (if r > tol then
        ⟨some (Spec.qpCost H f x), some x, some (whereGt (mulIneq A lam) tol),
          some (mulIneq A lam), mulEq A q lam⟩ else Sol.none)) ∧
      (¬ Spec.HasConstr A C → Pnnls.quadratic_program L H f A b C d tol = .error .runtimeError) := by
  obtain ⟨q, AC, bd, hst, hS⟩ := stackEqualities_ok hs
  have hb : bd.n = AC.nr := by rw [hS.bn, hS.nr]
  have hAn : A.nc = n := by
    cases C <;> cases d <;> simp only [Spec.ConstrShape] at hs
    · exact hs.1
    · exact hs.1
  have hPD := posDef_asM hH
  obtain ⟨F, hF, hFr, hFc, hFF⟩ := hL.chol_ok H (by rw [hH.nr, hH.nc]) (by rw [hH.nr]; exact hPD)
  rw [hH.nr] at hFr hFc hFF
  have hdet : (F.asM n n).det ≠ 0 := by
    have h1 := hPD.isUnit
    have h2 : (H.asM n n).det ≠ 0 := (Matrix.isUnit_iff_isUnit_det _).1 h1 |>.ne_zero
    rw [← hFF, det_mul, det_transpose] at h2
    exact fun h => h2 (by rw [h, zero_mul])
  set MF := F.asM n n with hMF
  set Li := MF⁻¹ with hLi
  have hFLi : MF * Li = 1 := mul_nonsing_inv _ (isUnit_iff_ne_zero.2 hdet)
  set Linv := Mat.ofM Li with hLinv
  have hinv : np.inv F = .ok Linv := np_inv_ok hFr hFc hdet
  have hLa : Linv.asM n n = Li := Mat.ofM_asM _
  set Hinv := Linv.T.mul Linv with hHinv
  set N := AC.nr with hN
  have hHa : Hinv.asM n n = Liᵀ * Li := by
    rw [hHinv, Mat.asM_mul Linv.T Linv n n (n := n) rfl, Mat.asM_T, hLa]
  set M := AC.mul Linv.T with hM
  have hMr : M.nr = N := rfl
  have hMc : M.nc = n := rfl
  have hMa : M.asM N n = AC.asM N n * Liᵀ := by
    rw [hM, Mat.asM_mul AC Linv.T N n hS.nc, Mat.asM_T, hLa]
  set m := bd.add ((AC.mul Hinv).mulVec f) with hm
  have hmn : m.n = N := hb
  have hma : m.asV N = bd.asV N + (AC.asM N n * (Liᵀ * Li)) *ᵥ f.asV n := by
    have : m.asV N = bd.asV N + ((AC.mul Hinv).mulVec f).asV N := rfl
    rw [this, Mat.asV_mulVec _ _ N (n := n) rfl, Mat.asM_mul AC Hinv N n hS.nc, hHa]
  have hsz : (qpA M m).nr = (qpb n).n := by simp [qpA, qpb, hMc]
  set y := (L.nnls (qpA M m) (qpb n)).1 with hy
  set r := (L.nnls (qpA M m) (qpb n)).2 with hr
  have hAnc : (qpA M m).nc = N := by simp [qpA, hMr]
  have hyn : y.n = N := (hL.nnls_n _ _ hsz).trans hAnc
  have hy0 : ∀ i < N, 0 ≤ y.e i := fun i hi => hL.nnls_nonneg _ _ hsz i (by rw [hAnc]; exact hi)
  have hrr : r = Real.sqrt (nsq ((M.asM N n)ᵀ *ᵥ y.asV N) + (1 + m.asV N ⬝ᵥ y.asV N) ^ 2) := by
    rw [hr, hL.nnls_res _ _ hsz, ← hy, qp_vnorm hMr hMc hmn]
  have hgr : ∀ j : Fin N, ∑ i ∈ range (qpA M m).nr, (qpA M m).e i j * (((qpA M m).mulVec y).sub (qpb n)).e i
      = (M.asM N n *ᵥ ((M.asM N n)ᵀ *ᵥ y.asV N)) j + m.asV N j * (1 + m.asV N ⬝ᵥ y.asV N) :=
    fun j => qp_grad hMr hMc hmn j
  have hyF : ∀ i, 0 ≤ y.asV N i := fun i => hy0 i i.2
  set t := 1 + m.dot y with ht
  have htF : t = 1 + (bd.asV N + (AC.asM N n * (Liᵀ * Li)) *ᵥ f.asV n) ⬝ᵥ y.asV N := by
    rw [ht, Vec.dot_asV m y hmn, hma]
  have hr0 : 0 ≤ r := by rw [hrr]; exact Real.sqrt_nonneg _
  have hsum : ∑ j ∈ range (qpA M m).nc, y.e j
      * ∑ i ∈ range (qpA M m).nr, (qpA M m).e i j * (((qpA M m).mulVec y).sub (qpb n)).e i
      = nsq ((M.asM N n)ᵀ *ᵥ y.asV N) + (m.asV N ⬝ᵥ y.asV N) * (1 + m.asV N ⬝ᵥ y.asV N) := by
    rw [hAnc, Finset.sum_range]
    rw [Finset.sum_congr rfl fun j _ => by rw [hgr j]]
    exact qp_comp_sum _ _ _
  set lam := y.divS t with hlam
  set x := (Hinv.mulVec (f.add (AC.T.mulVec lam))).neg with hx
  have hlamF : lam.asV N = t⁻¹ • y.asV N := by
    funext i; simp [hlam, div_eq_inv_mul]
  have hxF : x.asV n = -((Liᵀ * Li) *ᵥ (f.asV n + (AC.asM N n)ᵀ *ᵥ (t⁻¹ • y.asV N))) := by
    have e1 : x.asV n = -((Hinv.mulVec (f.add (AC.T.mulVec lam))).asV n) := rfl
    rw [e1, Mat.asV_mulVec _ _ n (n := n) rfl, hHa]
    have e2 : (f.add (AC.T.mulVec lam)).asV n = f.asV n + (AC.T.mulVec lam).asV n := rfl
    rw [e2, Mat.asV_mulVec _ _ n (n := N) rfl, Mat.asM_T, hlamF]
  refine ⟨q, AC, bd, lam, x, t, r, hS, rfl, hyn, ?_, ?_, ?_, hr0, ?_⟩
  · intro x' hx' x0 hx0
    have h0 : (fun i : Fin n => x0 i) = -((Liᵀ * Li) *ᵥ f.asV n) := by
      have e1 : (H.asM n n) *ᵥ (fun i : Fin n => x0 i) = - f.asV n := by
        funext j
        have := hx0 j j.2
        rw [Finset.sum_range] at this
        simp only [Matrix.mulVec, dotProduct, Mat.asM_apply, Pi.neg_apply, Vec.asV_apply]
        linarith
      have e2 : (Liᵀ * Li) * H.asM n n = 1 := by
        rw [← hFF]
        have hLF : Li * MF = 1 := mul_eq_one_comm.1 hFLi
        calc Liᵀ * Li * (MF * MFᵀ) = Liᵀ * (Li * MF) * MFᵀ := by simp only [Matrix.mul_assoc]
          _ = 1 := by rw [hLF, Matrix.mul_one, ← transpose_mul, hFLi, transpose_one]
      have : (Liᵀ * Li) *ᵥ ((H.asM n n) *ᵥ (fun i : Fin n => x0 i)) = (fun i : Fin n => x0 i) := by
        rw [mulVec_mulVec, e2, one_mulVec]
      rw [← this, e1, mulVec_neg]
    have hfar := bemporad_far (b := bd.asV N) (f := f.asV n) (A := AC.asM N n) hFLi hyF htF
      (x := x'.asV n) (by rw [ineqs_iff_fin] at hx'; rw [← hS.nc]; exact hx') h0
    rw [hFF] at hfar
    have hr2 : r ^ 2 = nsq ((M.asM N n)ᵀ *ᵥ y.asV N) + t ^ 2 := by
      rw [hrr, Real.sq_sqrt (add_nonneg (nsq_nonneg _) (_root_.sq_nonneg _)), htF, hma]
    rw [hr2, hMa]
    refine hfar.trans (le_of_eq ?_)
    congr 2
    simp only [Finset.sum_range, dotProduct, Matrix.mulVec, Mat.asM_apply, Finset.mul_sum]
    exact Finset.sum_congr rfl fun i _ => Finset.sum_congr rfl fun j _ => by
      simp only [Pi.sub_apply, Vec.asV_apply]; ring
  · intro δ hδ hinf
    obtain ⟨y', hy', k1, k2⟩ := farkas_ineq (AC.asM N n) (bd.asV N) (by
      rintro ⟨x', hx'⟩
      refine hinf (Vec.ofFn x') ((ineqs_iff_fin _ _ _).2 ?_)
      rw [hS.nc, Vec.ofFn_asV]; exact hx')
    set c := -(bd.asV N ⬝ᵥ y') with hcdef
    have hc0 : 0 < c := by linarith
    have hh := hδ (qpA M m) (qpb n) hsz (Vec.ofFn (c⁻¹ • y')) (fun i hi => by
      rw [hAnc] at hi; rw [Vec.ofFn_e _ ⟨i, hi⟩]
      exact mul_nonneg (inv_nonneg.2 hc0.le) (hy' _))
    rw [qp_vnorm hMr hMc hmn, Vec.ofFn_asV, hMa, hma] at hh
    have z1 : (AC.asM N n * Liᵀ)ᵀ *ᵥ (c⁻¹ • y') = 0 := by
      rw [transpose_mul, transpose_transpose, ← mulVec_mulVec, mulVec_smul, k1, smul_zero, mulVec_zero]
    have z2 : (bd.asV N + (AC.asM N n * (Liᵀ * Li)) *ᵥ f.asV n) ⬝ᵥ (c⁻¹ • y') = -1 := by
      rw [dotProduct_smul, add_dotProduct]
      have : ((AC.asM N n * (Liᵀ * Li)) *ᵥ f.asV n) ⬝ᵥ y' = 0 := by
        rw [← mulVec_mulVec, dotProduct_comm, dotProduct_mulVec, ← mulVec_transpose, k1, zero_dotProduct]
      rw [this, add_zero, smul_eq_mul, show bd.asV N ⬝ᵥ y' = -c by rw [hcdef, neg_neg]]
      field_simp
    rw [z1, z2] at hh
    simpa [nsq] using hh
  · intro δ ε hst'
    obtain ⟨g1, g2⟩ := hst' (qpA M m) (qpb n) hsz
    rw [← hy, hsum] at g2
    have htm : t = 1 + m.asV N ⬝ᵥ y.asV N := by rw [htF, hma]
    have hr2 : r ^ 2 = nsq ((M.asM N n)ᵀ *ᵥ y.asV N) + t ^ 2 := by
      rw [hrr, Real.sq_sqrt (add_nonneg (nsq_nonneg _) (_root_.sq_nonneg _)), htm]
    have g2' : |nsq ((M.asM N n)ᵀ *ᵥ y.asV N) + (t - 1) * t| ≤ ε := by
      rw [htm]; convert g2 using 3; ring
    refine ⟨?_, fun ht0 => ?_⟩
    · have := (abs_le.1 g2').2
      rw [hr2]; nlinarith
    obtain ⟨k1, k2, k3, k4⟩ := bemporad_near (b := bd.asV N) (f := f.asV n) (A := AC.asM N n) hFLi hyF htF ht0 hxF
    rw [← hlamF] at k2 k3 k4
    have eA : ∀ i : Fin N, (AC.asM N n *ᵥ x.asV n) i = ∑ j ∈ range AC.nc, AC.e i j * x.e j := by
      intro i; rw [hS.nc, Finset.sum_range]; rfl
    refine ⟨fun i hi => ?_, fun i hi => k2 ⟨i, hi⟩, ?_, fun j hj => ?_⟩
    · rw [← eA ⟨i, hi⟩]
      have h := g1 i (by rw [hAnc]; exact hi)
      rw [← hy] at h
      have h' := hgr ⟨i, hi⟩
      simp only [] at h'
      rw [h', hMa, ← htm, hma] at h
      have k := k1 ⟨i, hi⟩
      have : -(δ / t) ≤ bd.e i - (AC.asM N n *ᵥ x.asV n) ⟨i, hi⟩ := by
        rw [show bd.e i = bd.asV N ⟨i, hi⟩ from rfl, k, div_eq_inv_mul, ← mul_neg]
        exact mul_le_mul_of_nonneg_left h (inv_nonneg.2 ht0.le)
      linarith
    · have e5 : ∑ i ∈ range AC.nr, lam.e i * (bd.e i - ∑ j ∈ range AC.nc, AC.e i j * x.e j)
          = lam.asV N ⬝ᵥ (bd.asV N - AC.asM N n *ᵥ x.asV n) := by
        rw [← hN, Finset.sum_range]
        exact Finset.sum_congr rfl fun i _ => by rw [← eA i]; rfl
      rw [e5, k3, ← hMa, abs_mul, div_eq_inv_mul, abs_of_nonneg (by positivity)]
      rw [inv_pow]
      exact mul_le_mul_of_nonneg_left g2' (by positivity)
    · rw [hS.nc] at hj
      have := congrFun k4 ⟨j, hj⟩
      rw [hFF] at this
      simp only [Pi.add_apply, Matrix.mulVec, dotProduct, transpose_apply, Mat.asM_apply,
        Vec.asV_apply, Pi.zero_apply] at this
      rw [hS.nc, Finset.sum_range, Finset.sum_range]
      rw [← this]
      congr 1
      exact Finset.sum_congr rfl fun i _ => mul_comm _ _
  · unfold Pnnls.quadratic_program
    simp only [hst, Py.ok_bind, hF, hinv]
    have e1 : np.dotMM Linv.T Linv = .ok Hinv := if_pos rfl
    have e2 : np.dotMM AC Linv.T = .ok M := if_pos hS.nc
    have e3 : np.dotMM AC Hinv = .ok (AC.mul Hinv) := if_pos hS.nc
    have e4 : np.dotMV (AC.mul Hinv) f = .ok ((AC.mul Hinv).mulVec f) := if_pos hf.symm
    have e5 : np.addV bd ((AC.mul Hinv).mulVec f) = .ok m := if_pos hb
    have e6 : np.vstack [M.T.neg, Mat.ofRow m.neg] = .ok (qpA M m) := by
      simp [np.vstack, np.vstack2, qpA, hMr, hmn]
    have e7 : np.concatenate [Vec.zeros A.nc, Vec.ones 1] = .ok (qpb n) := by
      simp [np.concatenate, Vec.concat, qpb, hAn]
    simp only [e1, e2, e3, e4, e5, e6, e7, Py.ok_bind]
    rw [← hS.hasConstr]
    by_cases h0 : 0 < AC.nr
    rotate_left
    · refine ⟨fun h => absurd h h0, fun _ => ?_⟩
      have e8 : np.nnls L (qpA M m) (qpb n) = .error .runtimeError := by
        unfold np.nnls
        rw [if_neg (by simpa using hsz), if_pos (by rw [hAnc]; omega)]
      rw [e8]
      rfl
    refine ⟨fun _ => ?_, fun h => absurd h0 h⟩
    have e8 : np.nnls L (qpA M m) (qpb n) = .ok (L.nnls (qpA M m) (qpb n)) := by
      unfold np.nnls
      rw [if_neg (by simpa using hsz), if_neg (by rw [hAnc]; omega)]
    simp only [e8, Py.ok_bind]
    simp only [← hy, ← hr]
    by_cases hrt' : r > tol
    · simp only [if_pos hrt']
      have e9 : np.dotVV m y = .ok (m.dot y) := if_pos (by rw [hmn, hyn])
      have e10 : np.dotMV AC.T lam = .ok (AC.T.mulVec lam) := if_pos (by simp [hlam, hyn, hN])
      have e11 : np.addV f (AC.T.mulVec lam) = .ok (f.add (AC.T.mulVec lam)) :=
        if_pos (by simp [hf, hS.nc])
      have e12 : np.dotMV Hinv (f.add (AC.T.mulVec lam))
          = .ok (Hinv.mulVec (f.add (AC.T.mulVec lam))) := if_pos hf.symm
      have e13 : np.dotVM x H = .ok (Mat.vecMul x H) := if_pos hH.nr.symm
      have e14 : np.dotVV (Mat.vecMul x H) x = .ok ((Mat.vecMul x H).dot x) := if_pos hH.nc
      have e15 : np.dotVV f x = .ok (f.dot x) := if_pos hf
      have hle : A.nr + 2 * q ≤ lam.n := by
        have : lam.n = N := hyn
        rw [this, hN, hS.nr]
      simp only [e9, Py.ok_bind, ← ht, ← hlam, e10, e11, e12, ← hx, e13, e14, e15]
      rw [slice_mulIneq A lam (by omega)]
      have ec : (1 : ℝ) / 2 * (Mat.vecMul x H).dot x + f.dot x = Spec.qpCost H f x := by
        rw [qpCost_fin hH.nr hH.nc hf, Vec.dot_asV _ x (n := n) hH.nc, Vec.dot_asV f x hf,
          Mat.asV_vecMul H x n (m := n) rfl, qcost, dotProduct_mulVec]
      rw [ec]
      by_cases hq : q > 0
      · have e2 : np.addV (lam.slice A.nr (A.nr + q)) (lam.slice (A.nr + q) (A.nr + 2 * q)).neg
            = .ok ⟨q, fun i => lam.e (A.nr + i) + -(lam.e (A.nr + q + i))⟩ := by
          have : (lam.slice A.nr (A.nr + q)).n = (lam.slice (A.nr + q) (A.nr + 2 * q)).neg.n := by
            simp only [Vec.slice_n, Vec.neg_n]; omega
          rw [np.addV, if_pos this]
          have hq' : (lam.slice A.nr (A.nr + q)).n = q := by simp only [Vec.slice_n]; omega
          simp only [Vec.add, hq']
          rfl
        simp only [if_pos hq, e2, Py.ok_bind, mulEq]
        rfl
      · simp only [if_neg hq, mulEq]
        rfl
    · simp only [if_neg hrt']; rfl

end Verif
