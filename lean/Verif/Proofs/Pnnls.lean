import Verif.Model.Pnnls
import Verif.Spec.Opt
import Verif.Math.Farkas

/- `pnnls` solves the partial nonnegative least squares problem. -/
namespace Verif
open Finset Matrix Verif.Math

theorem vnorm_eq_nsq (v : Vec ℝ) {n : ℕ} (h : v.n = n) : vnorm v = Real.sqrt (nsq (v.asV n)) := by
  subst h
  simp [vnorm, nsq, dotProduct, Finset.sum_range, pow_two]

theorem vnorm_le_iff (u v : Vec ℝ) {m n : ℕ} (hu : u.n = m) (hv : v.n = n) :
    vnorm u ≤ vnorm v ↔ nsq (u.asV m) ≤ nsq (v.asV n) := by
  rw [vnorm_eq_nsq u hu, vnorm_eq_nsq v hv, Real.sqrt_le_sqrt_iff (nsq_nonneg _)]

theorem vnorm_nonneg (v : Vec ℝ) : 0 ≤ vnorm v := Real.sqrt_nonneg _

theorem lsResidual_eq (A B : Mat ℝ) (c v u : Vec ℝ) :
    Spec.lsResidual A B c v u = nsq (A.asM c.n A.nc *ᵥ v.asV A.nc + B.asM c.n B.nc *ᵥ u.asV B.nc
      - c.asV c.n) := by
  simp [Spec.lsResidual, nsq, dotProduct, Finset.sum_range, pow_two, Matrix.mulVec]

/-- orthogonal projection argument of pnnls -/
theorem proj_facts {m n : ℕ} {B : Matrix (Fin m) (Fin n) ℝ} {P : Matrix (Fin n) (Fin m) ℝ}
    (h1 : B * P * B = B) (h3 : (B * P)ᵀ = B * P) (w : Fin m → ℝ) (u : Fin n → ℝ) :
    nsq ((1 - B * P) *ᵥ w) ≤ nsq (w + B *ᵥ u) := by
  have hq : (1 - B * P)ᵀ = 1 - B * P := by rw [transpose_sub, h3, transpose_one]
  have hqB : (1 - B * P) * B = 0 := by rw [Matrix.sub_mul, h1, Matrix.one_mul, sub_self]
  have hidem : (1 - B * P) * (1 - B * P) = 1 - B * P := by
    rw [Matrix.mul_sub, ← Matrix.mul_assoc (1 - B * P) B P, hqB]; simp
  have e : w + B *ᵥ u = (1 - B * P) *ᵥ w + (B *ᵥ (P *ᵥ w + u)) := by
    rw [sub_mulVec, one_mulVec, mulVec_add, mulVec_mulVec]; abel
  rw [e, nsq_add]
  have : ((1 - B * P) *ᵥ w) ⬝ᵥ (B *ᵥ (P *ᵥ w + u)) = 0 := by
    rw [dotProduct_mulVec, ← mulVec_transpose, mulVec_mulVec]
    have : Bᵀ * (1 - B * P) = 0 := by
      rw [← hq, ← transpose_mul, hqB, transpose_zero]
    rw [this]; simp
  rw [this]
  linarith [nsq_nonneg (B *ᵥ (P *ᵥ w + u))]

theorem pnnls_spec {L : Lib} (hL : LibSpec L) (A B : Mat ℝ) (c : Vec ℝ)
    (hA : A.nr = c.n) (hB : B.nr = c.n) :
    ∃ v u r, (0 < A.nc → Pnnls.pnnls L A B c = .ok (v, u, r)) ∧ v.n = A.nc ∧ u.n = B.nc ∧
      (∀ i < A.nc, 0 ≤ v.e i) ∧ r = Real.sqrt (Spec.lsResidual A B c v u) ∧
      ∀ v' u' : Vec ℝ, (∀ i < A.nc, 0 ≤ v'.e i) →
        Spec.lsResidual A B c v u ≤ Spec.lsResidual A B c v' u' := by
  -- evaluate the code
  set Bp := L.pinv B with hBp
  have hBpr : Bp.nr = B.nc := hL.pinv_nr B
  have hBpc : Bp.nc = c.n := (hL.pinv_nc B).trans hB
  set Bbar := (Mat.eye A.nr : Mat ℝ).sub (B.mul Bp) with hBbar
  set Abar := Bbar.mul A with hAbar
  set bbar := Bbar.mulVec c with hbbar
  have hsz : Abar.nr = bbar.n := rfl
  set v := (L.nnls Abar bbar).1 with hv
  have hvn : v.n = A.nc := hL.nnls_n Abar bbar hsz
  set u := (Bp.mulVec ((A.mulVec v).sub c)).neg with hu
  have hrun : 0 < A.nc → Pnnls.pnnls L A B c = .ok (v, u, (L.nnls Abar bbar).2) := by
    intro h0
    unfold Pnnls.pnnls
    have e1 : np.dotMM B (L.pinv B) = .ok (B.mul Bp) := if_pos (hL.pinv_nr B).symm
    have e2 : np.subM (Mat.eye A.nr) (B.mul Bp) = .ok Bbar :=
      if_pos ⟨by simp [hA, hB], by simp [hBpc, hA]⟩
    have e3 : np.dotMM Bbar A = .ok Abar := if_pos (by simp [hBbar])
    have e4 : np.dotMV Bbar c = .ok bbar := if_pos (by simp [hBbar, hA])
    have e5 : np.nnls L Abar bbar = .ok (L.nnls Abar bbar) := by
      unfold np.nnls
      rw [if_neg (by simpa using hsz), if_neg (show ¬ Abar.nc = 0 from (by show ¬ A.nc = 0; omega))]
    have e6 : np.dotMV A v = .ok (A.mulVec v) := if_pos hvn.symm
    have e7 : np.subV (A.mulVec v) c = .ok ((A.mulVec v).sub c) := if_pos hA
    have e8 : np.dotMV Bp ((A.mulVec v).sub c) = .ok (Bp.mulVec ((A.mulVec v).sub c)) :=
      if_pos (by simp [hBpc, hA])
    simp only [e1, e2, e3, e4, e5, Py.ok_bind]
    simp only [← hv, e6, e7, Py.ok_bind, ← hBp, e8]
    rfl
  -- matrices
  set MA := A.asM c.n A.nc with hMA
  set MB := B.asM c.n B.nc with hMB
  set MP := Bp.asM B.nc c.n with hMP
  set vc := c.asV c.n with hvc
  have p1 : MB * MP * MB = MB := by
    have := hL.pinv_1 B; rw [hB] at this; exact this
  have p3 : (MB * MP)ᵀ = MB * MP := by
    have := hL.pinv_3 B; rw [hB] at this; exact this
  have hQ : Bbar.asM c.n c.n = 1 - MB * MP := by
    rw [hBbar, Mat.asM_sub, hA, Mat.asM_eye, Mat.asM_mul B Bp c.n c.n rfl]
  have hbnc : Bbar.nc = c.n := hA
  have hres : ∀ w : Vec ℝ, ((Abar.mulVec w).sub bbar).asV c.n
      = (1 - MB * MP) *ᵥ (MA *ᵥ w.asV A.nc - vc) := by
    intro w
    have h1 : (Abar.mulVec w).asV c.n = Abar.asM c.n A.nc *ᵥ w.asV A.nc :=
      Mat.asV_mulVec _ _ _ rfl
    have h2 : Abar.asM c.n A.nc = (1 - MB * MP) * MA := by
      rw [hAbar, Mat.asM_mul Bbar A c.n A.nc hbnc, hQ]
    have h3 : bbar.asV c.n = (1 - MB * MP) *ᵥ vc := by
      rw [hbbar, Mat.asV_mulVec Bbar c c.n hbnc, hQ]
    have : ((Abar.mulVec w).sub bbar).asV c.n = (Abar.mulVec w).asV c.n - bbar.asV c.n := rfl
    rw [this, h1, h2, h3, mulVec_sub, mulVec_mulVec]
  have hAn : Abar.nr = c.n := hA
  have hut : u.asV B.nc = -(MP *ᵥ (MA *ᵥ v.asV A.nc - vc)) := by
    have : u.asV B.nc = -((Bp.mulVec ((A.mulVec v).sub c)).asV B.nc) := rfl
    rw [this, Mat.asV_mulVec Bp _ B.nc hBpc]
    have : ((A.mulVec v).sub c).asV c.n = (A.mulVec v).asV c.n - vc := rfl
    rw [this, Mat.asV_mulVec A v c.n rfl]
  have hls : Spec.lsResidual A B c v u
      = nsq (((Abar.mulVec v).sub bbar).asV c.n) := by
    rw [lsResidual_eq, hres, hut, ← hMA, ← hMB, ← hvc]
    congr 1
    rw [mulVec_neg, mulVec_mulVec, sub_mulVec, one_mulVec]; abel
  refine ⟨v, u, _, hrun, hvn, hBpr, fun i hi => hL.nnls_nonneg Abar bbar hsz i hi, ?_, ?_⟩
  · rw [hL.nnls_res Abar bbar hsz, ← hv, vnorm_eq_nsq _ (n := c.n) hAn, hls]
  · intro v' u' hv'
    have hm := hL.nnls_min Abar bbar hsz v' hv'
    rw [vnorm_le_iff _ _ (m := c.n) (n := c.n) hAn hAn] at hm
    rw [hls]
    refine hm.trans ?_
    rw [hres, lsResidual_eq, ← hMA, ← hMB, ← hvc]
    have := proj_facts p1 p3 (MA *ᵥ v'.asV A.nc - vc) (u'.asV B.nc)
    refine this.trans (le_of_eq ?_)
    congr 1; abel

/-- without nonnegative unknowns `nnls` raises -/
theorem pnnls_none {L : Lib} (hL : LibSpec L) (A B : Mat ℝ) (c : Vec ℝ)
    (hA : A.nr = c.n) (hB : B.nr = c.n) (h0 : A.nc = 0) : Pnnls.pnnls L A B c = .error .runtimeError := by
  unfold Pnnls.pnnls
  set Bp := L.pinv B with hBp
  have hBpc : Bp.nc = c.n := (hL.pinv_nc B).trans hB
  set Bbar := (Mat.eye A.nr : Mat ℝ).sub (B.mul Bp) with hBbar
  have e1 : np.dotMM B Bp = .ok (B.mul Bp) := if_pos (hL.pinv_nr B).symm
  have e2 : np.subM (Mat.eye A.nr) (B.mul Bp) = .ok Bbar :=
    if_pos ⟨by simp [hA, hB], by simp [hBpc, hA]⟩
  have e3 : np.dotMM Bbar A = .ok (Bbar.mul A) := if_pos (by simp [hBbar])
  have e4 : np.dotMV Bbar c = .ok (Bbar.mulVec c) := if_pos (by simp [hBbar, hA])
  have e5 : np.nnls L (Bbar.mul A) (Bbar.mulVec c) = .error .runtimeError := by
    unfold np.nnls
    rw [if_neg (by simp), if_pos (show (Bbar.mul A).nc = 0 from h0)]
  simp only [e1, e2, e3, e4, e5, Py.ok_bind, Py.error_bind]

end Verif
