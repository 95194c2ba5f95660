import Verif.Proofs.LPMain
import Verif.Model.LibInexact

/- The LP solver with a least squares routine that need not reach the minimum (the proofs follow those of
`Proofs.Pnnls`, `Proofs.LP` and `Proofs.LPMain`). -/
namespace Verif
open Finset Matrix Verif.Math

theorem pnnls_sound {L : Lib} (hL : LibSound L) (A B : Mat ℝ) (c : Vec ℝ)
    (hA : A.nr = c.n) (hB : B.nr = c.n) :
    ∃ v u r, (0 < A.nc → Pnnls.pnnls L A B c = .ok (v, u, r)) ∧ v.n = A.nc ∧ u.n = B.nc ∧
      (∀ i < A.nc, 0 ≤ v.e i) ∧ r = Real.sqrt (Spec.lsResidual A B c v u) ∧
      ∀ δ, NnlsWithin L δ → ∀ v' u' : Vec ℝ, (∀ i < A.nc, 0 ≤ v'.e i) →
        r ≤ Real.sqrt (Spec.lsResidual A B c v' u') + δ := by
  -- evaluate the code
  set Bp := L.pinv B with hBp
  have hBpr : Bp.nr = B.nc := hL.pinv_nr B
  have hBpc : Bp.nc = c.n := (hL.pinv_nc B).trans hB
  set Bbar := (Mat.eye A.nr : Mat ℝ).sub (B.mul Bp) with hBbar
  set Abar := Bbar.mul A with hAbar
  set bbar := Bbar.mulVec c with hbbar
  have hsz : Abar.nr = bbar.n := rfl
  set v := (L.nnls Abar bbar).1 with hv
  have hvn : v.n = A.nc := hL.nnls_n Abar bbar hsz
  set u := (Bp.mulVec ((A.mulVec v).sub c)).neg with hu
  have hrun : 0 < A.nc → Pnnls.pnnls L A B c = .ok (v, u, (L.nnls Abar bbar).2) := by
    intro h0
    unfold Pnnls.pnnls
    have e1 : np.dotMM B (L.pinv B) = .ok (B.mul Bp) := if_pos (hL.pinv_nr B).symm
    have e2 : np.subM (Mat.eye A.nr) (B.mul Bp) = .ok Bbar :=
      if_pos ⟨by simp [hA, hB], by simp [hBpc, hA]⟩
    have e3 : np.dotMM Bbar A = .ok Abar := if_pos (by simp [hBbar])
    have e4 : np.dotMV Bbar c = .ok bbar := if_pos (by simp [hBbar, hA])
    have e5 : np.nnls L Abar bbar = .ok (L.nnls Abar bbar) := by
      unfold np.nnls
      rw [if_neg (by simpa using hsz), if_neg (show ¬ Abar.nc = 0 from (by show ¬ A.nc = 0; omega))]
    have e6 : np.dotMV A v = .ok (A.mulVec v) := if_pos hvn.symm
    have e7 : np.subV (A.mulVec v) c = .ok ((A.mulVec v).sub c) := if_pos hA
    have e8 : np.dotMV Bp ((A.mulVec v).sub c) = .ok (Bp.mulVec ((A.mulVec v).sub c)) :=
      if_pos (by simp [hBpc, hA])
    simp only [e1, e2, e3, e4, e5, Py.ok_bind]
    simp only [← hv, e6, e7, Py.ok_bind, ← hBp, e8]
    rfl
  -- matrices
  set MA := A.asM c.n A.nc with hMA
  set MB := B.asM c.n B.nc with hMB
  set MP := Bp.asM B.nc c.n with hMP
  set vc := c.asV c.n with hvc
  have p1 : MB * MP * MB = MB := by
    have := hL.pinv_1 B; rw [hB] at this; exact this
  have p3 : (MB * MP)ᵀ = MB * MP := by
    have := hL.pinv_3 B; rw [hB] at this; exact this
  have hQ : Bbar.asM c.n c.n = 1 - MB * MP := by
    rw [hBbar, Mat.asM_sub, hA, Mat.asM_eye, Mat.asM_mul B Bp c.n c.n rfl]
  have hbnc : Bbar.nc = c.n := hA
  have hres : ∀ w : Vec ℝ, ((Abar.mulVec w).sub bbar).asV c.n
      = (1 - MB * MP) *ᵥ (MA *ᵥ w.asV A.nc - vc) := by
    intro w
    have h1 : (Abar.mulVec w).asV c.n = Abar.asM c.n A.nc *ᵥ w.asV A.nc :=
      Mat.asV_mulVec _ _ _ rfl
    have h2 : Abar.asM c.n A.nc = (1 - MB * MP) * MA := by
      rw [hAbar, Mat.asM_mul Bbar A c.n A.nc hbnc, hQ]
    have h3 : bbar.asV c.n = (1 - MB * MP) *ᵥ vc := by
      rw [hbbar, Mat.asV_mulVec Bbar c c.n hbnc, hQ]
    have : ((Abar.mulVec w).sub bbar).asV c.n = (Abar.mulVec w).asV c.n - bbar.asV c.n := rfl
    rw [this, h1, h2, h3, mulVec_sub, mulVec_mulVec]
  have hAn : Abar.nr = c.n := hA
  have hut : u.asV B.nc = -(MP *ᵥ (MA *ᵥ v.asV A.nc - vc)) := by
    have : u.asV B.nc = -((Bp.mulVec ((A.mulVec v).sub c)).asV B.nc) := rfl
    rw [this, Mat.asV_mulVec Bp _ B.nc hBpc]
    have : ((A.mulVec v).sub c).asV c.n = (A.mulVec v).asV c.n - vc := rfl
    rw [this, Mat.asV_mulVec A v c.n rfl]
  have hls : Spec.lsResidual A B c v u
      = nsq (((Abar.mulVec v).sub bbar).asV c.n) := by
    rw [lsResidual_eq, hres, hut, ← hMA, ← hMB, ← hvc]
    congr 1
    rw [mulVec_neg, mulVec_mulVec, sub_mulVec, one_mulVec]; abel
  refine ⟨v, u, _, hrun, hvn, hBpr, fun i hi => hL.nnls_nonneg Abar bbar hsz i hi, ?_, ?_⟩
  · rw [hL.nnls_res Abar bbar hsz, ← hv, vnorm_eq_nsq _ (n := c.n) hAn, hls]
  · intro δ hδ v' u' hv'
    refine (hδ Abar bbar hsz v' hv').trans (add_le_add_left ?_ δ)
    rw [vnorm_eq_nsq _ (n := c.n) hAn]
    refine Real.sqrt_le_sqrt ?_
    rw [hres, lsResidual_eq, ← hMA, ← hMB, ← hvc]
    have := proj_facts p1 p3 (MA *ᵥ v'.asV A.nc - vc) (u'.asV B.nc)
    refine this.trans (le_of_eq ?_)
    congr 1; abel

theorem pnnls_none_sound {L : Lib} (hL : LibSound L) (A B : Mat ℝ) (c : Vec ℝ)
    (hA : A.nr = c.n) (hB : B.nr = c.n) (h0 : A.nc = 0) : Pnnls.pnnls L A B c = .error .runtimeError := by
  unfold Pnnls.pnnls
  set Bp := L.pinv B with hBp
  have hBpc : Bp.nc = c.n := (hL.pinv_nc B).trans hB
  set Bbar := (Mat.eye A.nr : Mat ℝ).sub (B.mul Bp) with hBbar
  have e1 : np.dotMM B Bp = .ok (B.mul Bp) := if_pos (hL.pinv_nr B).symm
  have e2 : np.subM (Mat.eye A.nr) (B.mul Bp) = .ok Bbar :=
    if_pos ⟨by simp [hA, hB], by simp [hBpc, hA]⟩
  have e3 : np.dotMM Bbar A = .ok (Bbar.mul A) := if_pos (by simp [hBbar])
  have e4 : np.dotMV Bbar c = .ok (Bbar.mulVec c) := if_pos (by simp [hBbar, hA])
  have e5 : np.nnls L (Bbar.mul A) (Bbar.mulVec c) = .error .runtimeError := by
    unfold np.nnls
    rw [if_neg (by simp), if_pos (show (Bbar.mul A).nc = 0 from h0)]
  simp only [e1, e2, e3, e4, e5, Py.ok_bind, Py.error_bind]

theorem lp_core_sound {L : Lib} (hL : LibSound L) {f : Vec ℝ} {AC : Mat ℝ} {bd : Vec ℝ}
    (hb : bd.n = AC.nr) (hf : f.n = AC.nc) :
    ∃ ys x r, (0 < AC.nr → Pnnls.pnnls L (lpA AC bd) (lpB f AC) (lpc f bd) = .ok (ys, x, r)) ∧
      ys.n = AC.nr + AC.nr ∧ x.n = AC.nc ∧ (∀ i < AC.nr, 0 ≤ ys.e i) ∧
      (∀ i < AC.nr, 0 ≤ ys.e (AC.nr + i)) ∧
      r = Real.sqrt (lpRes f AC bd ys.e (fun i => ys.e (AC.nr + i)) x.e) ∧
      ∀ δ, NnlsWithin L δ → ∀ y s x' : ℕ → ℝ, (∀ i < AC.nr, 0 ≤ y i) → (∀ i < AC.nr, 0 ≤ s i) →
        r ≤ Real.sqrt (lpRes f AC bd y s x') + δ := by
  obtain ⟨v, u, r, h1, h2, h3, h4, h5, h6⟩ := pnnls_sound hL (lpA AC bd) (lpB f AC) (lpc f bd)
    (by simp [lpA, lpc, hb, hf]) (by simp [lpB, lpc, hb, hf])
  have hnc : (lpA AC bd).nc = AC.nr + AC.nr := by simp [lpA, hb]
  rw [hnc, forall_lt_add] at h4
  rw [lsResidual_lp hb hf] at h5
  refine ⟨v, u, r, fun h0 => h1 (by rw [hnc]; omega), h2.trans hnc, h3.trans (by simp [lpB, hf]), h4.1, h4.2, h5, ?_⟩
  intro δ hδ y s x' hy hs
  have := h6 δ hδ ⟨AC.nr + AC.nr, fun i => if i < AC.nr then y i else s (i - AC.nr)⟩ ⟨AC.nc, x'⟩ (by
    rw [hnc, forall_lt_add]
    refine ⟨fun i hi => ?_, fun i hi => ?_⟩
    · simp [hi, hy i hi]
    · simp [hs i hi])
  rw [lsResidual_lp hb hf] at this
  refine this.trans (le_of_eq ?_)
  simp only [lpRes]
  congr 2
  congr 1
  · congr 1; congr 1
    exact Finset.sum_congr rfl fun i hi => by rw [if_pos (mem_range.1 hi)]
  · congr 1
    · exact Finset.sum_congr rfl fun i hi => by
        simp
    · refine Finset.sum_congr rfl fun j hj => ?_
      congr 2
      exact Finset.sum_congr rfl fun i hi => by rw [if_pos (mem_range.1 hi)]

theorem lp_core_none_sound {L : Lib} (hL : LibSound L) {f : Vec ℝ} {AC : Mat ℝ} {bd : Vec ℝ}
    (hb : bd.n = AC.nr) (hf : f.n = AC.nc) (h0 : AC.nr = 0) :
    Pnnls.pnnls L (lpA AC bd) (lpB f AC) (lpc f bd) = .error .runtimeError :=
  pnnls_none_sound hL (lpA AC bd) (lpB f AC) (lpc f bd) (by simp [lpA, lpc, hb, hf]) (by simp [lpB, lpc, hb, hf])
    (by simp [lpA, hb, h0])

/-- evaluation of the LP code -/
theorem lp_run_sound {L : Lib} (hL : LibSound L) {n : ℕ} {f : Vec ℝ} {A : Mat ℝ} {b : Vec ℝ}
    {C : Option (Mat ℝ)} {d : Option (Vec ℝ)} (hf : f.n = n) (hs : Spec.ConstrShape n A b C d)
    (tol : ℝ) :
    ∃ q AC bd ys x r, Stacked n A b C d q AC bd ∧ x.n = n ∧ ys.n = AC.nr + AC.nr ∧
      (∀ i < AC.nr, 0 ≤ ys.e i) ∧ (∀ i < AC.nr, 0 ≤ ys.e (AC.nr + i)) ∧
      r = Real.sqrt (lpRes f AC bd ys.e (fun i => ys.e (AC.nr + i)) x.e) ∧
      (∀ δ, NnlsWithin L δ → ∀ y s x' : ℕ → ℝ, (∀ i < AC.nr, 0 ≤ y i) → (∀ i < AC.nr, 0 ≤ s i) →
        r ≤ Real.sqrt (lpRes f AC bd y s x') + δ) ∧
      (Spec.HasConstr A C → Pnnls.linear_program L f A b C d tol = .ok (if r < tol then
        ⟨some (Spec.lpCost f x), some x, some (whereGt (mulIneq A ys) tol), some (mulIneq A ys),
          mulEq A q ys⟩ else Sol.none)) ∧
      (¬ Spec.HasConstr A C → Pnnls.linear_program L f A b C d tol = .error .runtimeError) := by
  obtain ⟨q, AC, bd, hst, hS⟩ := stackEqualities_ok hs
  have hb : bd.n = AC.nr := by rw [hS.bn, hS.nr]
  have hf' : f.n = AC.nc := by rw [hS.nc, hf]
  obtain ⟨ys, x, r, h1, h2, h3, h4, h5, h6, h7⟩ := lp_core_sound hL hb hf'
  refine ⟨q, AC, bd, ys, x, r, hS, h3.trans hS.nc, h2, h4, h5, h6, h7, fun hc => ?_, fun hc => ?_⟩
  rotate_left
  · rw [← hS.hasConstr] at hc
    unfold Pnnls.linear_program
    simp only [hst, Py.ok_bind]
    rw [← hS.nr, lpData_ok hb hf']
    simp only [Py.ok_bind, lp_core_none_sound hL hb hf' (by omega), Py.error_bind]
  have h1 := h1 (hS.hasConstr.2 hc)
  have hle : A.nr + 2 * q ≤ ys.n := by rw [h2, hS.nr]; omega
  unfold Pnnls.linear_program
  simp only [hst, Py.ok_bind]
  rw [← hS.nr, lpData_ok hb hf']
  simp only [Py.ok_bind, h1]
  by_cases hr : r < tol
  · simp only [if_pos hr]
    have e1 : np.dotVV f x = .ok (Spec.lpCost f x) := if_pos (by rw [h3, hf'])
    rw [e1, slice_mulIneq A ys (by omega)]
    simp only [Py.ok_bind]
    by_cases hq : q > 0
    · have e2 : np.addV (ys.slice A.nr (A.nr + q)) (ys.slice (A.nr + q) (A.nr + 2 * q)).neg
          = .ok ⟨q, fun i => ys.e (A.nr + i) + -(ys.e (A.nr + q + i))⟩ := by
        have : (ys.slice A.nr (A.nr + q)).n = (ys.slice (A.nr + q) (A.nr + 2 * q)).neg.n := by
          simp; omega
        rw [np.addV, if_pos this]
        have hq' : (ys.slice A.nr (A.nr + q)).n = q := by simp; omega
        simp only [Vec.add, hq']
        rfl
      rw [← hS.nr] at e2
      simp only [if_pos hq, e2, Py.ok_bind, mulEq]
      rfl
    · simp only [if_neg hq, mulEq]
      rfl
  · simp only [if_neg hr]; rfl

end Verif
