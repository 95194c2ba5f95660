import Verif.Proofs.MpQP

/- The program at a fixed parameter is a quadratic program. -/
namespace Verif
open Finset Matrix Verif.Math Classical
namespace MpQP

/-- linear term of the cost at the parameter `x` -/
def linAt (P : Spec.ParamQP) (nu nx : ℕ) (x : ℕ → ℝ) : Vec ℝ :=
  ⟨nu, fun j => ∑ k ∈ range nx, P.Hux.e j k * x k + P.fu.e j⟩

/-- right-hand side at the parameter `x` -/
def rhsAt (P : Spec.ParamQP) (nx : ℕ) (x : ℕ → ℝ) : Vec ℝ :=
  ⟨P.b.n, fun i => P.b.e i - ∑ k ∈ range nx, P.Ax.e i k * x k⟩

/-- the part of the cost that does not depend on `u` -/
noncomputable def offAt (P : Spec.ParamQP) (nx : ℕ) (x : ℕ → ℝ) : ℝ :=
  1 / 2 * ∑ i ∈ range nx, ∑ j ∈ range nx, x i * P.Hxx.e i j * x j + ∑ j ∈ range nx, P.fx.e j * x j + P.g

variable {P : Spec.ParamQP} {nu nx : ℕ}

theorem cost_eq (hs : P.Shape nu nx) (u : Vec ℝ) (x : ℕ → ℝ) :
    P.cost nu nx u.e x = Spec.qpCost P.Huu (linAt P nu nx x) u + offAt P nx x := by
  unfold Spec.ParamQP.cost Spec.qpCost offAt linAt
  simp only [hs.Huu.nr, hs.Huu.nc]
  have e1 : ∑ i ∈ range nx, ∑ j ∈ range nu, x i * P.Hux.e j i * u.e j
      = ∑ i ∈ range nu, ∑ j ∈ range nx, u.e i * P.Hux.e i j * x j := by
    rw [Finset.sum_comm]
    exact Finset.sum_congr rfl fun i _ => Finset.sum_congr rfl fun j _ => by ring
  have e2 : ∑ j ∈ range nu, (∑ k ∈ range nx, P.Hux.e j k * x k + P.fu.e j) * u.e j
      = ∑ i ∈ range nu, ∑ j ∈ range nx, u.e i * P.Hux.e i j * x j + ∑ j ∈ range nu, P.fu.e j * u.e j := by
    rw [← Finset.sum_add_distrib]
    refine Finset.sum_congr rfl fun i _ => ?_
    rw [add_mul, Finset.sum_mul]
    congr 1
    exact Finset.sum_congr rfl fun j _ => by ring
  rw [e1, e2]
  ring

theorem feas_iff (hs : P.Shape nu nx) (u : Vec ℝ) (x : ℕ → ℝ) :
    P.Feas nu nx u.e x ↔ Spec.Feasible P.Au (rhsAt P nx x) none none u := by
  unfold Spec.ParamQP.Feas Spec.Feasible Spec.Ineqs Spec.ParamQP.lhs rhsAt Spec.Eqs
  simp only [and_true, hs.Au]
  refine forall_congr' fun i => forall_congr' fun _ => ?_
  exact le_sub_iff_add_le.symm

theorem opt_iff (hs : P.Shape nu nx) (u : Vec ℝ) (x : ℕ → ℝ) :
    P.Opt nu nx u.e x ↔ Spec.IsQpOpt P.Huu (linAt P nu nx x) P.Au (rhsAt P nx x) none none u := by
  unfold Spec.ParamQP.Opt Spec.IsQpOpt
  rw [feas_iff hs, cost_eq hs]
  refine and_congr Iff.rfl ⟨fun h u' hu' => ?_, fun h u' hu' => ?_⟩
  · have := h u'.e ((feas_iff hs u' x).2 hu')
    rw [cost_eq hs] at this
    linarith
  · have := h ⟨nu, u'⟩ ((feas_iff hs ⟨nu, u'⟩ x).1 hu')
    have e := cost_eq hs ⟨nu, u'⟩ x
    simp only at e
    rw [e]
    linarith

theorem shapeAt (hs : P.Shape nu nx) (x : ℕ → ℝ) :
    Spec.ConstrShape nu P.Au (rhsAt P nx x) none none := ⟨hs.Au, hs.b⟩

theorem kkt_iff (hs : P.Shape nu nx) (u p : Vec ℝ) (hp : p.n = P.Au.nr) (x : ℕ → ℝ) :
    P.KKT nu nx u.e p.e x ↔ Spec.Feasible P.Au (rhsAt P nx x) none none u ∧
      Spec.KKT (Spec.qpGrad P.Huu (linAt P nu nx x) u) P.Au (rhsAt P nx x) none u p none := by
  have e : ∀ j, P.lagrangian nu nx u.e x p.e j = Spec.qpGrad P.Huu (linAt P nu nx x) u j
      + ∑ i ∈ range P.Au.nr, p.e i * P.Au.e i j + Spec.eqGrad none none j := by
    intro j
    unfold Spec.ParamQP.lagrangian Spec.qpGrad linAt Spec.eqGrad
    rw [hs.Huu.nc]
    ring
  have e2 : ∀ i, P.b.e i - P.lhs nu nx i u.e x
      = (rhsAt P nx x).e i - ∑ j ∈ range P.Au.nc, P.Au.e i j * u.e j := by
    intro i
    unfold Spec.ParamQP.lhs rhsAt
    simp only [hs.Au]
    ring
  constructor
  · intro h
    refine ⟨(feas_iff hs u x).1 h.feas, hp, by simp, fun j hj => ?_, h.nonneg, fun i hi => ?_⟩
    · rw [← e]; exact h.stat j (hs.Au ▸ hj)
    · rw [← e2]; exact h.compl i hi
  · intro h
    refine ⟨(feas_iff hs u x).2 h.1, fun j hj => ?_, h.2.nonneg, fun i hi => ?_⟩
    · rw [e]; exact h.2.stat j (by rw [hs.Au]; exact hj)
    · rw [e2]; exact h.2.compl i hi

theorem qcost_asM {n : ℕ} {H : Mat ℝ} {f : Vec ℝ} (hr : H.nr = n) (hc : H.nc = n) (hf : f.n = n)
    (u : Vec ℝ) : Spec.qpCost H f u = qcost (H.asM n n) (f.asV n) (u.asV n) := by
  unfold Spec.qpCost qcost
  rw [dot_quad, hr, hc, hf, ← Fin.sum_univ_eq_sum_range (fun i => ∑ j ∈ range n, u.e i * H.e i j * u.e j)]
  congr 1
  · congr 1
    exact Finset.sum_congr rfl fun i _ =>
      (Fin.sum_univ_eq_sum_range (fun j => u.e i * H.e i j * u.e j) n).symm
  · exact (Fin.sum_univ_eq_sum_range (fun j => f.e j * u.e j) n).symm

/-- the KKT conditions are sufficient -/
theorem opt_of_kkt (hs : P.Shape nu nx) {u p x : ℕ → ℝ} (h : P.KKT nu nx u p x) :
    P.Opt nu nx u x ∧ ∀ u', P.Feas nu nx u' x → P.cost nu nx u' x ≤ P.cost nu nx u x →
      ∀ j < nu, u' j = u j := by
  have hpd := posDef_asM hs.Huu
  set U : Vec ℝ := ⟨nu, u⟩
  set Pm : Vec ℝ := ⟨P.Au.nr, p⟩
  obtain ⟨k1, k2⟩ := (kkt_iff hs U Pm rfl x).1 h
  have key : ∀ u' : ℕ → ℝ, P.Feas nu nx u' x → P.cost nu nx u x ≤ P.cost nu nx u' x ∧
      (P.cost nu nx u' x ≤ P.cost nu nx u x → ∀ j < nu, u' j = u j) := by
    intro u' hu'
    have f1 := (feas_iff hs ⟨nu, u'⟩ x).1 hu'
    have := kkt_opt hpd (f := (linAt P nu nx x).asV nu) (A := P.Au.asM P.Au.nr nu)
      (b := (rhsAt P nx x).asV P.Au.nr) (x := U.asV nu) (lam := Pm.asV P.Au.nr) ?_ ?_ ?_
      (x' := fun j : Fin nu => u' j) ?_
    · rw [show (fun j : Fin nu => u' j) = (⟨nu, u'⟩ : Vec ℝ).asV nu from rfl,
        ← qcost_asM hs.Huu.nr hs.Huu.nc rfl, ← qcost_asM hs.Huu.nr hs.Huu.nc rfl] at this
      have e1 := cost_eq hs U x
      have e2 := cost_eq hs ⟨nu, u'⟩ x
      simp only [U] at e1 e2 this
      rw [e1, e2]
      refine ⟨by linarith [this.1], fun hle j hj => ?_⟩
      exact congrFun (this.2 (by linarith)) ⟨j, hj⟩
    · funext j
      have := k2.stat j (by rw [hs.Au]; exact j.2)
      simp only [Pi.add_apply, Pi.zero_apply]
      rw [← this]
      unfold Spec.qpGrad Spec.eqGrad
      rw [hs.Huu.nc, show U.asV nu = fun k : Fin nu => u k from rfl, asM_mulVec_fin, add_zero]
      congr 1
      rw [← Fin.sum_univ_eq_sum_range (fun i => Pm.e i * P.Au.e i j)]
      show ∑ i : Fin P.Au.nr, P.Au.e (i : ℕ) (j : ℕ) * p i = _
      exact Finset.sum_congr rfl fun i _ => mul_comm _ _
    · intro i; exact k2.nonneg i i.2
    · intro i
      have := k2.compl i i.2
      rw [show U.asV nu = fun k : Fin nu => u k from rfl, asM_mulVec_fin]
      rw [hs.Au] at this
      exact this
    · intro i
      rw [asM_mulVec_fin]
      have := f1.1 i i.2
      rw [hs.Au] at this
      exact this
  exact ⟨⟨h.feas, fun u' hu' => (key u' hu').1⟩, fun u' hu' => (key u' hu').2⟩

/-- the quadratic program that `solve` sets up -/
theorem solve_program {L : Lib} {q : MpQP} (hs : q.data.Shape nu nx) {x : Vec ℝ} (hx : x.n = nx) :
    q.solve L x = (Pnnls.quadratic_program L q.Huu (linAt q.data nu nx x.e) q.Au
      (rhsAt q.data nx x.e) none none >>= fun sol => q.liftMin x sol) := by
  have s2 : q.Hux.nc = nx := hs.Hux_nc
  have s1 : q.Hux.nr = nu := hs.Hux_nr
  have s5 : q.fu.n = nu := hs.fu
  have s6 : q.fx.n = nx := hs.fx
  have s8 : q.Ax.nc = nx := hs.Ax
  have s9 : q.Ax.nr = q.Au.nr := hs.rows
  have s10 : q.b.n = q.Au.nr := hs.b
  have s3 : q.Hxx.nr = nx := hs.Hxx_nr
  have s4 : q.Hxx.nc = nx := hs.Hxx_nc
  have k1 : np.dotMV q.Hux x = .ok _ := if_pos (s2.trans hx.symm)
  have k2 : np.addV (q.Hux.mulVec x) q.fu = .ok _ := if_pos (s1.trans s5.symm)
  have k3 : np.dotMV q.Ax x = .ok _ := if_pos (s8.trans hx.symm)
  have k4 : np.subV q.b (q.Ax.mulVec x) = .ok _ := if_pos (s10.trans s9.symm)
  have e1 : (q.Hux.mulVec x).add q.fu = linAt q.data nu nx x.e := by
    unfold linAt
    rw [← s2, ← s1]
    rfl
  have e2 : q.b.sub (q.Ax.mulVec x) = rhsAt q.data nx x.e := by
    unfold rhsAt
    rw [← s8]
    rfl
  unfold solve
  rw [k1, Py.ok_bind, k2, Py.ok_bind, k3, Py.ok_bind, k4, Py.ok_bind, e1, e2]
  rfl

/-- without inequalities the solver raises -/
theorem solve_no_rows {L : Lib} (hL : LibSpec L) {q : MpQP} (hs : q.data.Shape nu nx) (hrows : q.Au.nr = 0) {x : Vec ℝ}
    (hx : x.n = nx) : q.solve L x = .error .runtimeError := by
  obtain ⟨_, _, _, _, _, _, _, -, -, -, -, -, -, -, -, h⟩ := qp_run hL hs.Huu (f := linAt q.data nu nx x.e) rfl (shapeAt hs x.e) 1e-7
  have h' : Pnnls.quadratic_program L q.Huu (linAt q.data nu nx x.e) q.Au (rhsAt q.data nx x.e) none none
      = .error .runtimeError := h (by
    rintro (h | ⟨C', h, -⟩)
    · exact absurd h (by rw [show q.data.Au.nr = 0 from hrows]; omega)
    · cases h)
  rw [solve_program hs hx, h']
  rfl

/-- what `solve` computes -/
theorem solve_run {L : Lib} (hL : LibSpec L) {q : MpQP} (hs : q.data.Shape nu nx) (hrows : 0 < q.Au.nr) {x : Vec ℝ}
    (hx : x.n = nx) :
    (q.solve L x = .ok Sol.none ∧
      Pnnls.quadratic_program L q.Huu (linAt q.data nu nx x.e) q.Au (rhsAt q.data nx x.e) none none
        = .ok Sol.none) ∨
    ∃ u lam : Vec ℝ, ∃ mu, q.solve L x
        = .ok ⟨some (q.data.cost nu nx u.e x.e), some u, some (whereGt lam 1e-7), some lam, mu⟩ ∧
      u.n = nu ∧ lam.n = q.Au.nr ∧ q.data.KKT nu nx u.e lam.e x.e ∧
      Pnnls.quadratic_program L q.Huu (linAt q.data nu nx x.e) q.Au (rhsAt q.data nx x.e) none none
        ≠ .ok Sol.none := by
  have s6 : q.fx.n = nx := hs.fx
  have s3 : q.Hxx.nr = nx := hs.Hxx_nr
  have s4 : q.Hxx.nc = nx := hs.Hxx_nc
  have hrun := solve_program (L := L) hs hx
  rcases qp_answer hL hs.Huu (f := linAt q.data nu nx x.e) rfl (shapeAt hs x.e) (.inl hrows) (tol := 1e-7)
    (by norm_num) with h | ⟨u, lam, mu, h1, h2, h3, h4, h5⟩
  · left
    refine ⟨?_, h⟩
    have h' : Pnnls.quadratic_program L q.Huu (linAt q.data nu nx x.e) q.Au (rhsAt q.data nx x.e)
      none none = .ok Sol.none := h
    rw [hrun, h']
    rfl
  · right
    have h1' : Pnnls.quadratic_program L q.Huu (linAt q.data nu nx x.e) q.Au (rhsAt q.data nx x.e)
      none none = .ok ⟨some (Spec.qpCost q.data.Huu (linAt q.data nu nx x.e) u), some u,
        some (whereGt lam 1e-7), some lam, mu⟩ := h1
    have k5 : np.dotVM x q.Hxx = .ok _ := if_pos (hx.trans s3.symm)
    have k6 : np.dotVV (Mat.vecMul x q.Hxx) x = .ok _ := if_pos (s4.trans hx.symm)
    have k7 : np.dotVV q.fx x = .ok _ := if_pos (s6.trans hx.symm)
    have hoff : 1 / 2 * (Mat.vecMul x q.Hxx).dot x + q.fx.dot x + q.g = offAt q.data nx x.e := by
      unfold offAt Vec.dot
      rw [Mat.vecMul_n, s4, s6]
      congr 3
      rw [Finset.sum_comm]
      refine Finset.sum_congr rfl fun j _ => ?_
      rw [Mat.vecMul_e, hx, Finset.sum_mul]
      rfl
    refine ⟨u, lam, mu, ?_, h2, h5.size, (kkt_iff hs u lam h5.size x.e).2 ⟨h3.1, ?_⟩,
      by rw [h1']; simp [Sol.none]⟩
    · rw [hrun, h1', Py.ok_bind, cost_eq hs]
      unfold liftMin
      simp only
      rw [k5, Py.ok_bind, k6, Py.ok_bind, k7, Py.ok_bind, hoff]
      rfl
    · refine ⟨h5.size, by simp, fun j hj => ?_, h5.nonneg, h5.compl⟩
      exact h5.stat j hj

end MpQP
end Verif
