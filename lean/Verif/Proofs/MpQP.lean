import Verif.Model.MpQP
import Mathlib.Data.List.GetD
import Verif.Spec.MpQp
import Verif.Math.MpQp
import Verif.Proofs.Drake
import Verif.Props.PolyhedronSets

/- Evaluation of the explicit solution of a multiparametric quadratic program. -/
namespace Verif
open Finset Matrix Verif.Math Classical

namespace MpQP

/-- the data of the program -/
def data (q : MpQP) : Spec.ParamQP := ⟨q.Huu, q.Hux, q.Hxx, q.fu, q.fx, q.g, q.Au, q.Ax, q.b⟩

/-- the object comes from the constructor -/
def Made (q : MpQP) : Prop := MpQP.init q.Huu q.Hux q.Hxx q.fu q.fx q.g q.Au q.Ax q.b = .ok q

theorem Made.inv {q : MpQP} {nu nx : ℕ} (h : q.Made) (hs : q.data.Shape nu nx) :
    q.Huu_inv = Mat.ofM (q.Huu.asM nu nu)⁻¹ := by
  have hpd := posDef_asM hs.Huu
  have hu : (q.Huu.asM nu nu).det ≠ 0 := ((Matrix.isUnit_iff_isUnit_det _).1 hpd.isUnit).ne_zero
  have e := np_inv_ok (A := q.Huu) hs.Huu.nr hs.Huu.nc hu
  unfold Made init at h
  rw [e, Py.ok_bind] at h
  injection h with h
  exact (congrArg MpQP.Huu_inv h).symm

theorem init_made {nu nx : ℕ} {P : Spec.ParamQP} (hs : P.Shape nu nx) :
    ∃ q, MpQP.init P.Huu P.Hux P.Hxx P.fu P.fx P.g P.Au P.Ax P.b = .ok q ∧ q.Made ∧ q.data = P := by
  have hpd := posDef_asM hs.Huu
  have hu : (P.Huu.asM nu nu).det ≠ 0 := ((Matrix.isUnit_iff_isUnit_det _).1 hpd.isUnit).ne_zero
  have e := np_inv_ok (A := P.Huu) hs.Huu.nr hs.Huu.nc hu
  have h : MpQP.init P.Huu P.Hux P.Hxx P.fu P.fx P.g P.Au P.Ax P.b
      = .ok ⟨P.Huu, P.Hux, P.Hxx, Mat.ofM (P.Huu.asM nu nu)⁻¹, P.fu, P.fx, P.g, P.Au, P.Ax, P.b⟩ := by
    unfold init
    rw [e, Py.ok_bind]
    rfl
  exact ⟨_, h, h, rfl⟩

theorem licq_iff {nu nx : ℕ} {q : MpQP} (hs : q.data.Shape nu nx) (a : List ℕ) :
    q.data.Licq nu a ↔
      ∀ w : Fin a.length → ℝ, ((q.Au.rows a).asM a.length nu)ᵀ *ᵥ w = 0 → w = 0 := by
  constructor
  · intro h w hw
    have := h (Vec.ofFn w).e (fun j hj => by
      have := congrFun hw ⟨j, hj⟩
      simp only [mulVec, dotProduct, transpose_apply, Mat.asM_apply, Pi.zero_apply] at this
      rw [← Fin.sum_univ_eq_sum_range (fun k => (Vec.ofFn w).e k * q.data.Au.e (a.getD k 0) j), ← this]
      refine Finset.sum_congr rfl fun k _ => ?_
      rw [Vec.ofFn_e, mul_comm]
      rfl)
    funext k
    have := this k k.2
    rwa [Vec.ofFn_e] at this
  · intro h w hw k hk
    have := h (fun k => w k) (by
      funext j
      have := hw j j.2
      rw [← Fin.sum_univ_eq_sum_range (fun k => w k * q.data.Au.e (a.getD k 0) j)] at this
      simp only [mulVec, dotProduct, transpose_apply, Mat.asM_apply, Pi.zero_apply]
      rw [← this]
      refine Finset.sum_congr rfl fun k _ => ?_
      rw [mul_comm]
      rfl)
    exact congrFun this ⟨k, hk⟩

theorem rank_test {nu nx : ℕ} {q : MpQP} (hs : q.data.Shape nu nx) (a : List ℕ) :
    (0 < a.length ∧ np.matrix_rank (q.Au.rows a) < (q.Au.rows a).nr) ↔ ¬ q.data.Licq nu a := by
  have h : np.matrix_rank (q.Au.rows a) < (q.Au.rows a).nr ↔ ¬ q.data.Licq nu a := by
    rw [licq_iff hs a, ← rank_lt_iff, Fintype.card_fin]
    have : (q.Au.rows a).nc = nu := hs.Au
    unfold np.matrix_rank
    rw [Mat.rows_nr, this]
  rw [h]
  constructor
  · exact fun h => h.2
  · intro h'
    refine ⟨?_, h'⟩
    by_contra h0
    exact h' fun w _ k hk => absurd hk (by omega)

/-- the test of the independence; without decision variables the rank of the rows is not computed -/
theorem dependentRows_run {nu nx : ℕ} {q : MpQP} (hs : q.data.Shape nu nx) (a : List ℕ) :
    (0 < nu ∨ a = [] → ∃ d, dependentRows a (q.Au.rows a) = .ok d ∧ (d = true ↔ ¬ q.data.Licq nu a)) ∧
    (nu = 0 → a ≠ [] → dependentRows a (q.Au.rows a) = .error .valueError) := by
  have hc : (q.Au.rows a).nc = nu := hs.Au
  have ht := rank_test hs a
  unfold dependentRows np.rank
  rcases List.eq_nil_or_concat a with rfl | h
  · refine ⟨fun _ => ⟨false, rfl, ?_⟩, fun _ h => absurd rfl h⟩
    simp only [Bool.false_eq_true, false_iff, not_not]
    exact fun w _ k hk => absurd hk (by simp)
  · have hl : 0 < a.length := by obtain ⟨l, b, rfl⟩ := h; simp
    have hne : a ≠ [] := by rintro rfl; simp at hl
    rw [if_pos hl]
    refine ⟨fun hn => ?_, fun hn _ => ?_⟩
    · rw [if_neg (by
        rw [Mat.rows_nr, hc]
        have := hn.resolve_right hne
        omega)]
      refine ⟨_, rfl, ?_⟩
      rw [decide_eq_true_iff, ← ht]
      exact (and_iff_right hl).symm
    · rw [if_pos (by right; rw [hc, hn])]
      rfl

theorem licq_nodup {nu : ℕ} {P : Spec.ParamQP} {a : List ℕ} (h : P.Licq nu a) : a.Nodup := by
  rw [List.nodup_iff_injective_get]
  intro i j hij
  by_contra hne
  have := h (fun k => if k = i then 1 else if k = j then -1 else 0) (fun l _ => by
    have e : ∀ k ∈ range a.length, (if k = (i : ℕ) then (1 : ℝ) else if k = j then -1 else 0)
        * P.Au.e (a.getD k 0) l
        = (if k = (i : ℕ) then P.Au.e (a.getD i 0) l else 0)
          + (if k = (j : ℕ) then - P.Au.e (a.getD i 0) l else 0) := by
      intro k _
      have hij' : (i : ℕ) ≠ j := fun h => hne (Fin.ext h)
      have hg : a.getD (j : ℕ) 0 = a.getD (i : ℕ) 0 := by
        simp only [List.getD, List.getElem?_eq_getElem i.2, List.getElem?_eq_getElem j.2,
          Option.getD_some]
        exact hij.symm
      by_cases h1 : k = i
      · subst h1; simp [hij']
      · by_cases h2 : k = j
        · subst h2; rw [if_neg h1, if_pos rfl, if_neg h1, if_pos rfl, hg]; ring
        · simp [h1, h2]
    rw [Finset.sum_congr rfl e, Finset.sum_add_distrib, Finset.sum_ite_eq', Finset.sum_ite_eq',
      if_pos (mem_range.2 i.2), if_pos (mem_range.2 j.2)]
    ring) i i.2
  simp at this

/-! ### the formulas -/

variable (q : MpQP) (a : List ℕ)

noncomputable def fM : Mat ℝ :=
  Mat.ofM ((((q.Au.rows a).mul q.Huu_inv).mul (q.Au.rows a).T).asM a.length a.length)⁻¹
noncomputable def fPax : Mat ℝ :=
  (q.fM a).mul ((q.Ax.rows a).sub (((q.Au.rows a).mul q.Huu_inv).mul q.Hux))
noncomputable def fPa0 : Vec ℝ :=
  ((q.fM a).mulVec ((q.b.take a).add (((q.Au.rows a).mul q.Huu_inv).mulVec q.fu))).neg
noncomputable def fUx : Mat ℝ := (q.Huu_inv.mul (q.Hux.add ((q.Au.rows a).T.mul (q.fPax a)))).neg
noncomputable def fU0 : Vec ℝ :=
  (q.Huu_inv.mulVec (q.fu.add ((q.Au.rows a).T.mulVec (q.fPa0 a)))).neg
noncomputable def fAcr : Mat ℝ :=
  (q.fPax a).neg.vapp (((q.Au.rows (q.inactive a)).mul (q.fUx a)).add (q.Ax.rows (q.inactive a)))
noncomputable def fBcr : Vec ℝ :=
  (q.fPa0 a).append ((q.b.take (q.inactive a)).sub ((q.Au.rows (q.inactive a)).mulVec (q.fU0 a)))
noncomputable def fVxx : Mat ℝ :=
  ((((q.fUx a).T.mul q.Huu).mul (q.fUx a)).add ((q.Hux.T.mul (q.fUx a)).smul 2)).add q.Hxx
noncomputable def fVx : Vec ℝ :=
  (((((q.fUx a).T.mul q.Huu.T).add q.Hux.T).mulVec (q.fU0 a)).add ((q.fUx a).T.mulVec q.fu)).add q.fx
noncomputable def fV0 : ℝ :=
  1 / 2 * (Mat.vecMul (q.fU0 a) q.Huu).dot (q.fU0 a) + q.fu.dot (q.fU0 a) + q.g
noncomputable def fCr : CritReg :=
  ⟨a, q.fUx a, q.fU0 a, scatterM q.Ax.nr q.Ax.nc a (q.fPax a), scatterV q.Ax.nr a (q.fPa0 a),
    q.fVxx a, q.fVx a, q.fV0 a,
    (Poly.fresh (q.fAcr a) (q.fBcr a) (Mat.zeros 0 (q.fAcr a).nc) (Vec.zeros 0)).normalize⟩

variable {q a}

theorem inactive_lt {i : ℕ} (h : i ∈ q.inactive a) : i < q.Ax.nr ∧ i ∉ a := by
  simpa [inactive] using h

theorem explicit_none {nu nx : ℕ} (hs : q.data.Shape nu nx) (hnu : 0 < nu) (ha : ∀ i ∈ a, i < q.Au.nr)
    (hl : ¬ q.data.Licq nu a) : q.explicit_solve_given_active_set a = .ok none := by
  have e1 : np.rows q.Au a = .ok (q.Au.rows a) := if_pos ha
  unfold explicit_solve_given_active_set
  obtain ⟨d, hd, hd'⟩ := (dependentRows_run hs a).1 (.inl hnu)
  rw [e1, Py.ok_bind, hd, Py.ok_bind, if_pos (hd'.2 hl)]
  rfl

/-- without decision variables the independence of active constraints is not decided -/
theorem explicit_no_inputs {nx : ℕ} (hs : q.data.Shape 0 nx) (ha : ∀ i ∈ a, i < q.Au.nr) (h : a ≠ []) :
    q.explicit_solve_given_active_set a = .error .valueError := by
  have e1 : np.rows q.Au a = .ok (q.Au.rows a) := if_pos ha
  unfold explicit_solve_given_active_set
  rw [e1, Py.ok_bind, (dependentRows_run hs a).2 rfl h]
  rfl

theorem fDet {nu nx : ℕ} (hm : q.Made) (hs : q.data.Shape nu nx) (hl : q.data.Licq nu a) :
    (((q.Au.rows a).mul q.Huu_inv).mul (q.Au.rows a).T).asM a.length a.length
      = (q.Au.rows a).asM a.length nu * (q.Huu.asM nu nu)⁻¹ * ((q.Au.rows a).asM a.length nu)ᵀ ∧
    IsUnit ((q.Au.rows a).asM a.length nu * (q.Huu.asM nu nu)⁻¹
      * ((q.Au.rows a).asM a.length nu)ᵀ).det := by
  have hc : (q.Au.rows a).nc = nu := hs.Au
  have hi : q.Huu_inv.nc = nu := by rw [hm.inv hs]; rfl
  refine ⟨?_, kkt_det (posDef_asM hs.Huu) ((licq_iff hs a).1 hl)⟩
  rw [Mat.asM_mul _ _ _ _ (n := nu) (by exact hi), Mat.asM_mul _ _ _ _ hc, hm.inv hs, Mat.ofM_asM]
  rfl

theorem explicit_some {nu nx : ℕ} (hm : q.Made) (hs : q.data.Shape nu nx) (ha : ∀ i ∈ a, i < q.Au.nr)
    (hl : q.data.Licq nu a) : q.explicit_solve_given_active_set a = .ok (some (q.fCr a)) := by
  have s1 : q.Hux.nr = nu := hs.Hux_nr
  have s2 : q.Hux.nc = nx := hs.Hux_nc
  have s3 : q.Hxx.nr = nx := hs.Hxx_nr
  have s4 : q.Hxx.nc = nx := hs.Hxx_nc
  have s5 : q.fu.n = nu := hs.fu
  have s6 : q.fx.n = nx := hs.fx
  have s7 : q.Au.nc = nu := hs.Au
  have s8 : q.Ax.nc = nx := hs.Ax
  have s9 : q.Ax.nr = q.Au.nr := hs.rows
  have s10 : q.b.n = q.Au.nr := hs.b
  have s11 : q.Huu.nr = nu := hs.Huu.nr
  have s12 : q.Huu.nc = nu := hs.Huu.nc
  have i1 : q.Huu_inv.nr = nu := by rw [hm.inv hs]; rfl
  have i2 : q.Huu_inv.nc = nu := by rw [hm.inv hs]; rfl
  have hin : ∀ i ∈ q.inactive a, i < q.Au.nr := fun i hi => s9 ▸ (inactive_lt hi).1
  obtain ⟨d1, d2⟩ := fDet hm hs hl
  have e1 : np.rows q.Au a = .ok (q.Au.rows a) := if_pos ha
  have e2 : np.rows q.Au (q.inactive a) = .ok (q.Au.rows (q.inactive a)) := if_pos hin
  have e3 : np.rows q.Ax a = .ok (q.Ax.rows a) := if_pos (by rw [s9]; exact ha)
  have e4 : np.rows q.Ax (q.inactive a) = .ok (q.Ax.rows (q.inactive a)) := if_pos (by rw [s9]; exact hin)
  have e5 : np.take q.b a = .ok (q.b.take a) := if_pos (by rw [s10]; exact ha)
  have e6 : np.take q.b (q.inactive a) = .ok (q.b.take (q.inactive a)) := if_pos (by rw [s10]; exact hin)
  have e7 : q.multipliers (q.Au.rows a) (q.Ax.rows a) (q.b.take a) = .ok (q.fPax a, q.fPa0 a) := by
    have k1 : np.dotMM (q.Au.rows a) q.Huu_inv = .ok ((q.Au.rows a).mul q.Huu_inv) :=
      if_pos (s7.trans i1.symm)
    have k2 : np.dotMM ((q.Au.rows a).mul q.Huu_inv) (q.Au.rows a).T = .ok _ :=
      if_pos (i2.trans s7.symm)
    have k3 : np.inv (((q.Au.rows a).mul q.Huu_inv).mul (q.Au.rows a).T) = .ok (q.fM a) :=
      np_inv_ok (n := a.length) rfl rfl (by rw [d1]; exact d2.ne_zero)
    have k4 : np.dotMM ((q.Au.rows a).mul q.Huu_inv) q.Hux = .ok _ := if_pos (i2.trans s1.symm)
    have k5 : np.subM (q.Ax.rows a) (((q.Au.rows a).mul q.Huu_inv).mul q.Hux) = .ok _ :=
      if_pos ⟨rfl, s8.trans s2.symm⟩
    have k6 : np.dotMM (q.fM a) ((q.Ax.rows a).sub (((q.Au.rows a).mul q.Huu_inv).mul q.Hux)) = .ok _ :=
      if_pos rfl
    have k7 : np.dotMV ((q.Au.rows a).mul q.Huu_inv) q.fu = .ok _ := if_pos (i2.trans s5.symm)
    have k8 : np.addV (q.b.take a) (((q.Au.rows a).mul q.Huu_inv).mulVec q.fu) = .ok _ := if_pos rfl
    have k9 : np.dotMV (q.fM a) ((q.b.take a).add (((q.Au.rows a).mul q.Huu_inv).mulVec q.fu)) = .ok _ :=
      if_pos rfl
    unfold multipliers
    rw [k1, Py.ok_bind, k2, Py.ok_bind, k3, Py.ok_bind, k4, Py.ok_bind, k5, Py.ok_bind, k6, Py.ok_bind,
      k7, Py.ok_bind, k8, Py.ok_bind, k9, Py.ok_bind]
    rfl
  have p1 : (q.fPax a).nc = nx := s8
  have e8 : q.primal (q.Au.rows a) (q.fPax a) (q.fPa0 a) = .ok (q.fUx a, q.fU0 a) := by
    have k1 : np.dotMM (q.Au.rows a).T (q.fPax a) = .ok _ := if_pos rfl
    have k2 : np.addM q.Hux ((q.Au.rows a).T.mul (q.fPax a)) = .ok _ :=
      if_pos ⟨s1.trans s7.symm, s2.trans p1.symm⟩
    have k3 : np.dotMM q.Huu_inv (q.Hux.add ((q.Au.rows a).T.mul (q.fPax a))) = .ok _ :=
      if_pos (i2.trans s1.symm)
    have k4 : np.dotMV (q.Au.rows a).T (q.fPa0 a) = .ok _ := if_pos rfl
    have k5 : np.addV q.fu ((q.Au.rows a).T.mulVec (q.fPa0 a)) = .ok _ := if_pos (s5.trans s7.symm)
    have k6 : np.dotMV q.Huu_inv (q.fu.add ((q.Au.rows a).T.mulVec (q.fPa0 a))) = .ok _ :=
      if_pos (i2.trans s5.symm)
    unfold primal
    rw [k1, Py.ok_bind, k2, Py.ok_bind, k3, Py.ok_bind, k4, Py.ok_bind, k5, Py.ok_bind, k6, Py.ok_bind]
    rfl
  have u1 : (q.fUx a).nr = nu := i1
  have u2 : (q.fUx a).nc = nx := s2
  have u3 : (q.fU0 a).n = nu := i1
  have e9 : region (q.Au.rows (q.inactive a)) (q.Ax.rows (q.inactive a)) (q.b.take (q.inactive a))
      (q.fPax a) (q.fPa0 a) (q.fUx a) (q.fU0 a) = .ok (q.fCr a).polyhedron := by
    have k1 : np.dotMM (q.Au.rows (q.inactive a)) (q.fUx a) = .ok _ := if_pos (s7.trans u1.symm)
    have k2 : np.addM ((q.Au.rows (q.inactive a)).mul (q.fUx a)) (q.Ax.rows (q.inactive a)) = .ok _ :=
      if_pos ⟨rfl, u2.trans s8.symm⟩
    have k3 : np.vstack [(q.fPax a).neg,
        ((q.Au.rows (q.inactive a)).mul (q.fUx a)).add (q.Ax.rows (q.inactive a))] = .ok (q.fAcr a) :=
      if_pos (p1.trans u2.symm)
    have k4 : np.dotMV (q.Au.rows (q.inactive a)) (q.fU0 a) = .ok _ := if_pos (s7.trans u3.symm)
    have k5 : np.subV (q.b.take (q.inactive a)) ((q.Au.rows (q.inactive a)).mulVec (q.fU0 a)) = .ok _ :=
      if_pos rfl
    have k6 : np.concatenate [q.fPa0 a,
        (q.b.take (q.inactive a)).sub ((q.Au.rows (q.inactive a)).mulVec (q.fU0 a))]
        = .ok (q.fBcr a) := rfl
    have k7 : Poly.init (q.fAcr a) (.d1 (q.fBcr a))
        = .ok (Poly.fresh (q.fAcr a) (q.fBcr a) (Mat.zeros 0 (q.fAcr a).nc) (Vec.zeros 0)) := by
      have : Poly.sameNumberRows (q.fAcr a) (.d1 (q.fBcr a)) = .ok () :=
        if_neg (not_not.2 (show (q.fAcr a).nr = (q.fBcr a).n from rfl))
      unfold Poly.init
      rw [this]
      rfl
    unfold region
    rw [k1, Py.ok_bind, k2, Py.ok_bind, k3, Py.ok_bind, k4, Py.ok_bind, k5, Py.ok_bind, k6, Py.ok_bind,
      k7, Py.ok_bind]
    rfl
  have e10 : q.valueFunction (q.fUx a) (q.fU0 a) = .ok (q.fVxx a, q.fVx a, q.fV0 a) := by
    have k1 : np.dotMM (q.fUx a).T q.Huu = .ok _ := if_pos (u1.trans s11.symm)
    have k2 : np.dotMM ((q.fUx a).T.mul q.Huu) (q.fUx a) = .ok _ := if_pos (s12.trans u1.symm)
    have k3 : np.dotMM q.Hux.T (q.fUx a) = .ok _ := if_pos (s1.trans u1.symm)
    have k4 : np.addM (((q.fUx a).T.mul q.Huu).mul (q.fUx a)) ((q.Hux.T.mul (q.fUx a)).smul 2) = .ok _ :=
      if_pos ⟨u2.trans s2.symm, rfl⟩
    have k5 : np.addM ((((q.fUx a).T.mul q.Huu).mul (q.fUx a)).add ((q.Hux.T.mul (q.fUx a)).smul 2))
        q.Hxx = .ok _ := if_pos ⟨u2.trans s3.symm, u2.trans s4.symm⟩
    have k6 : np.dotMM (q.fUx a).T q.Huu.T = .ok _ := if_pos (u1.trans s12.symm)
    have k7 : np.addM ((q.fUx a).T.mul q.Huu.T) q.Hux.T = .ok _ :=
      if_pos ⟨u2.trans s2.symm, s11.trans s1.symm⟩
    have k8 : np.dotMV (((q.fUx a).T.mul q.Huu.T).add q.Hux.T) (q.fU0 a) = .ok _ :=
      if_pos (s11.trans u3.symm)
    have k9 : np.dotMV (q.fUx a).T q.fu = .ok _ := if_pos (u1.trans s5.symm)
    have k10 : np.addV ((((q.fUx a).T.mul q.Huu.T).add q.Hux.T).mulVec (q.fU0 a))
        ((q.fUx a).T.mulVec q.fu) = .ok _ := if_pos rfl
    have k11 : np.addV (((((q.fUx a).T.mul q.Huu.T).add q.Hux.T).mulVec (q.fU0 a)).add
        ((q.fUx a).T.mulVec q.fu)) q.fx = .ok _ := if_pos (u2.trans s6.symm)
    have k12 : np.dotVM (q.fU0 a) q.Huu = .ok _ := if_pos (u3.trans s11.symm)
    have k13 : np.dotVV (Mat.vecMul (q.fU0 a) q.Huu) (q.fU0 a) = .ok _ := if_pos (s12.trans u3.symm)
    have k14 : np.dotVV q.fu (q.fU0 a) = .ok _ := if_pos (s5.trans u3.symm)
    unfold valueFunction
    rw [k1, Py.ok_bind, k2, Py.ok_bind, k3, Py.ok_bind, k4, Py.ok_bind, k5, Py.ok_bind, k6, Py.ok_bind,
      k7, Py.ok_bind, k8, Py.ok_bind, k9, Py.ok_bind, k10, Py.ok_bind, k11, Py.ok_bind, k12, Py.ok_bind,
      k13, Py.ok_bind, k14, Py.ok_bind]
    rfl
  have hn : 0 < nu ∨ a = [] := by
    by_contra hn
    push Not at hn
    obtain ⟨h0, hne⟩ := hn
    have hl0 : 0 < a.length := List.length_pos_of_ne_nil hne
    have := hl (fun _ => 1) (fun j hj => absurd hj (by omega)) 0 hl0
    simp at this
  obtain ⟨dep, hd, hd'⟩ := (dependentRows_run hs a).1 hn
  unfold explicit_solve_given_active_set
  rw [e1, Py.ok_bind, hd, Py.ok_bind, if_neg (fun h => hd'.1 h hl), e2, Py.ok_bind, e3, Py.ok_bind, e4,
    Py.ok_bind, e5, Py.ok_bind, e6, Py.ok_bind, e7, Py.ok_bind]
  show (q.primal (q.Au.rows a) (q.fPax a) (q.fPa0 a) >>= _) = _
  rw [e8, Py.ok_bind]
  show (region _ _ _ (q.fPax a) (q.fPa0 a) (q.fUx a) (q.fU0 a) >>= _) = _
  rw [e9, Py.ok_bind, e10, Py.ok_bind]
  rfl

/-- `u(x)` -/
noncomputable def fu' (q : MpQP) (a : List ℕ) (nx : ℕ) (x : ℕ → ℝ) (j : ℕ) : ℝ :=
  ∑ k ∈ range nx, (q.fUx a).e j k * x k + (q.fU0 a).e j

/-- `p(x)` -/
noncomputable def fp' (q : MpQP) (a : List ℕ) (nx : ℕ) (x : ℕ → ℝ) (i : ℕ) : ℝ :=
  ∑ k ∈ range nx, (scatterM q.Ax.nr q.Ax.nc a (q.fPax a)).e i k * x k
    + (scatterV q.Ax.nr a (q.fPa0 a)).e i

theorem asM_mulVec_fin {m n : ℕ} (A : Mat ℝ) (x : ℕ → ℝ) (i : Fin m) :
    ((A.asM m n) *ᵥ fun k : Fin n => x k) i = ∑ k ∈ range n, A.e i k * x k := by
  rw [← Fin.sum_univ_eq_sum_range (fun k => A.e i k * x k)]
  rfl

theorem fp'_off (q : MpQP) {a : List ℕ} (nx : ℕ) (x : ℕ → ℝ) {i : ℕ} (hi : i ∉ a) : q.fp' a nx x i = 0 := by
  simp [fp', scatterM, scatterV, hi]

theorem fp'_getD (q : MpQP) {a : List ℕ} (hn : a.Nodup) (nx : ℕ) (x : ℕ → ℝ) {k : ℕ}
    (hk : k < a.length) :
    q.fp' a nx x (a.getD k 0) = ∑ j ∈ range nx, (q.fPax a).e k j * x j + (q.fPa0 a).e k := by
  have hmem : a.getD k 0 ∈ a := by rw [List.getD_eq_getElem _ _ hk]; exact List.getElem_mem _
  have hidx : a.idxOf (a.getD k 0) = k := by
    rw [List.getD_eq_getElem _ _ hk]; exact hn.idxOf_getElem _ _
  simp only [fp', scatterM, scatterV, if_pos hmem, hidx]

theorem fCr_kkt {nu nx : ℕ} (hm : q.Made) (hs : q.data.Shape nu nx) (ha : ∀ i ∈ a, i < q.Au.nr)
    (hl : q.data.Licq nu a) (x : ℕ → ℝ) :
    (∀ j < nu, q.data.lagrangian nu nx (q.fu' a nx x) x (q.fp' a nx x) j = 0) ∧
    (∀ i ∈ a, q.data.lhs nu nx i (q.fu' a nx x) x = q.b.e i) ∧
    ∀ u p : ℕ → ℝ, (∀ j < nu, q.data.lagrangian nu nx u x p j = 0) →
      (∀ i ∈ a, q.data.lhs nu nx i u x = q.b.e i) → (∀ i < q.Au.nr, i ∉ a → p i = 0) →
      (∀ j < nu, u j = q.fu' a nx x j) ∧ ∀ i < q.Au.nr, p i = q.fp' a nx x i := by
  have hn := licq_nodup hl
  have s1 : q.Hux.nr = nu := hs.Hux_nr
  have s7 : q.Au.nc = nu := hs.Au
  have i2 : q.Huu_inv.nc = nu := by rw [hm.inv hs]; rfl
  have hi : q.Huu_inv.asM nu nu = (q.Huu.asM nu nu)⁻¹ := by rw [hm.inv hs, Mat.ofM_asM]
  have s5 : q.fu.n = nu := hs.fu
  obtain ⟨d1, d2⟩ := fDet hm hs hl
  set E := (q.Au.rows a).asM a.length nu with hE
  set H := q.Huu.asM nu nu with hH
  have hHu : IsUnit H.det := (Matrix.isUnit_iff_isUnit_det _).1 (posDef_asM hs.Huu).isUnit
  have m1 : (q.fM a).asM a.length a.length = (E * H⁻¹ * Eᵀ)⁻¹ := by
    rw [fM, Mat.ofM_asM, d1]
  have m2 : ((q.Au.rows a).mul q.Huu_inv).asM a.length nu = E * H⁻¹ := by
    rw [Mat.asM_mul _ _ _ _ (n := nu) (by exact s7), hi]
  have m3 : (q.fPax a).asM a.length nx = kktPax E H⁻¹ (E * H⁻¹ * Eᵀ)⁻¹
      ((q.Ax.rows a).asM a.length nx) (q.Hux.asM nu nx) := by
    rw [fPax, Mat.asM_mul _ _ _ _ (n := a.length) rfl, m1, Mat.asM_sub,
      Mat.asM_mul _ _ _ _ (n := nu) (by exact i2), m2]
    rfl
  have m4 : (q.fPa0 a).asV a.length = kktPa0 E H⁻¹ (E * H⁻¹ * Eᵀ)⁻¹ ((q.b.take a).asV a.length)
      (q.fu.asV nu) := by
    have k1 : (((q.Au.rows a).mul q.Huu_inv).mulVec q.fu).asV a.length = (E * H⁻¹) *ᵥ q.fu.asV nu := by
      rw [Mat.asV_mulVec _ _ _ (n := nu) (by exact i2), m2]
    have k2 : ((q.b.take a).add (((q.Au.rows a).mul q.Huu_inv).mulVec q.fu)).asV a.length
        = (q.b.take a).asV a.length + (E * H⁻¹) *ᵥ q.fu.asV nu := by
      rw [← k1]; rfl
    have k3 : ((q.fM a).mulVec ((q.b.take a).add (((q.Au.rows a).mul q.Huu_inv).mulVec q.fu))).asV a.length
        = (E * H⁻¹ * Eᵀ)⁻¹ *ᵥ ((q.b.take a).asV a.length + (E * H⁻¹) *ᵥ q.fu.asV nu) := by
      rw [Mat.asV_mulVec _ _ _ (n := a.length) rfl, m1, k2]
    rw [kktPa0, ← k3]
    rfl
  have m5 : (q.fUx a).asM nu nx = kktUx E H⁻¹ (q.Hux.asM nu nx) ((q.fPax a).asM a.length nx) := by
    rw [fUx, Mat.asM_neg, Mat.asM_mul _ _ _ _ i2, hi, Mat.asM_add,
      Mat.asM_mul _ _ _ _ (n := a.length) rfl]
    rfl
  have m6 : (q.fU0 a).asV nu = kktU0 E H⁻¹ (q.fu.asV nu) ((q.fPa0 a).asV a.length) := by
    have k1 : ((q.Au.rows a).T.mulVec (q.fPa0 a)).asV nu = Eᵀ *ᵥ (q.fPa0 a).asV a.length := by
      rw [Mat.asV_mulVec _ _ _ (n := a.length) rfl]; rfl
    have k2 : (q.fu.add ((q.Au.rows a).T.mulVec (q.fPa0 a))).asV nu
        = q.fu.asV nu + Eᵀ *ᵥ (q.fPa0 a).asV a.length := by rw [← k1]; rfl
    have k3 : (q.Huu_inv.mulVec (q.fu.add ((q.Au.rows a).T.mulVec (q.fPa0 a)))).asV nu
        = H⁻¹ *ᵥ (q.fu.asV nu + Eᵀ *ᵥ (q.fPa0 a).asV a.length) := by
      rw [Mat.asV_mulVec _ _ _ i2, hi, k2]
    rw [kktU0, ← k3]
    rfl
  obtain ⟨K1, K2, K3⟩ := kkt_system (l := Fin nx) hHu d2 rfl m3 m4 m5 m6 (fun k => x k)
  have hU : (q.fUx a).asM nu nx *ᵥ (fun k : Fin nx => x k) + (q.fU0 a).asV nu
      = fun j : Fin nu => q.fu' a nx x j := by
    funext j
    rw [Pi.add_apply, asM_mulVec_fin]
    rfl
  have hP : (q.fPax a).asM a.length nx *ᵥ (fun k : Fin nx => x k) + (q.fPa0 a).asV a.length
      = fun k : Fin a.length => q.fp' a nx x (a.getD k 0) := by
    funext k
    rw [Pi.add_apply, asM_mulVec_fin, fp'_getD q hn nx x k.2]
    rfl
  rw [hU, hP] at K1 K3
  rw [hU] at K2
  -- translation of the Lagrangian and of the constraints
  have tL : ∀ (u p : ℕ → ℝ), (∀ i < q.Au.nr, i ∉ a → p i = 0) → ∀ j : Fin nu,
      (H *ᵥ (fun j : Fin nu => u j) + q.Hux.asM nu nx *ᵥ (fun k : Fin nx => x k) + q.fu.asV nu
        + Eᵀ *ᵥ fun k : Fin a.length => p (a.getD k 0)) j = q.data.lagrangian nu nx u x p j := by
    intro u p hp j
    simp only [Pi.add_apply]
    rw [asM_mulVec_fin, asM_mulVec_fin]
    unfold Spec.ParamQP.lagrangian
    congr 1
    have h1 := sum_range_eq_list hn ha (fun i => p i * q.Au.e i (j : ℕ))
      (fun i hi hia => by rw [hp i hi hia, zero_mul])
    refine Eq.trans ?_ h1
    rw [← Fin.sum_univ_eq_sum_range (fun k => p (a.getD k 0) * q.Au.e (a.getD k 0) j)]
    show ∑ k : Fin a.length, q.Au.e (a.getD (k : ℕ) 0) (j : ℕ) * p (a.getD (k : ℕ) 0) = _
    refine Finset.sum_congr rfl fun k _ => ?_
    rw [mul_comm]
  have tA : ∀ u : ℕ → ℝ, (E *ᵥ (fun j : Fin nu => u j) + (q.Ax.rows a).asM a.length nx *ᵥ
      (fun k : Fin nx => x k) = (q.b.take a).asV a.length) ↔
      ∀ i ∈ a, q.data.lhs nu nx i u x = q.b.e i := by
    intro u
    rw [funext_iff]
    constructor
    · intro h i hi
      obtain ⟨k, hk, rfl⟩ := List.getElem_of_mem hi
      have := h ⟨k, hk⟩
      rw [Pi.add_apply, asM_mulVec_fin, asM_mulVec_fin] at this
      simp only [Mat.rows, Vec.take, Vec.asV_apply, List.getD_eq_getElem _ _ hk] at this
      exact this
    · intro h k
      have := h _ (List.getElem_mem k.2)
      rw [Pi.add_apply, asM_mulVec_fin, asM_mulVec_fin]
      simp only [Mat.rows, Vec.take, Vec.asV_apply, List.getD_eq_getElem _ _ k.2]
      exact this
  refine ⟨fun j hj => ?_, (tA _).1 K2, fun u p h1 h2 h3 => ?_⟩
  · rw [← tL _ _ (fun i _ hia => fp'_off q nx x hia) ⟨j, hj⟩]
    exact congrFun K1 ⟨j, hj⟩
  · obtain ⟨r1, r2⟩ := K3 (fun j : Fin nu => u j) (fun k : Fin a.length => p (a.getD k 0))
      (by funext j; rw [tL u p h3 j]; exact h1 j j.2) ((tA u).2 h2)
    refine ⟨fun j hj => congrFun r1 ⟨j, hj⟩, fun i hi => ?_⟩
    by_cases hia : i ∈ a
    · obtain ⟨k, hk, rfl⟩ := List.getElem_of_mem hia
      have := congrFun r2 ⟨k, hk⟩
      simpa only [List.getD_eq_getElem _ _ hk] using this
    · rw [h3 i hi hia, fp'_off q nx x hia]

/-- the inequalities of the critical region that say that a multiplier is nonnegative -/
theorem fAcr_mul {nu nx : ℕ} (hs : q.data.Shape nu nx) (hl : q.data.Licq nu a) (x : ℕ → ℝ) {k : ℕ}
    (hk : k < a.length) :
    ∑ j ∈ range nx, (q.fAcr a).e k j * x j - (q.fBcr a).e k = - q.fp' a nx x (a.getD k 0) := by
  rw [fp'_getD q (licq_nodup hl) nx x hk]
  have e1 : ∀ j, (q.fAcr a).e k j = - (q.fPax a).e k j := fun j => Mat.vapp_e_lt _ _ _ hk
  have e2 : (q.fBcr a).e k = (q.fPa0 a).e k := Vec.append_e_lt _ _ hk
  simp only [e1, e2, neg_mul, Finset.sum_neg_distrib]
  ring

/-- the inequalities of the critical region that say that a constraint is satisfied -/
theorem fAcr_con {nu nx : ℕ} (hm : q.Made) (hs : q.data.Shape nu nx) (x : ℕ → ℝ) (k : ℕ) :
    ∑ j ∈ range nx, (q.fAcr a).e (a.length + k) j * x j - (q.fBcr a).e (a.length + k)
      = q.data.lhs nu nx ((q.inactive a).getD k 0) (q.fu' a nx x) x
        - q.b.e ((q.inactive a).getD k 0) := by
  have s7 : q.Au.nc = nu := hs.Au
  set i := (q.inactive a).getD k 0 with hi
  have e1 : ∀ j, (q.fAcr a).e (a.length + k) j
      = ∑ l ∈ range nu, q.Au.e i l * (q.fUx a).e l j + q.Ax.e i j := by
    intro j
    rw [← s7]
    exact Mat.vapp_e_add (q.fPax a).neg _ k j
  have e2 : (q.fBcr a).e (a.length + k) = q.b.e i - ∑ l ∈ range nu, q.Au.e i l * (q.fU0 a).e l := by
    rw [← s7]
    exact Vec.append_e_add (q.fPa0 a) _ k
  unfold Spec.ParamQP.lhs fu'
  simp only [e1, e2, add_mul, Finset.sum_add_distrib, mul_add, Finset.sum_mul, Finset.mul_sum]
  rw [Finset.sum_comm]
  show _ = ∑ l ∈ range nu, ∑ j ∈ range nx, q.Au.e i l * ((q.fUx a).e l j * x j)
    + ∑ l ∈ range nu, q.Au.e i l * (q.fU0 a).e l + ∑ j ∈ range nx, q.Ax.e i j * x j - q.b.e i
  have : ∀ l ∈ range nu, ∀ j ∈ range nx, q.Au.e i l * (q.fUx a).e l j * x j
      = q.Au.e i l * ((q.fUx a).e l j * x j) := fun l _ j _ => by ring
  rw [Finset.sum_congr rfl fun l hl => Finset.sum_congr rfl (this l hl)]
  ring

/-- the polyhedron of the region before it is normalized -/
noncomputable def fPoly (q : MpQP) (a : List ℕ) : Poly :=
  Poly.fresh (q.fAcr a) (q.fBcr a) (Mat.zeros 0 (q.fAcr a).nc) (Vec.zeros 0)

theorem fPoly_inv {nu nx : ℕ} (hs : q.data.Shape nu nx) : (q.fPoly a).Inv nx :=
  ⟨hs.Ax, rfl, hs.Ax, rfl⟩

theorem fCr_inv {nu nx : ℕ} (hs : q.data.Shape nu nx) : (q.fCr a).polyhedron.Inv nx :=
  (Props.C07 nx _ (fPoly_inv hs) 1e-7 (by norm_num)).1

theorem inactive_getD {k : ℕ} (hk : k < (q.inactive a).length) :
    (q.inactive a).getD k 0 < q.Ax.nr ∧ (q.inactive a).getD k 0 ∉ a := by
  rw [List.getD_eq_getElem _ _ hk]
  exact inactive_lt (List.getElem_mem hk)

theorem exists_inactive {i : ℕ} (hi : i < q.Ax.nr) (hia : i ∉ a) :
    ∃ k < (q.inactive a).length, (q.inactive a).getD k 0 = i := by
  have : i ∈ q.inactive a := by simp [inactive, hi, hia]
  obtain ⟨k, hk, h⟩ := List.getElem_of_mem this
  exact ⟨k, hk, by rw [List.getD_eq_getElem _ _ hk, h]⟩

theorem fCr_mem {nu nx : ℕ} (hm : q.Made) (hs : q.data.Shape nu nx) (hl : q.data.Licq nu a)
    (x : ℕ → ℝ) : (q.fCr a).polyhedron.Mem x ↔
      (∀ i ∈ a, 0 ≤ q.fp' a nx x i) ∧
      ∀ i < q.Au.nr, i ∉ a → q.data.lhs nu nx i (q.fu' a nx x) x ≤ q.b.e i := by
  have h1 := (Props.C07 nx _ (fPoly_inv (a := a) hs) 1e-7 (by norm_num)).2.2.2.1 x
  have h2 : (q.fCr a).polyhedron.Mem x ↔ (q.fPoly a).Mem x := h1
  have hnc : (q.fAcr a).nc = nx := hs.Ax
  have h3 : (q.fPoly a).Mem x ↔ ∀ k < a.length + (q.inactive a).length,
      ∑ j ∈ range nx, (q.fAcr a).e k j * x j ≤ (q.fBcr a).e k := by
    constructor
    · intro h k hk
      rw [← hnc]
      exact h.1 k hk
    · intro h
      refine ⟨fun k hk => ?_, fun k hk => absurd hk (Nat.not_lt_zero k)⟩
      show ∑ j ∈ range (q.fAcr a).nc, _ ≤ _
      rw [hnc]
      exact h k hk
  have hr : q.Ax.nr = q.Au.nr := hs.rows
  rw [h2, h3, forall_lt_add]
  refine and_congr ?_ ?_
  · constructor
    · intro h i hi
      obtain ⟨k, hk, rfl⟩ := List.getElem_of_mem hi
      have e1 := fAcr_mul hs hl x hk
      have e2 := h k hk
      rw [List.getD_eq_getElem _ _ hk] at e1
      linarith
    · intro h k hk
      have e1 := fAcr_mul hs hl x hk
      have e2 := h _ (List.getElem_mem hk)
      rw [List.getD_eq_getElem _ _ hk] at e1
      linarith
  · constructor
    · intro h i hi hia
      obtain ⟨k, hk, rfl⟩ := exists_inactive (hr ▸ hi) hia
      have e1 := fAcr_con (a := a) hm hs x k
      have e2 := h k hk
      linarith
    · intro h k hk
      have e1 := fAcr_con (a := a) hm hs x k
      obtain ⟨e2, e3⟩ := inactive_getD hk
      have e4 := h _ (hr ▸ e2) e3
      linarith

theorem fCr_u {nu nx : ℕ} (hm : q.Made) (hs : q.data.Shape nu nx) {x : Vec ℝ} (hx : x.n = nx) :
    ∃ u, (q.fCr a).u x = .ok u ∧ u.n = nu ∧ ∀ j, u.e j = q.fu' a nx x.e j := by
  have s2 : q.Hux.nc = nx := hs.Hux_nc
  have i1 : q.Huu_inv.nr = nu := by rw [hm.inv hs]; rfl
  have k1 : np.dotMV (q.fCr a).ux x = .ok _ := if_pos (s2.trans hx.symm)
  have k2 : np.addV ((q.fCr a).ux.mulVec x) (q.fCr a).u0 = .ok _ := if_pos rfl
  refine ⟨((q.fCr a).ux.mulVec x).add (q.fCr a).u0, ?_, i1, fun j => ?_⟩
  · unfold CritReg.u
    rw [k1, Py.ok_bind, k2]
  · rw [fu', ← s2]
    rfl

theorem fCr_p {nu nx : ℕ} (hs : q.data.Shape nu nx) {x : Vec ℝ} (hx : x.n = nx) :
    ∃ p, (q.fCr a).p x = .ok p ∧ p.n = q.Au.nr ∧ ∀ j, p.e j = q.fp' a nx x.e j := by
  have s2 : q.Ax.nc = nx := hs.Ax
  have k1 : np.dotMV (q.fCr a).px x = .ok _ := if_pos (s2.trans hx.symm)
  have k2 : np.addV ((q.fCr a).px.mulVec x) (q.fCr a).p0 = .ok _ := if_pos rfl
  refine ⟨((q.fCr a).px.mulVec x).add (q.fCr a).p0, ?_, hs.rows, fun j => ?_⟩
  · unfold CritReg.p
    rw [k1, Py.ok_bind, k2]
  · rw [fp', ← s2]
    rfl

theorem dot_quad {n : ℕ} (A : Matrix (Fin n) (Fin n) ℝ) (x : Fin n → ℝ) :
    x ⬝ᵥ (A *ᵥ x) = ∑ i, ∑ j, x i * A i j * x j := by
  simp only [dotProduct, mulVec, Finset.mul_sum]
  exact Finset.sum_congr rfl fun i _ => Finset.sum_congr rfl fun j _ => by ring

theorem dot_bilin {m n : ℕ} (A : Matrix (Fin m) (Fin n) ℝ) (y : Fin m → ℝ) (x : Fin n → ℝ) :
    y ⬝ᵥ (A *ᵥ x) = ∑ i, ∑ j, y i * A i j * x j := by
  simp only [dotProduct, mulVec, Finset.mul_sum]
  exact Finset.sum_congr rfl fun i _ => Finset.sum_congr rfl fun j _ => by ring

/-- the cost with matrices -/
theorem cost_asM {nu nx : ℕ} (P : Spec.ParamQP) (u x : ℕ → ℝ) :
    P.cost nu nx u x = 1 / 2 * ((fun j : Fin nu => u j) ⬝ᵥ (P.Huu.asM nu nu *ᵥ fun j : Fin nu => u j)
        + (fun j : Fin nu => u j) ⬝ᵥ (P.Hux.asM nu nx *ᵥ fun k : Fin nx => x k)
        + (fun k : Fin nx => x k) ⬝ᵥ ((P.Hux.asM nu nx)ᵀ *ᵥ fun j : Fin nu => u j)
        + (fun k : Fin nx => x k) ⬝ᵥ (P.Hxx.asM nx nx *ᵥ fun k : Fin nx => x k))
      + P.fu.asV nu ⬝ᵥ (fun j : Fin nu => u j) + P.fx.asV nx ⬝ᵥ (fun k : Fin nx => x k) + P.g := by
  have key : ∀ (m n : ℕ) (f : ℕ → ℕ → ℝ), ∑ i ∈ range m, ∑ j ∈ range n, f i j
      = ∑ i : Fin m, ∑ j : Fin n, f i j := by
    intro m n f
    rw [← Fin.sum_univ_eq_sum_range (fun i => ∑ j ∈ range n, f i j)]
    exact Finset.sum_congr rfl fun i _ => (Fin.sum_univ_eq_sum_range (fun j => f i j) n).symm
  have key1 : ∀ (m : ℕ) (f : ℕ → ℝ), ∑ i ∈ range m, f i = ∑ i : Fin m, f i := fun m f =>
    (Fin.sum_univ_eq_sum_range f m).symm
  simp only [dot_bilin]
  unfold Spec.ParamQP.cost
  simp only [key, key1]
  rfl

theorem fCr_V {nu nx : ℕ} (hm : q.Made) (hs : q.data.Shape nu nx) {x : Vec ℝ} (hx : x.n = nx) :
    (q.fCr a).V x = .ok (q.data.cost nu nx (q.fu' a nx x.e) x.e) := by
  have s1 : q.Hux.nr = nu := hs.Hux_nr
  have s2 : q.Hux.nc = nx := hs.Hux_nc
  have s5 : q.fu.n = nu := hs.fu
  have s11 : q.Huu.nr = nu := hs.Huu.nr
  have s12 : q.Huu.nc = nu := hs.Huu.nc
  have i1 : q.Huu_inv.nr = nu := by rw [hm.inv hs]; rfl
  have u1 : (q.fUx a).nr = nu := i1
  have u2 : (q.fUx a).nc = nx := s2
  have u3 : (q.fU0 a).n = nu := i1
  have v1 : (q.fVxx a).nr = nx := u2
  have v2 : (q.fVxx a).nc = nx := u2
  have v3 : (q.fVx a).n = nx := u2
  have hT : (q.Huu.asM nu nu)ᵀ = q.Huu.asM nu nu := by
    funext i j; exact hs.Huu.symm j j.2 i i.2
  have k1 : np.dotVM x (q.fVxx a) = .ok _ := if_pos (hx.trans v1.symm)
  have k2 : np.dotVV (Mat.vecMul x (q.fVxx a)) x = .ok _ := if_pos (v2.trans hx.symm)
  have k3 : np.dotVV (q.fVx a) x = .ok _ := if_pos (v3.trans hx.symm)
  have hrun : (q.fCr a).V x = .ok (1 / 2 * (Mat.vecMul x (q.fVxx a)).dot x + (q.fVx a).dot x + q.fV0 a) := by
    unfold CritReg.V
    rw [show (q.fCr a).Vxx = q.fVxx a from rfl, show (q.fCr a).Vx = q.fVx a from rfl,
      show (q.fCr a).V0 = q.fV0 a from rfl, k1, Py.ok_bind, k2, Py.ok_bind, k3, Py.ok_bind]
    rfl
  rw [hrun, cost_asM]
  have hU : (fun j : Fin nu => q.fu' a nx x.e j)
      = (q.fUx a).asM nu nx *ᵥ (x.asV nx) + (q.fU0 a).asV nu := by
    funext j
    rw [Pi.add_apply]
    show _ = ((q.fUx a).asM nu nx *ᵥ (fun k : Fin nx => x.e k)) j + _
    rw [asM_mulVec_fin]
    rfl
  have w1 : (Mat.vecMul x (q.fVxx a)).dot x = x.asV nx ⬝ᵥ ((q.fVxx a).asM nx nx *ᵥ x.asV nx) := by
    rw [Vec.dot_asV _ _ (n := nx) (by exact v2), Mat.asV_vecMul _ _ _ hx, dotProduct_mulVec]
  have w2 : (q.fVxx a).asM nx nx = ((q.fUx a).asM nu nx)ᵀ * q.Huu.asM nu nu * (q.fUx a).asM nu nx
      + (2 : ℝ) • ((q.Hux.asM nu nx)ᵀ * (q.fUx a).asM nu nx) + q.Hxx.asM nx nx := by
    rw [fVxx, Mat.asM_add, Mat.asM_add, Mat.asM_smul, Mat.asM_mul _ _ _ _ (n := nu) (by exact s12),
      Mat.asM_mul _ _ _ _ (n := nu) (by exact u1), Mat.asM_mul _ _ _ _ (n := nu) (by exact s1)]
    rfl
  have w3 : (q.fVx a).asV nx = (((q.fUx a).asM nu nx)ᵀ * (q.Huu.asM nu nu)ᵀ + (q.Hux.asM nu nx)ᵀ)
      *ᵥ (q.fU0 a).asV nu + ((q.fUx a).asM nu nx)ᵀ *ᵥ q.fu.asV nu + q.fx.asV nx := by
    have a1 : (((q.fUx a).T.mul q.Huu.T).add q.Hux.T).asM nx nu
        = ((q.fUx a).asM nu nx)ᵀ * (q.Huu.asM nu nu)ᵀ + (q.Hux.asM nu nx)ᵀ := by
      rw [Mat.asM_add, Mat.asM_mul _ _ _ _ (n := nu) (by exact u1)]
      rfl
    have a2 : ((((q.fUx a).T.mul q.Huu.T).add q.Hux.T).mulVec (q.fU0 a)).asV nx
        = (((q.fUx a).asM nu nx)ᵀ * (q.Huu.asM nu nu)ᵀ + (q.Hux.asM nu nx)ᵀ) *ᵥ (q.fU0 a).asV nu := by
      rw [Mat.asV_mulVec _ _ _ (n := nu) (by exact s11), a1]
    have a3 : ((q.fUx a).T.mulVec q.fu).asV nx = ((q.fUx a).asM nu nx)ᵀ *ᵥ q.fu.asV nu := by
      rw [Mat.asV_mulVec _ _ _ (n := nu) (by exact u1)]
      rfl
    rw [← a2, ← a3]
    rfl
  have w4 : q.fV0 a = 1 / 2 * ((q.fU0 a).asV nu ⬝ᵥ (q.Huu.asM nu nu *ᵥ (q.fU0 a).asV nu))
      + q.fu.asV nu ⬝ᵥ (q.fU0 a).asV nu + q.g := by
    rw [fV0, Vec.dot_asV _ _ (n := nu) (by exact s12), Mat.asV_vecMul _ _ _ u3, Vec.dot_asV _ _ s5,
      dotProduct_mulVec]
  have hX : (fun k : Fin nx => x.e k) = x.asV nx := rfl
  rw [hU, hX, w1, w2, Vec.dot_asV _ _ v3, w3, w4,
    kkt_value hT (q.Hux.asM nu nx) (q.Hxx.asM nx nx) (q.fu.asV nu) (q.fx.asV nx) q.g
      ((q.fUx a).asM nu nx) ((q.fU0 a).asV nu) (x.asV nx)]
  rfl

end MpQP
end Verif
