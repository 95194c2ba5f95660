import Verif.Props.InexactQp
import Verif.Props.MpQPLipschitz
import Verif.Props.MpcExponential
import Mathlib.Analysis.Normed.Module.FiniteDimension

/- C173: the multiparametric quadratic programs of `/repo/pympc/optimization/parametric_programs.py` when
`scipy.optimize.nnls` stops before the minimum. -/
namespace Verif.Spec.ParamQP
open Finset

/-- derivative of the cost with respect to `u_j` -/
def grad (nu nx : ℕ) (P : ParamQP) (u x : ℕ → ℝ) (j : ℕ) : ℝ :=
  ∑ k ∈ range nu, P.Huu.e j k * u k + ∑ k ∈ range nx, P.Hux.e j k * x k + P.fu.e j

end Verif.Spec.ParamQP

namespace Verif.Props
open Finset Verif.MpQP

variable {nu nx : ℕ}

/-- coefficients of independent gradients are bounded by a multiple of the combination -/
theorem licq_bound {P : Spec.ParamQP} {a : List ℕ} (h : P.Licq nu a) : ∃ κ, 0 ≤ κ ∧ ∀ w : ℕ → ℝ,
    ∑ k ∈ range a.length, |w k| ≤ κ * ∑ j ∈ range nu, |∑ k ∈ range a.length, w k * P.Au.e (a.getD k 0) j| := by
  set M : Matrix (Fin nu) (Fin a.length) ℝ := fun j k => P.Au.e (a.getD k 0) j with hM
  have hval : ∀ (w : Fin a.length → ℝ) (j : Fin nu), M.mulVecLin w j = ∑ k, w k * P.Au.e (a.getD k 0) j := by
    intro w j
    rw [Matrix.mulVecLin_apply, Matrix.mulVec, dotProduct]
    exact Finset.sum_congr rfl fun k _ => mul_comm _ _
  have hker : LinearMap.ker M.mulVecLin = ⊥ := by
    rw [LinearMap.ker_eq_bot']
    intro w hw
    have := h (fun k => if hk : k < a.length then w ⟨k, hk⟩ else 0) fun j hj => by
      have e := congrFun hw ⟨j, hj⟩
      rw [hval] at e
      rw [← Fin.sum_univ_eq_sum_range (fun k => (if hk : k < a.length then w ⟨k, hk⟩ else 0) * P.Au.e (a.getD k 0) j)]
      simpa using e
    funext k
    simpa using this k k.2
  obtain ⟨K, hK0, hK⟩ := LinearMap.exists_antilipschitzWith _ hker
  refine ⟨a.length * K, by positivity, fun w => ?_⟩
  set w' : Fin a.length → ℝ := fun k => w k with hw'
  have h1 : ‖w'‖ ≤ K * ‖M.mulVecLin w'‖ := by
    have := hK.le_mul_dist w' 0
    simpa [dist_eq_norm] using this
  have hS0 : 0 ≤ ∑ j ∈ range nu, |∑ k ∈ range a.length, w k * P.Au.e (a.getD k 0) j| := Finset.sum_nonneg fun _ _ => abs_nonneg _
  have h2 : ‖M.mulVecLin w'‖ ≤ ∑ j ∈ range nu, |∑ k ∈ range a.length, w k * P.Au.e (a.getD k 0) j| := by
    rw [pi_norm_le_iff_of_nonneg hS0]
    intro j
    rw [hval, Real.norm_eq_abs, Fin.sum_univ_eq_sum_range (fun k => w k * P.Au.e (a.getD k 0) j)]
    exact Finset.single_le_sum (f := fun j => |∑ k ∈ range a.length, w k * P.Au.e (a.getD k 0) j|) (fun _ _ => abs_nonneg _) (mem_range.2 j.2)
  have h3 : ∀ k ∈ range a.length, |w k| ≤ K * ∑ j ∈ range nu, |∑ k ∈ range a.length, w k * P.Au.e (a.getD k 0) j| := fun k hk =>
    ((norm_le_pi_norm w' ⟨k, mem_range.1 hk⟩).trans h1).trans (mul_le_mul_of_nonneg_left h2 hK0.le)
  have := Finset.sum_le_card_nsmul _ _ _ h3
  rw [card_range, nsmul_eq_mul] at this
  linarith

/-- multipliers can be chosen bounded by a multiple of the gradient of the cost -/
theorem kkt_bounded (P : Spec.ParamQP) : ∃ κ, 0 ≤ κ ∧ ∀ u p x : ℕ → ℝ, P.KKT nu nx u p x →
    ∃ p', P.KKT nu nx u p' x ∧ ∑ i ∈ range P.Au.nr, p' i ≤ κ * ∑ j ∈ range nu, |P.grad nu nx u x j| := by
  classical
  have hex : ∀ s : Finset ℕ, ∃ κ, 0 ≤ κ ∧ (P.Licq nu (s.sort (· ≤ ·)) → ∀ w : ℕ → ℝ,
      ∑ k ∈ range (s.sort (· ≤ ·)).length, |w k| ≤ κ * ∑ j ∈ range nu, |∑ k ∈ range (s.sort (· ≤ ·)).length, w k * P.Au.e ((s.sort (· ≤ ·)).getD k 0) j|) := by
    intro s
    by_cases h : P.Licq nu (s.sort (· ≤ ·))
    · obtain ⟨κ, h0, h1⟩ := licq_bound h
      exact ⟨κ, h0, fun _ => h1⟩
    · exact ⟨0, le_rfl, fun h' => absurd h' h⟩
  choose κ hκ0 hκ using hex
  refine ⟨∑ s ∈ (range P.Au.nr).powerset, κ s, Finset.sum_nonneg fun s _ => hκ0 s, fun u p x h => ?_⟩
  obtain ⟨s, h1, h2, -, p', h4, h5⟩ := kkt_licq h
  refine ⟨p', h4, ?_⟩
  have hmem : ∀ i, i ∈ s.sort (· ≤ ·) ↔ i ∈ s := fun i => s.mem_sort _
  have hget : ∀ i ∈ s, (s.sort (· ≤ ·)).getD ((s.sort (· ≤ ·)).idxOf i) 0 = i := by
    intro i hi
    have h := List.idxOf_lt_length_iff.2 ((hmem i).2 hi)
    rw [List.getD_eq_getElem _ _ h]
    exact List.getElem_idxOf h
  have hsum : ∀ f : ℕ → ℝ, ∑ k ∈ range (s.sort (· ≤ ·)).length, p' ((s.sort (· ≤ ·)).getD k 0) * f ((s.sort (· ≤ ·)).getD k 0) = ∑ i ∈ range P.Au.nr, p' i * f i := by
    intro f
    rw [sum_sorted s (fun k => p' ((s.sort (· ≤ ·)).getD k 0)) f,
      ← Finset.sum_subset h1 fun i hi his => by rw [h5 i (mem_range.1 hi) his, zero_mul]]
    exact Finset.sum_congr rfl fun i hi => by rw [hget i hi]
  have hb := hκ s h2 fun k => p' ((s.sort (· ≤ ·)).getD k 0)
  have e1 : ∑ j ∈ range nu, |∑ k ∈ range (s.sort (· ≤ ·)).length, p' ((s.sort (· ≤ ·)).getD k 0) * P.Au.e ((s.sort (· ≤ ·)).getD k 0) j|
      = ∑ j ∈ range nu, |P.grad nu nx u x j| := by
    refine Finset.sum_congr rfl fun j hj => ?_
    rw [hsum fun i => P.Au.e i j]
    have := h4.stat j (mem_range.1 hj)
    unfold Spec.ParamQP.lagrangian at this
    rw [← abs_neg]
    congr 1
    unfold Spec.ParamQP.grad
    linarith
  have e2 : ∑ i ∈ range P.Au.nr, p' i ≤ ∑ k ∈ range (s.sort (· ≤ ·)).length, |p' ((s.sort (· ≤ ·)).getD k 0)| := by
    have := hsum fun _ => 1
    simp only [mul_one] at this
    rw [← this]
    exact Finset.sum_le_sum fun k _ => le_abs_self _
  rw [e1] at hb
  refine (e2.trans hb).trans (mul_le_mul_of_nonneg_right ?_ (Finset.sum_nonneg fun _ _ => abs_nonneg _))
  exact Finset.single_le_sum (f := κ) (fun s _ => hκ0 s) (Finset.mem_powerset.2 h1)

/-- C173: let `nnls` return a vector that satisfies the conditions of optimality up to `δ` and `ε < 1e-14`.  There is `κ`, which depends on the multiparametric program only, such that, wherever the
program is feasible, an answer `u` of `solve(x)` differs from the optimizer `v` by at most `κ (ε / t² + δ / t ‖∇‖₁)` (squared), for some `t > 1e-14 - ε`, where `∇` is the gradient of the cost at the
optimizer; its constraints are violated by at most `δ / t`, and the cost that it returns, which is the one of `u`, exceeds the optimal value by at most `ε / t²`. -/
theorem C173 (nu nx : ℕ) (q : MpQP) (hs : q.data.Shape nu nx) : ∃ κ, 0 ≤ κ ∧
    ∀ (L : Lib) (δ ε : ℝ), LibSound L → NnlsStops L δ ε → 0 ≤ δ → ε ≤ (1e-7 : ℝ) ^ 2 → ∀ (x : Vec ℝ) (s : Sol) (m : ℝ), x.n = nx → q.solve L x = .ok s → s.min = some m →
      ∃ u t, (1e-7 : ℝ) ^ 2 - ε < t ∧ 0 < t ∧ s.argmin = some u ∧ u.n = nu ∧ m = q.data.cost nu nx u.e x.e ∧
        (∀ i < q.Au.nr, q.data.lhs nu nx i u.e x.e ≤ q.b.e i + δ / t) ∧
        (∀ v, q.data.Feas nu nx v x.e → m ≤ q.data.cost nu nx v x.e + ε / t ^ 2) ∧
        ∀ v, q.data.Opt nu nx v x.e → (∑ j ∈ range nu, |u.e j - v j|) ^ 2 ≤ κ * (ε / t ^ 2 + δ / t * ∑ j ∈ range nu, |q.data.grad nu nx v x.e j|) := by
  obtain ⟨κ, hκ0, hκ⟩ := kkt_bounded (nu := nu) (nx := nx) q.data
  have hH := hs.Huu
  obtain ⟨l, hl, hlow⟩ := quad_lower_sum (n := nu) hH.nr hH.nc (fun x => by
    by_cases h : ∃ i < nu, x i ≠ 0
    · have := hH.pos x h
      unfold Spec.quad
      rw [hH.nr, hH.nc]
      exact this.le
    · push Not at h
      unfold Spec.quad
      rw [hH.nr, hH.nc]
      refine le_of_eq (Finset.sum_eq_zero fun i hi => Finset.sum_eq_zero fun j _ => ?_).symm
      rw [h i (mem_range.1 hi)]
      ring) (fun x h => by
    unfold Spec.quad
    rw [hH.nr, hH.nc]
    exact hH.pos x h)
  refine ⟨(1 + κ) / l, by positivity, fun L δ ε hL hN hδ hε x s m hx hrun hm => ?_⟩
  have s6 : q.fx.n = nx := hs.fx
  have s3 : q.Hxx.nr = nx := hs.Hxx_nr
  have s4 : q.Hxx.nc = nx := hs.Hxx_nc
  rw [solve_program hs hx] at hrun
  obtain ⟨s', hq, hlift⟩ := Py.bind_eq_ok hrun
  cases hm' : s'.min with
  | none =>
    unfold liftMin at hlift
    simp only [hm'] at hlift
    cases hlift
    rw [hm'] at hm
    cases hm
  | some m' =>
    obtain ⟨u, lam, t, ht, ht0, k1, k2, k3, -, -, -, k4, -, k5, k6⟩ := C170 L hL δ ε hN nu q.Huu (linAt q.data nu nx x.e) q.Au (rhsAt q.data nx x.e) none none
      hH rfl (shapeAt hs x.e) 1e-7 (by norm_num) hε s' m' hq hm'
    have k5' : np.dotVM x q.Hxx = .ok _ := if_pos (hx.trans s3.symm)
    have k6' : np.dotVV (Mat.vecMul x q.Hxx) x = .ok _ := if_pos (s4.trans hx.symm)
    have k7' : np.dotVV q.fx x = .ok _ := if_pos (s6.trans hx.symm)
    have hoff : 1 / 2 * (Mat.vecMul x q.Hxx).dot x + q.fx.dot x + q.g = offAt q.data nx x.e := by
      unfold offAt Vec.dot
      rw [Mat.vecMul_n, s4, s6]
      congr 3
      rw [Finset.sum_comm]
      refine Finset.sum_congr rfl fun j _ => ?_
      rw [Mat.vecMul_e, hx, Finset.sum_mul]
      rfl
    unfold liftMin at hlift
    simp only [hm'] at hlift
    rw [k5', Py.ok_bind, k6', Py.ok_bind, k7', Py.ok_bind, hoff] at hlift
    cases hlift
    have hm2 : m = q.data.cost nu nx u.e x.e := by
      have e : m' + offAt q.data nx x.e = m := by simpa using hm
      rw [cost_eq hs, ← e, k3]
      rfl
    refine ⟨u, t, ht, ht0, k1, k2, hm2, fun i hi => ?_, fun v hv => ?_, fun v hv => ?_⟩
    · have := k4.1 i hi
      unfold rhsAt at this
      rw [show q.Au.nc = nu from hs.Au] at this
      unfold Spec.ParamQP.lhs
      simp only [MpQP.data] at this ⊢
      linarith
    · have a1 := k5 ⟨nu, v⟩ ((feas_iff hs ⟨nu, v⟩ x.e).1 hv)
      have a2 : 0 ≤ Spec.distSq q.Huu v u.e := by
        have := hlow fun i => v i - u.e i
        exact le_trans (by positivity) this
      have a3 := cost_eq hs ⟨nu, v⟩ x.e
      have a4 := cost_eq hs u x.e
      simp only [MpQP.data] at a1 a3 a4 hm2 ⊢
      linarith
    · obtain ⟨p, hp⟩ := kkt_of_opt hs hv
      obtain ⟨p', hp', hb⟩ := hκ v p x.e hp
      obtain ⟨b1, b2⟩ := (kkt_iff hs ⟨nu, v⟩ ⟨q.Au.nr, p'⟩ rfl x.e).1 hp'
      have a1 := k6 ⟨nu, v⟩ ⟨q.Au.nr, p'⟩ none b1 b2
      have a2 : l * (∑ j ∈ range nu, |u.e j - v j|) ^ 2 ≤ Spec.distSq q.Huu u.e v := hlow fun i => u.e i - v i
      have hen : Spec.eqNorm none none = 0 := rfl
      simp only [hen, add_zero] at a1
      set gs := ∑ j ∈ range nu, |q.data.grad nu nx v x.e j| with hgs
      have hg0 : 0 ≤ gs := Finset.sum_nonneg fun _ _ => abs_nonneg _
      have hdt : 0 ≤ δ / t := by positivity
      have hε0 : 0 ≤ ε := (abs_nonneg _).trans (hN ⟨0, 0, fun _ _ => 0⟩ ⟨0, fun _ => 0⟩ rfl).2
      have hεt : 0 ≤ ε / t ^ 2 := by positivity
      have a3 := mul_le_mul_of_nonneg_left hb hdt
      have a4 : l * (∑ j ∈ range nu, |u.e j - v j|) ^ 2 ≤ ε / t ^ 2 + δ / t * (κ * gs) := by
        refine a2.trans (a1.trans ?_)
        have : q.data.Au.nr = q.Au.nr := rfl
        rw [this] at a3
        linarith
      rw [div_mul_eq_mul_div, le_div_iff₀ hl]
      have a5 : 0 ≤ κ * (ε / t ^ 2) := by positivity
      have a6 : 0 ≤ δ / t * gs := by positivity
      nlinarith

/-- C173, where `solve` answers: whatever nonnegative vector `nnls` returns, `solve(x)` does not raise if there is a constraint, and answers `None` only if every feasible `v` costs at least
`(1 / 1e-7² - 1) / 2` more than the unconstrained optimum `u0`. -/
theorem C173_answers (nu nx : ℕ) (q : MpQP) (hs : q.data.Shape nu nx) (hrows : 0 < q.Au.nr) (L : Lib) (hL : LibSound L) (x : Vec ℝ) (hx : x.n = nx) :
    ∃ s, q.solve L x = .ok s ∧ (s.min = none → s = Sol.none ∧ ∀ u0 v, (∀ u, q.data.cost nu nx u0 x.e ≤ q.data.cost nu nx u x.e) → q.data.Feas nu nx v x.e →
      (1 / (1e-7 : ℝ) ^ 2 - 1) / 2 ≤ q.data.cost nu nx v x.e - q.data.cost nu nx u0 x.e) := by
  have s6 : q.fx.n = nx := hs.fx
  have s3 : q.Hxx.nr = nx := hs.Hxx_nr
  have s4 : q.Hxx.nc = nx := hs.Hxx_nc
  obtain ⟨w, hw1, hw2, hw3⟩ := free_opt hs x.e
  obtain ⟨s, h1, h2, h3, -⟩ := C171 L hL nu q.Huu (linAt q.data nu nx x.e) q.Au (rhsAt q.data nx x.e) none none hs.Huu rfl (shapeAt hs x.e) (.inl hrows) 1e-7 (by norm_num) w
    fun j hj => by
      have := hw1 j hj
      unfold Spec.ParamQP.lagrangian at this
      unfold linAt
      simp only [zero_mul, Finset.sum_const_zero, add_zero] at this
      rw [← this, add_assoc]
      rfl
  rw [solve_program hs hx]
  have h1' : Pnnls.quadratic_program L q.Huu (linAt q.data nu nx x.e) q.Au (rhsAt q.data nx x.e) none none = .ok s := h1
  rw [h1', Py.ok_bind]
  unfold liftMin
  cases hm : s.min with
  | none =>
    refine ⟨s, rfl, fun _ => ⟨h2.1 hm, fun u0 v hu0 hv => ?_⟩⟩
    have a1 := h3 hm ⟨nu, v⟩ ((feas_iff hs ⟨nu, v⟩ x.e).1 hv)
    have a2 := hw2 v
    have a3 : Spec.distSq q.Huu v w = ∑ i ∈ range nu, ∑ j ∈ range nu, (v i - w i) * q.data.Huu.e i j * (v j - w j) := by
      unfold Spec.distSq
      rw [show q.Huu.nr = nu from hs.Huu.nr, show q.Huu.nc = nu from hs.Huu.nc]
      rfl
    have a4 := hu0 w
    rw [← a3] at a2
    simp only at a1
    linarith
  | some m =>
    have k5' : np.dotVM x q.Hxx = .ok _ := if_pos (hx.trans s3.symm)
    have k6' : np.dotVV (Mat.vecMul x q.Hxx) x = .ok _ := if_pos (s4.trans hx.symm)
    have k7' : np.dotVV q.fx x = .ok _ := if_pos (s6.trans hx.symm)
    simp only
    rw [k5', Py.ok_bind, k6', Py.ok_bind, k7', Py.ok_bind]
    exact ⟨_, rfl, fun h => by simp at h⟩

end Verif.Props
