import Verif.Props.Controllable
import Verif.Math.Lqr
import Verif.Proofs.QP

/- The linear quadratic regulator: C53 of properties.jsonl. -/
namespace Verif.Props
open Dyn Spec Finset Matrix

/-- the contract of `scipy.linalg.solve_discrete_are` on the given data: a result is a symmetric positive semidefinite
solution of the discrete algebraic Riccati equation -/
def DareSpec (nx nu : ℕ) (A B Q R : Mat ℝ) (P : Mat ℝ) : Prop :=
  SymMat nx P ∧ (∀ x, 0 ≤ quad P x) ∧
  let A' := A.asM nx nx
  let B' := B.asM nx nu
  let P' := P.asM nx nx
  P' = Q.asM nx nx + A'ᵀ * P' * A' - A'ᵀ * P' * B' * (B'ᵀ * P' * B' + R.asM nu nu)⁻¹ * (B'ᵀ * P' * A')

theorem quad_asM {n : ℕ} {M : Mat ℝ} (h1 : M.nr = n) (h2 : M.nc = n) (x : ℕ → ℝ) :
    quad M x = (fun i : Fin n => x i) ⬝ᵥ M.asM n n *ᵥ (fun i : Fin n => x i) := by
  unfold quad
  rw [h1, h2, Finset.sum_range]
  simp only [dotProduct, mulVec, Finset.mul_sum, Finset.sum_range, Mat.asM_apply, mul_assoc]

theorem sym_asM {n : ℕ} {M : Mat ℝ} (h : SymMat n M) : (M.asM n n)ᵀ = M.asM n n := by
  funext i j
  exact h.2.2 j j.2 i i.2

/-- C53: for a controllable system, a symmetric positive definite `R` and a solution `P` of the Riccati
equation, `solve_dare` returns `P` and a gain `K` such that for every initial state, horizon and input sequence the cost
with terminal weight `P` is at least `1/2 x0 P x0`, with equality exactly when `u = K x` at every time.  Uncontrollable systems
raise `ValueError`; an exception of the Riccati solver is passed on. -/
theorem C53 (nx nu : ℕ) (A B Q R : Mat ℝ) (hA1 : A.nr = nx) (hA2 : A.nc = nx) (hB1 : B.nr = nx) (hB2 : B.nc = nu)
    (hnx : 0 < nx) (hnu : 0 < nu) (hR : SymMat nu R) (hRpos : ∀ u, (∃ s < nu, u s ≠ 0) → 0 < quad R u)
    (dare : Mat ℝ → Mat ℝ → Mat ℝ → Mat ℝ → Py (Mat ℝ)) (hQ : Q.nr = nx ∧ Q.nc = nx)
    (hdare : ∀ P, dare A B Q R = .ok P → DareSpec nx nu A B Q R P) :
    (¬ Steerable nx A B nx → (LinearSystem.solve_dare dare Q R ⟨A, B, nx, nu, none⟩).1 = .error .valueError) ∧
    (Steerable nx A B nx → ∀ e, dare A B Q R = .error e →
      (LinearSystem.solve_dare dare Q R ⟨A, B, nx, nu, none⟩).1 = .error e) ∧
    (Steerable nx A B nx → ∀ P, dare A B Q R = .ok P → ∃ K : Mat ℝ,
      (LinearSystem.solve_dare dare Q R ⟨A, B, nx, nu, none⟩).1 = .ok (P, K) ∧ K.nr = nu ∧ K.nc = nx ∧
      ∀ (x0 : ℕ → ℝ) (u : ℕ → ℕ → ℝ) (N : ℕ),
        let x := Spec.traj (fun _ => A) (fun _ => B) (fun _ => Vec.zeros nx) x0 u
        1 / 2 * quad P x0 ≤ lqCost Q R P x u N ∧
        (lqCost Q R P x u N = 1 / 2 * quad P x0 ↔ ∀ t < N, ∀ s < nu, u t s = rowVal K s (x t))) := by
  obtain ⟨b, hb1, -, hb3, -⟩ := C52 nx nu A B hA1 hA2 hB1 hB2 hnx hnu
  refine ⟨?_, ?_, ?_⟩
  · intro h
    have : b = false := by rw [← Bool.not_eq_true]; exact fun hb => h (hb3.1 hb)
    subst this
    unfold LinearSystem.solve_dare
    simp only [PyM.bind_apply, hb1]
    rfl
  · intro h e he
    have : b = true := hb3.2 h
    subst this
    unfold LinearSystem.solve_dare
    simp only [PyM.bind_apply, hb1]
    simp only [not_true_eq_false, if_false, PyM.bind_apply, PyM.get_apply, PyM.lift_apply, he]
  · intro h P hP
    have : b = true := hb3.2 h
    subst this
    obtain ⟨hPs, hPpos, hric⟩ := hdare P hP
    obtain ⟨p1, p2, -⟩ := hPs
    obtain ⟨q1, q2⟩ := hQ
    have hRs := sym_asM hR
    obtain ⟨s1, s2, -⟩ := hR
    set A' := A.asM nx nx with hA'
    set B' := B.asM nx nu with hB'
    set P' := P.asM nx nx with hP'
    set R' := R.asM nu nu with hR'
    set M' := B'ᵀ * P' * B' + R' with hM'
    have hRpos' : ∀ v : Fin nu → ℝ, v ≠ 0 → 0 < v ⬝ᵥ R' *ᵥ v := by
      intro v hv
      obtain ⟨i, hi⟩ := Function.ne_iff.1 hv
      have := hRpos (fun s => if h : s < nu then v ⟨s, h⟩ else 0) ⟨i, i.2, by simpa using hi⟩
      rw [quad_asM s1 s2] at this
      simpa using this
    have hMpos : ∀ v : Fin nu → ℝ, v ≠ 0 → 0 < v ⬝ᵥ M' *ᵥ v := by
      intro v hv
      rw [hM', add_mulVec, dotProduct_add, Matrix.mul_assoc, ← mulVec_mulVec, dotProduct_mulVec, vecMul_transpose, ← mulVec_mulVec]
      have h1 := hPpos (fun s => if h : s < nx then (B' *ᵥ v) ⟨s, h⟩ else 0)
      rw [quad_asM p1 p2] at h1
      have h1' : 0 ≤ (B' *ᵥ v) ⬝ᵥ P' *ᵥ (B' *ᵥ v) := by simpa using h1
      linarith [hRpos' v hv]
    have hdet : M'.det ≠ 0 := by
      intro h0
      obtain ⟨v, hv, hv0⟩ := Matrix.exists_mulVec_eq_zero_iff.2 h0
      have := hMpos v hv
      rw [hv0, dotProduct_zero] at this
      exact lt_irrefl _ this
    -- the gain
    set BP := B.T.mul P with hBP
    have g1 : np.dotMM B.T P = .ok BP := if_pos (by show B.nr = P.nr; omega)
    have g2 : np.dotMM BP B = .ok (BP.mul B) := if_pos (by show P.nc = B.nr; omega)
    have g3 : np.addM (BP.mul B) R = .ok ((BP.mul B).add R) := if_pos ⟨by show B.nc = R.nr; omega, by show B.nc = R.nc; omega⟩
    have hMM : ((BP.mul B).add R).asM nu nu = M' := by
      rw [Mat.asM_add, Mat.asM_mul _ _ _ _ (show BP.nc = nx from p2), hBP, Mat.asM_mul _ _ _ _ (show B.T.nc = nx from hB1), Mat.asM_T]
    have g4 : np.inv ((BP.mul B).add R) = .ok (Mat.ofM M'⁻¹) := by
      rw [np_inv_ok (A := (BP.mul B).add R) (n := nu) hB2 hB2 (by rw [hMM]; exact hdet), hMM]
    have g5 : np.dotMM (Mat.ofM M'⁻¹) B.T = .ok ((Mat.ofM M'⁻¹).mul B.T) := if_pos (by show nu = B.nc; omega)
    have g6 : np.dotMM ((Mat.ofM M'⁻¹).mul B.T) P = .ok (((Mat.ofM M'⁻¹).mul B.T).mul P) := if_pos (by show B.nr = P.nr; omega)
    have g7 : np.dotMM (((Mat.ofM M'⁻¹).mul B.T).mul P) A = .ok ((((Mat.ofM M'⁻¹).mul B.T).mul P).mul A) :=
      if_pos (by show P.nc = A.nr; omega)
    set K := ((((Mat.ofM M'⁻¹).mul B.T).mul P).mul A).neg with hK
    have hgain : (⟨A, B, nx, nu, some true⟩ : LinearSystem).gain P R = .ok K := by
      unfold LinearSystem.gain
      simp only [g1, g2, g3, g4, g5, g6, g7, Py.ok_bind]
      rfl
    have hK' : K.asM nu nx = -(M'⁻¹ * B'ᵀ * P' * A') := by
      rw [hK, Mat.asM_neg, Mat.asM_mul _ _ _ _ (show (((Mat.ofM M'⁻¹).mul B.T).mul P).nc = nx from p2),
        Mat.asM_mul _ _ _ _ (show ((Mat.ofM M'⁻¹).mul B.T).nc = nx from hB1),
        Mat.asM_mul _ _ _ _ (show (Mat.ofM M'⁻¹).nc = nu from rfl), Mat.asM_T, Mat.ofM_asM]
    have k1 : K.nr = nu := rfl
    have k2 : K.nc = nx := hA2
    refine ⟨K, ?_, k1, k2, fun x0 u N => ?_⟩
    · unfold LinearSystem.solve_dare
      simp only [PyM.bind_apply, hb1]
      simp only [not_true_eq_false, if_false, PyM.bind_apply, PyM.get_apply, PyM.lift_apply, hP, hgain]
      rfl
    · intro x
      -- deviations from the optimal input
      set δ : ℕ → Fin nu → ℝ := fun t s => u t s - rowVal K s (x t) with hδ
      have hstep : ∀ t, quad Q (x t) + quad R (u t) + quad P (x (t + 1)) = quad P (x t) + δ t ⬝ᵥ M' *ᵥ δ t := by
        intro t
        have := Math.riccati_step (A := A') (P := P') (Q := Q.asM nx nx) (B := B') (R := R')
          (sym_asM (hdare P hP).1) hRs hdet hric (fun i : Fin nx => x t i) (fun i : Fin nu => u t i)
        simp only [← hM', ← hK'] at this
        have hx1 : (fun i : Fin nx => x (t + 1) i) = A' *ᵥ (fun i : Fin nx => x t i) + B' *ᵥ (fun i : Fin nu => u t i) := by
          funext i
          show Spec.affine A B (Vec.zeros nx) (x t) (u t) i = _
          simp only [Spec.affine, Pi.add_apply, mulVec, dotProduct, hA', hB', Mat.asM_apply]
          rw [hA2, hB2, Finset.sum_range, Finset.sum_range]
          exact add_zero _
        have hd : δ t = (fun i : Fin nu => u t i) - K.asM nu nx *ᵥ (fun i : Fin nx => x t i) := by
          funext s
          simp only [hδ, Pi.sub_apply, mulVec, dotProduct, Mat.asM_apply, rowVal]
          rw [k2, Finset.sum_range]
        rw [quad_asM q1 q2, quad_asM s1 s2, quad_asM p1 p2, quad_asM p1 p2, hx1, hd]
        exact this
      have hsum : ∀ N, lqCost Q R P x u N = 1 / 2 * quad P x0 + 1 / 2 * ∑ t ∈ range N, δ t ⬝ᵥ M' *ᵥ δ t := by
        intro N
        unfold lqCost
        induction N with
        | zero => simp [x, Spec.traj]
        | succ N ih =>
          rw [Finset.sum_range_succ, Finset.sum_range_succ]
          have := hstep N
          linarith
      have hnn : ∀ t, 0 ≤ δ t ⬝ᵥ M' *ᵥ δ t := by
        intro t
        by_cases h0 : δ t = 0
        · rw [h0, zero_dotProduct]
        · exact (hMpos _ h0).le
      have hz : (∀ t < N, ∀ s < nu, u t s = rowVal K s (x t)) ↔ ∀ t ∈ range N, δ t ⬝ᵥ M' *ᵥ δ t = 0 := by
        refine ⟨fun h t ht => ?_, fun h t ht s hs => ?_⟩
        · have : δ t = 0 := by
            funext s
            simp only [hδ, Pi.zero_apply]
            rw [h t (mem_range.1 ht) s s.2, sub_self]
          rw [this, zero_dotProduct]
        · have h0 : δ t = 0 := by
            by_contra hne
            have := hMpos _ hne
            rw [h t (mem_range.2 ht)] at this
            exact lt_irrefl _ this
          have := congrFun h0 ⟨s, hs⟩
          simp only [hδ, Pi.zero_apply] at this
          linarith
      rw [hsum N, hz, ← Finset.sum_eq_zero_iff_of_nonneg (fun t _ => hnn t)]
      have := Finset.sum_nonneg (s := range N) (fun t _ => hnn t)
      exact ⟨by linarith, by constructor <;> intro h <;> linarith⟩

/-- the hypotheses are met by `x⁺ = x + u` with `Q = 1/2`, `R = 1`, whose Riccati equation is solved by `P = 1` -/
example : DareSpec 1 1 ⟨1, 1, fun _ _ => 1⟩ ⟨1, 1, fun _ _ => 1⟩ ⟨1, 1, fun _ _ => 1 / 2⟩ ⟨1, 1, fun _ _ => 1⟩
    ⟨1, 1, fun _ _ => 1⟩ ∧ Steerable 1 ⟨1, 1, fun _ _ => 1⟩ ⟨1, 1, fun _ _ => 1⟩ 1 := by
  refine ⟨⟨⟨rfl, rfl, fun _ _ _ _ => rfl⟩, fun x => ?_, ?_⟩, fun x y => ⟨fun _ _ => y 0 - x 0, fun i hi => ?_⟩⟩
  · simp only [quad, Finset.sum_range_one, mul_one]
    exact mul_self_nonneg _
  · intro A' B' P'
    funext i j
    fin_cases i; fin_cases j
    simp [A', B', P', Matrix.mul_apply, Matrix.add_apply]
    norm_num
  · have hi : i < 1 := hi
    interval_cases i
    simp [Spec.traj, Spec.affine]

end Verif.Props
