import Verif.Proofs.Condense
import Mathlib.LinearAlgebra.Matrix.Charpoly.Coeff
import Mathlib.LinearAlgebra.Matrix.Rank

/- Controllability: C52 of properties.jsonl. -/
namespace Verif.Props
open Dyn Spec Finset

/-- every state can be steered to every state in `N` steps of `x⁺ = A x + B u` -/
def Steerable (nx : ℕ) (A B : Mat ℝ) (N : ℕ) : Prop :=
  ∀ x y : ℕ → ℝ, ∃ u : ℕ → ℕ → ℝ, ∀ i < nx,
    Spec.traj (fun _ => A) (fun _ => B) (fun _ => Vec.zeros nx) x u N i = y i

theorem hstack_blocks {m n : ℕ} : ∀ {l : List (Mat ℝ)}, l ≠ [] → (∀ A ∈ l, A.nr = m ∧ A.nc = n) →
    ∃ M, np.hstack l = .ok M ∧ M.nr = m ∧ M.nc = n * l.length ∧
      ∀ t < l.length, ∀ i, ∀ j < n, M.e i (n * t + j) = (l.getD t mat0).e i j
  | [], h, _ => absurd rfl h
  | [A], _, h => ⟨A, rfl, (h A (by simp)).1, by simpa using (h A (by simp)).2, fun t ht i j hj => by
      have : t = 0 := by simpa using ht
      subst this
      simp⟩
  | A :: B :: l, _, h => by
    obtain ⟨M, h1, h2, h3, h4⟩ := hstack_blocks (l := B :: l) (by simp) (fun C hC => h C (by simp at hC ⊢; tauto))
    obtain ⟨hA1, hA2⟩ := h A (by simp)
    have e1 : np.hstack2 A M = .ok (A.happ M) := if_pos (by rw [hA1, h2])
    refine ⟨A.happ M, ?_, ?_, ?_, ?_⟩
    · show (np.hstack (B :: l) >>= fun C => np.hstack2 A C) = _
      rw [h1]; exact e1
    · simp [hA1]
    · simp [hA2, h3]; ring
    · intro t ht i j hj
      cases t with
      | zero =>
        rw [Nat.mul_zero, Nat.zero_add, Mat.happ_e_lt _ _ _ (by omega)]
        rfl
      | succ t =>
        rw [show n * (t + 1) + j = A.nc + (n * t + j) by rw [hA2]; ring, Mat.happ_e_add]
        exact h4 t (by simpa using ht) i j hj

theorem power_shape {A : Mat ℝ} {nx : ℕ} (h1 : A.nr = nx) (h2 : A.nc = nx) : ∀ k,
    (np.matrix_power A k).nr = nx ∧ (np.matrix_power A k).nc = nx
  | 0 => ⟨h1, h1⟩
  | k + 1 => ⟨h1, (power_shape h1 h2 k).2⟩

theorem power_asM {A : Mat ℝ} {nx : ℕ} (h1 : A.nr = nx) (h2 : A.nc = nx) : ∀ k,
    (np.matrix_power A k).asM nx nx = (A.asM nx nx) ^ k
  | 0 => by rw [pow_zero, np.matrix_power, h1]; exact Mat.asM_eye nx
  | k + 1 => by rw [np.matrix_power, Mat.asM_mul _ _ _ _ h2, power_asM h1 h2 k, pow_succ']

theorem rowVal_eye {nx : ℕ} {i : ℕ} (hi : i < nx) (x : ℕ → ℝ) : rowVal (Mat.eye nx) i x = x i := by
  unfold rowVal
  simp only [Mat.eye_nc, Mat.eye_e, ite_mul, one_mul, zero_mul]
  rw [Finset.sum_ite_eq, if_pos (mem_range.2 hi)]

/-- the explicit formula of the trajectory of a linear system -/
theorem traj_linear {nx nu : ℕ} {A B : Mat ℝ} (a1 : A.nr = nx) (a2 : A.nc = nx) (x : ℕ → ℝ)
    (u : ℕ → ℕ → ℝ) : ∀ N, ∀ i < nx, Spec.traj (fun _ => A) (fun _ => B) (fun _ => Vec.zeros nx) x u N i
      = rowVal (np.matrix_power A N) i x + ∑ k ∈ range N, rowVal (np.matrix_power A k) i (fun r => rowVal B r (u (N - 1 - k))) := by
  intro N
  induction N with
  | zero => intro i hi; simp [Spec.traj, np.matrix_power, a1, rowVal_eye hi]
  | succ N ih =>
    intro i hi
    have e1 : Spec.traj (fun _ => A) (fun _ => B) (fun _ => Vec.zeros nx) x u (N + 1) i
        = rowVal A i (Spec.traj (fun _ => A) (fun _ => B) (fun _ => Vec.zeros nx) x u N) + rowVal B i (u N) := add_zero _
    rw [e1, rowVal_congr' i (fun j hj => ih j (by omega)), rowVal_add', rowVal_sum, Finset.sum_range_succ']
    have e2 : rowVal (np.matrix_power A (N + 1)) i x = rowVal A i (fun k => rowVal (np.matrix_power A N) k x) :=
      rowVal_mul (by rw [a2, (power_shape a1 a2 N).1]) i x
    have e3 : ∀ k ∈ range N, rowVal (np.matrix_power A (k + 1)) i (fun r => rowVal B r (u (N + 1 - 1 - (k + 1))))
        = rowVal A i (fun j => rowVal (np.matrix_power A k) j (fun r => rowVal B r (u (N - 1 - k)))) := by
      intro k _
      rw [show N + 1 - 1 - (k + 1) = N - 1 - k by omega]
      exact rowVal_mul (by rw [a2, (power_shape a1 a2 k).1]) i _
    rw [e2, Finset.sum_congr rfl e3]
    have e4 : rowVal (np.matrix_power A 0) i (fun r => rowVal B r (u (N + 1 - 1 - 0))) = rowVal B i (u N) := by
      rw [np.matrix_power, a1, rowVal_eye hi]; rfl
    rw [e4]
    ring

/-- the products `y M` for the dual statement -/
theorem exists_left_null {m n : ℕ} (R : Matrix (Fin m) (Fin n) ℝ) (h : R.rank ≠ m) :
    ∃ v : Fin m → ℝ, v ≠ 0 ∧ Matrix.vecMul v R = 0 := by
  by_contra hcon
  push Not at hcon
  apply h
  have hinj : Function.Injective (Matrix.mulVecLin R.transpose) := by
    rw [← LinearMap.ker_eq_bot, LinearMap.ker_eq_bot']
    intro v hv
    by_contra hne
    exact hcon v hne (by rw [← Matrix.mulVec_transpose]; exact hv)
  rw [← Matrix.rank_transpose, Matrix.rank, LinearMap.finrank_range_of_inj hinj]
  simp

theorem surjective_of_rank {m n : ℕ} (R : Matrix (Fin m) (Fin n) ℝ) (h : R.rank = m) (y : Fin m → ℝ) :
    ∃ w, R.mulVec w = y := by
  have : LinearMap.range R.mulVecLin = ⊤ := by
    apply Submodule.eq_top_of_finrank_eq
    rw [← Matrix.rank, h]; simp
  obtain ⟨w, hw⟩ := LinearMap.range_eq_top.1 this y
  exact ⟨w, hw⟩

/-- C52: `controllable` is True exactly when every state can be steered to every state in `nx` steps, which is the case
exactly when this is possible in some number of steps, and then it is in every number of steps from `nx` on.  The answer is
stored and returned by later calls.  (With no states, `hstack` of the empty list raises; with no inputs, `matrix_rank` does.) -/
theorem C52 (nx nu : ℕ) (A B : Mat ℝ) (hA1 : A.nr = nx) (hA2 : A.nc = nx) (hB1 : B.nr = nx) (hB2 : B.nc = nu) (hnx : 0 < nx) (hnu : 0 < nu) :
    ∃ b : Bool, LinearSystem.controllable ⟨A, B, nx, nu, none⟩ = (.ok b, ⟨A, B, nx, nu, some b⟩) ∧
      LinearSystem.controllable ⟨A, B, nx, nu, some b⟩ = (.ok b, ⟨A, B, nx, nu, some b⟩) ∧
      (b = true ↔ Steerable nx A B nx) ∧ (b = true ↔ ∃ N, Steerable nx A B N) ∧ (b = true ↔ ∀ N, nx ≤ N → Steerable nx A B N) := by
  have hl : ((List.range nx).mapM fun i => np.dotMM (np.matrix_power A i) B)
      = .ok ((List.range nx).map fun i => (np.matrix_power A i).mul B) :=
    mapM_ok fun i _ => if_pos (by rw [(power_shape hA1 hA2 i).2, hB1])
  obtain ⟨R, r1, r2, r3, r4⟩ := hstack_blocks (m := nx) (n := nu) (l := (List.range nx).map fun i => (np.matrix_power A i).mul B)
    (by simp; omega) (by
      intro M hM
      obtain ⟨i, -, rfl⟩ := List.mem_map.1 hM
      exact ⟨(power_shape hA1 hA2 i).1, hB2⟩)
  rw [List.length_map, List.length_range] at r3 r4
  have r4' : ∀ t < nx, ∀ i, ∀ j < nu, R.e i (nu * t + j) = ((np.matrix_power A t).mul B).e i j := by
    intro t ht i j hj
    rw [r4 t ht i j hj, List.getD_eq_getElem _ _ (by simpa using ht)]
    simp
  have hR : ∀ i (w : ℕ → ℝ), rowVal R i w = ∑ k ∈ range nx, rowVal (np.matrix_power A k) i (fun r => rowVal B r (fun s => w (nu * k + s))) := by
    intro i w
    unfold rowVal
    rw [r3, sum_range_blocks]
    refine Finset.sum_congr rfl fun k hk => ?_
    have := rowVal_mul (A := np.matrix_power A k) (B := B) (by rw [(power_shape hA1 hA2 k).2, hB1]) i (fun s => w (nu * k + s))
    unfold rowVal at this
    rw [← this, Mat.mul_nc, hB2]
    exact Finset.sum_congr rfl fun s hs => by rw [r4' k (mem_range.1 hk) i s (mem_range.1 hs)]
  have hrank : np.matrix_rank R = (R.asM nx (nu * nx)).rank := by
    unfold np.matrix_rank; rw [r2, r3]
  -- full rank gives steering in every number of steps from `nx` on
  have hsteer : np.matrix_rank R = nx → ∀ N, nx ≤ N → Steerable nx A B N := by
    intro hr N hN x y
    obtain ⟨w, hw⟩ := surjective_of_rank (R.asM nx (nu * nx)) (by rw [← hrank, hr])
      (fun i => y i - rowVal (np.matrix_power A N) i x)
    set W : ℕ → ℝ := fun j => if h : j < nu * nx then w ⟨j, h⟩ else 0 with hW
    have hW' : ∀ i < nx, rowVal R i W = y i - rowVal (np.matrix_power A N) i x := by
      intro i hi
      have := congrFun hw ⟨i, hi⟩
      rw [← this]
      unfold rowVal
      rw [r3, Finset.sum_range]
      simp [Matrix.mulVec, dotProduct, hW]
    refine ⟨fun t s => if N - 1 - t < nx then W (nu * (N - 1 - t) + s) else 0, fun i hi => ?_⟩
    rw [traj_linear (nu := nu) hA1 hA2 x _ N i hi]
    obtain ⟨m, rfl⟩ : ∃ m, N = nx + m := ⟨N - nx, by omega⟩
    rw [Finset.sum_range_add]
    have e1 : ∀ k ∈ range nx, rowVal (np.matrix_power A k) i (fun r => rowVal B r (fun s =>
        if nx + m - 1 - (nx + m - 1 - k) < nx then W (nu * (nx + m - 1 - (nx + m - 1 - k)) + s) else 0))
        = rowVal (np.matrix_power A k) i (fun r => rowVal B r (fun s => W (nu * k + s))) := by
      intro k hk
      have := mem_range.1 hk
      rw [show nx + m - 1 - (nx + m - 1 - k) = k by omega]
      simp only [if_pos this]
    have e2 : ∀ k ∈ range m, rowVal (np.matrix_power A (nx + k)) i (fun r => rowVal B r (fun s =>
        if nx + m - 1 - (nx + m - 1 - (nx + k)) < nx then W (nu * (nx + m - 1 - (nx + m - 1 - (nx + k))) + s) else 0)) = 0 := by
      intro k hk
      have := mem_range.1 hk
      rw [show nx + m - 1 - (nx + m - 1 - (nx + k)) = nx + k by omega]
      simp [rowVal]
    rw [Finset.sum_congr rfl e1, Finset.sum_eq_zero e2, ← hR, hW' i hi]
    ring
  -- steering in some number of steps needs full rank
  have hneed : ∀ N, Steerable nx A B N → np.matrix_rank R = nx := by
    intro N hN
    by_contra hr
    obtain ⟨v, hv, hvR⟩ := exists_left_null (R.asM nx (nu * nx)) (by rw [← hrank]; exact hr)
    set M := A.asM nx nx with hM
    set b := B.asM nx nu with hb
    have low : ∀ k < nx, Matrix.vecMul v (M ^ k * b) = 0 := by
      intro k hk
      funext s
      have h1 : nu * k + (s : ℕ) < nu * nx := by
        have := Nat.mul_le_mul_left nu (show k + 1 ≤ nx from hk)
        rw [Nat.mul_succ] at this
        have := s.2
        omega
      have h2 := congrFun hvR ⟨nu * k + s, h1⟩
      rw [← power_asM hA1 hA2 k, hb, ← Mat.asM_mul _ _ _ _ (power_shape hA1 hA2 k).2]
      refine Eq.trans ?_ h2
      simp only [Matrix.vecMul, dotProduct, Mat.asM_apply]
      exact Finset.sum_congr rfl fun i _ => by rw [r4' k hk i s s.2]
    have all : ∀ k, Matrix.vecMul v (M ^ k * b) = 0 := by
      intro k
      rw [Matrix.pow_eq_aeval_mod_charpoly M k, Polynomial.aeval_eq_sum_range, Matrix.sum_mul, Matrix.vecMul_sum]
      refine Finset.sum_eq_zero fun j hj => ?_
      have hdeg : (Polynomial.X ^ k %ₘ M.charpoly).natDegree < nx := by
        have : Nonempty (Fin nx) := ⟨⟨0, hnx⟩⟩
        have h1 := Polynomial.natDegree_modByMonic_lt (Polynomial.X ^ k) (Matrix.charpoly_monic M) (by
          intro h
          have := Matrix.charpoly_natDegree_eq_dim M
          rw [h] at this
          simp at this
          omega)
        rwa [Matrix.charpoly_natDegree_eq_dim, Fintype.card_fin] at h1
      rw [Matrix.smul_mul, Matrix.vecMul_smul, low j (by have := mem_range.1 hj; omega), smul_zero]
    obtain ⟨u, hu⟩ := hN (fun _ => 0) (fun i => if h : i < nx then v ⟨i, h⟩ else 0)
    have hvv : v ⬝ᵥ v = 0 := by
      have e1 : ∀ i : Fin nx, v i = ∑ k ∈ range N, ((M ^ k * b).mulVec (fun s => u (N - 1 - k) s)) i := by
        intro i
        have := hu i i.2
        rw [traj_linear (nu := nu) hA1 hA2 _ _ N i i.2] at this
        simp only [i.2, dif_pos] at this
        rw [show rowVal (np.matrix_power A N) i (fun _ => 0) = 0 by simp [rowVal], zero_add] at this
        rw [← this]
        refine Finset.sum_congr rfl fun k _ => ?_
        rw [← rowVal_mul (by rw [(power_shape hA1 hA2 k).2, hB1]), ← power_asM hA1 hA2 k, hb,
          ← Mat.asM_mul _ _ _ _ (power_shape hA1 hA2 k).2]
        unfold rowVal
        rw [Mat.mul_nc, hB2, Finset.sum_range]
        rfl
      have e2 : v = ∑ k ∈ range N, (M ^ k * b).mulVec (fun s => u (N - 1 - k) s) := by
        funext i
        rw [e1 i, Finset.sum_apply]
      conv_lhs => rw [e2, ← e2]
      nth_rewrite 2 [e2]
      rw [dotProduct_sum]
      refine Finset.sum_eq_zero fun k _ => ?_
      rw [Matrix.dotProduct_mulVec, all k, zero_dotProduct]
    exact hv (dotProduct_self_eq_zero.1 hvv)
  have hcomp : LinearSystem.computeControllable ⟨A, B, nx, nu, none⟩ = .ok (decide (np.matrix_rank R = nx)) := by
    unfold LinearSystem.computeControllable
    simp only [hl, Py.ok_bind]
    rw [r1, Py.ok_bind]
    unfold np.rank
    rw [if_neg (by rw [r2, r3]; have := Nat.mul_pos hnu hnx; omega)]
    rfl
  refine ⟨decide (np.matrix_rank R = nx), ?_, rfl, ?_, ?_, ?_⟩
  · unfold LinearSystem.controllable
    simp only [PyM.bind_apply, PyM.get_apply, PyM.lift_apply, hcomp]
    rfl
  · rw [decide_eq_true_iff]
    exact ⟨fun h => hsteer h nx le_rfl, hneed nx⟩
  · rw [decide_eq_true_iff]
    exact ⟨fun h => ⟨nx, hsteer h nx le_rfl⟩, fun ⟨N, h⟩ => hneed N h⟩
  · rw [decide_eq_true_iff]
    exact ⟨hsteer, fun h => hneed nx (h nx le_rfl)⟩

/-- with no states, the empty list of blocks is rejected -/
theorem C52_no_states (A B : Mat ℝ) (nu : ℕ) :
    (LinearSystem.controllable ⟨A, B, 0, nu, none⟩).1 = .error .valueError := rfl

/-- with no inputs, the matrix has no singular values and the computation of its rank is rejected -/
theorem C52_no_inputs (nx : ℕ) (A B : Mat ℝ) (hA1 : A.nr = nx) (hA2 : A.nc = nx) (hB1 : B.nr = nx) (hB2 : B.nc = 0) (hnx : 0 < nx) :
    (LinearSystem.controllable ⟨A, B, nx, 0, none⟩).1 = .error .valueError := by
  have hl : ((List.range nx).mapM fun i => np.dotMM (np.matrix_power A i) B)
      = .ok ((List.range nx).map fun i => (np.matrix_power A i).mul B) :=
    mapM_ok fun i _ => if_pos (by rw [(power_shape hA1 hA2 i).2, hB1])
  obtain ⟨R, r1, r2, r3, r4⟩ := hstack_blocks (m := nx) (n := 0) (l := (List.range nx).map fun i => (np.matrix_power A i).mul B)
    (by simp; omega) (by
      intro M hM
      obtain ⟨i, -, rfl⟩ := List.mem_map.1 hM
      exact ⟨(power_shape hA1 hA2 i).1, hB2⟩)
  have hcomp : LinearSystem.computeControllable ⟨A, B, nx, 0, none⟩ = .error .valueError := by
    unfold LinearSystem.computeControllable
    simp only [hl, Py.ok_bind]
    rw [r1, Py.ok_bind]
    unfold np.rank
    rw [if_pos (by right; rw [r3]; simp)]
    rfl
  unfold LinearSystem.controllable
  simp only [PyM.bind_apply, PyM.get_apply, PyM.lift_apply, hcomp]

/-- without inputs `solve_dare` raises, too -/
theorem solve_dare_no_inputs {S : LinearSystem} (hS : S._controllable = none) (hA1 : S.A.nr = S.nx) (hA2 : S.A.nc = S.nx) (hB1 : S.B.nr = S.nx)
    (hB2 : S.B.nc = 0) (hnu : S.nu = 0) (hnx : 0 < S.nx) (dare : Mat ℝ → Mat ℝ → Mat ℝ → Mat ℝ → Py (Mat ℝ)) (Q R : Mat ℝ) :
    (LinearSystem.solve_dare dare Q R S).1 = .error .valueError := by
  have h := C52_no_inputs S.nx S.A S.B hA1 hA2 hB1 hB2 hnx
  have eS : S = ⟨S.A, S.B, S.nx, 0, none⟩ := by cases S; cases hS; cases hnu; rfl
  rw [← eS] at h
  unfold LinearSystem.solve_dare
  rw [PyM.bind_apply]
  generalize LinearSystem.controllable S = w at h
  obtain ⟨v, T⟩ := w
  simp only at h
  subst h
  rfl

/-- the double integrator is steerable in two steps, so the theorem applies with the answer True -/
example : Steerable 2 ⟨2, 2, fun i j => if i ≤ j then 1 else 0⟩ ⟨2, 1, fun i _ => if i = 1 then 1 else 0⟩ 2 := by
  intro x y
  refine ⟨fun t _ => if t = 0 then y 0 - x 0 - 2 * x 1 else y 1 - x 1 - (y 0 - x 0 - 2 * x 1), fun i hi => ?_⟩
  have hi : i < 2 := hi
  interval_cases i <;> simp [Spec.traj, Spec.affine, Finset.sum_range_succ] <;> ring

/-- a system whose second state is not driven cannot be steered in any number of steps -/
example (N : ℕ) : ¬ Steerable 2 ⟨2, 2, fun i j => if i = j then 1 else 0⟩ ⟨2, 1, fun i _ => if i = 0 then 1 else 0⟩ N := by
  intro h
  obtain ⟨u, hu⟩ := h (fun _ => 0) (fun _ => 1)
  have : ∀ t, Spec.traj (fun _ => ⟨2, 2, fun i j => if i = j then 1 else 0⟩) (fun _ => ⟨2, 1, fun i _ => if i = 0 then 1 else 0⟩)
      (fun _ => Vec.zeros 2) (fun _ => 0) u t 1 = 0 := by
    intro t
    induction t with
    | zero => rfl
    | succ t ih => simp [Spec.traj, Spec.affine, Finset.sum_range_succ, ih]
  have h1 := hu 1 (by omega)
  rw [this] at h1
  norm_num at h1

end Verif.Props
