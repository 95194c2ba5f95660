import Verif.Math.Lqr
import Mathlib.Topology.Instances.Matrix
import Mathlib.Topology.Order.MonotoneConvergence
import Mathlib.Topology.Instances.Real.Lemmas

/- The Riccati equation has a solution if every state can be steered to the origin. -/
namespace Verif.Math
open Matrix Filter Topology

variable {m n : ℕ}

/-- the right-hand side of the Riccati equation -/
noncomputable def ric (A : Matrix (Fin n) (Fin n) ℝ) (B : Matrix (Fin n) (Fin m) ℝ) (Q : Matrix (Fin n) (Fin n) ℝ) (R : Matrix (Fin m) (Fin m) ℝ)
    (P : Matrix (Fin n) (Fin n) ℝ) : Matrix (Fin n) (Fin n) ℝ :=
  Q + Aᵀ * P * A - Aᵀ * P * B * (Bᵀ * P * B + R)⁻¹ * (Bᵀ * P * A)

/-- symmetric and positive semidefinite -/
def Psd (P : Matrix (Fin n) (Fin n) ℝ) : Prop := Pᵀ = P ∧ ∀ x, 0 ≤ x ⬝ᵥ P *ᵥ x

/-- symmetric and positive definite -/
def Pd (P : Matrix (Fin n) (Fin n) ℝ) : Prop := Pᵀ = P ∧ ∀ x, x ≠ 0 → 0 < x ⬝ᵥ P *ᵥ x

variable {A Q P P' : Matrix (Fin n) (Fin n) ℝ} {B : Matrix (Fin n) (Fin m) ℝ} {R : Matrix (Fin m) (Fin m) ℝ}

theorem form_mid (P : Matrix (Fin n) (Fin n) ℝ) (B : Matrix (Fin n) (Fin m) ℝ) (v : Fin m → ℝ) :
    v ⬝ᵥ (Bᵀ * P * B) *ᵥ v = (B *ᵥ v) ⬝ᵥ P *ᵥ (B *ᵥ v) := by
  rw [Matrix.mul_assoc, ← mulVec_mulVec, dotProduct_mulVec, vecMul_transpose, ← mulVec_mulVec]

theorem mid_pd (hP : Psd P) (hR : Pd R) : Pd (Bᵀ * P * B + R) := by
  refine ⟨?_, fun v hv => ?_⟩
  · rw [transpose_add, transpose_mul, transpose_mul, transpose_transpose, hP.1, hR.1, Matrix.mul_assoc]
  · rw [add_mulVec, dotProduct_add, form_mid]
    have := hP.2 (B *ᵥ v)
    have := hR.2 v hv
    linarith

theorem Pd.det {R : Matrix (Fin m) (Fin m) ℝ} (h : Pd R) : R.det ≠ 0 := by
  intro h0
  obtain ⟨v, hv, hv0⟩ := Matrix.exists_mulVec_eq_zero_iff.2 h0
  have := h.2 v hv
  rw [hv0, dotProduct_zero] at this
  exact lt_irrefl _ this

theorem Pd.psd {R : Matrix (Fin m) (Fin m) ℝ} (h : Pd R) : Psd R := by
  refine ⟨h.1, fun x => ?_⟩
  by_cases hx : x = 0
  · rw [hx, zero_dotProduct]
  · exact (h.2 x hx).le

theorem ric_le (hP : Psd P) (hR : Pd R) (x : Fin n → ℝ) (u : Fin m → ℝ) :
    x ⬝ᵥ ric A B Q R P *ᵥ x ≤ x ⬝ᵥ Q *ᵥ x + u ⬝ᵥ R *ᵥ u + (A *ᵥ x + B *ᵥ u) ⬝ᵥ P *ᵥ (A *ᵥ x + B *ᵥ u) := by
  rw [riccati_next (P1 := ric A B Q R P) hP.1 hR.1 (mid_pd hP hR).det rfl x u]
  have := (mid_pd (B := B) hP hR).psd.2 (u - (-((Bᵀ * P * B + R)⁻¹ * Bᵀ * P * A)) *ᵥ x)
  linarith

theorem ric_eq (hP : Psd P) (hR : Pd R) (x : Fin n → ℝ) :
    ∃ u, x ⬝ᵥ ric A B Q R P *ᵥ x = x ⬝ᵥ Q *ᵥ x + u ⬝ᵥ R *ᵥ u + (A *ᵥ x + B *ᵥ u) ⬝ᵥ P *ᵥ (A *ᵥ x + B *ᵥ u) := by
  refine ⟨(-((Bᵀ * P * B + R)⁻¹ * Bᵀ * P * A)) *ᵥ x, ?_⟩
  rw [riccati_next (P1 := ric A B Q R P) hP.1 hR.1 (mid_pd hP hR).det rfl x _, sub_self, zero_dotProduct, add_zero]

theorem ric_psd (hP : Psd P) (hQ : Psd Q) (hR : Pd R) : Psd (ric A B Q R P) := by
  refine ⟨?_, fun x => ?_⟩
  · unfold ric
    rw [transpose_sub, transpose_add]
    simp only [transpose_mul, transpose_transpose, transpose_nonsing_inv]
    have := (mid_pd (B := B) hP hR).1
    rw [this, hP.1, hQ.1]
    simp only [Matrix.mul_assoc]
  · obtain ⟨u, hu⟩ := ric_eq (A := A) (B := B) (Q := Q) hP hR x
    rw [hu]
    have := hQ.2 x
    have := hR.psd.2 u
    have := hP.2 (A *ᵥ x + B *ᵥ u)
    linarith

theorem ric_mono (hP : Psd P) (hP' : Psd P') (hR : Pd R) (h : ∀ x, x ⬝ᵥ P *ᵥ x ≤ x ⬝ᵥ P' *ᵥ x) (x : Fin n → ℝ) :
    x ⬝ᵥ ric A B Q R P *ᵥ x ≤ x ⬝ᵥ ric A B Q R P' *ᵥ x := by
  obtain ⟨u, hu⟩ := ric_eq (A := A) (B := B) (Q := Q) hP' hR x
  rw [hu]
  have := ric_le (A := A) (B := B) (Q := Q) hP hR x u
  have := h (A *ᵥ x + B *ᵥ u)
  linarith

/-- the iterates of the Riccati equation from zero -/
noncomputable def ricIter (A : Matrix (Fin n) (Fin n) ℝ) (B : Matrix (Fin n) (Fin m) ℝ) (Q : Matrix (Fin n) (Fin n) ℝ) (R : Matrix (Fin m) (Fin m) ℝ) :
    ℕ → Matrix (Fin n) (Fin n) ℝ
  | 0 => 0
  | k + 1 => ric A B Q R (ricIter A B Q R k)

theorem iter_psd (hQ : Psd Q) (hR : Pd R) : ∀ k, Psd (ricIter A B Q R k)
  | 0 => ⟨transpose_zero, fun x => by simp [ricIter]⟩
  | k + 1 => ric_psd (iter_psd hQ hR k) hQ hR

theorem iter_mono (hQ : Psd Q) (hR : Pd R) (k : ℕ) (x : Fin n → ℝ) : x ⬝ᵥ ricIter A B Q R k *ᵥ x ≤ x ⬝ᵥ ricIter A B Q R (k + 1) *ᵥ x := by
  induction k generalizing x with
  | zero =>
    have := (iter_psd (A := A) (B := B) hQ hR 1).2 x
    simpa [ricIter] using this
  | succ k ih => exact ric_mono (iter_psd hQ hR k) (iter_psd hQ hR (k + 1)) hR ih x

/-- the iterates are at most the cost of a trajectory -/
theorem iter_le (hQ : Psd Q) (hR : Pd R) (k : ℕ) (X : ℕ → Fin n → ℝ) (u : ℕ → Fin m → ℝ) (hX : ∀ t < k, X (t + 1) = A *ᵥ X t + B *ᵥ u t) :
    X 0 ⬝ᵥ ricIter A B Q R k *ᵥ X 0 ≤ ∑ t ∈ Finset.range k, (X t ⬝ᵥ Q *ᵥ X t + u t ⬝ᵥ R *ᵥ u t) := by
  induction k generalizing X u with
  | zero => simp [ricIter]
  | succ k ih =>
    rw [Finset.sum_range_succ']
    have h1 := ric_le (A := A) (B := B) (Q := Q) (iter_psd (A := A) (B := B) hQ hR k) hR (X 0) (u 0)
    rw [← hX 0 (by omega)] at h1
    have h2 := ih (fun t => X (t + 1)) (fun t => u (t + 1)) (fun t ht => hX (t + 1) (by omega))
    have e : ricIter A B Q R (k + 1) = ric A B Q R (ricIter A B Q R k) := rfl
    rw [e]
    linarith

/-- if a trajectory ends in the origin the iterates are bounded -/
theorem iter_bounded (hQ : Psd Q) (hR : Pd R) {N : ℕ} (X : ℕ → Fin n → ℝ) (u : ℕ → Fin m → ℝ) (hX : ∀ t, X (t + 1) = A *ᵥ X t + B *ᵥ u t) (hN : X N = 0)
    (k : ℕ) : X 0 ⬝ᵥ ricIter A B Q R k *ᵥ X 0 ≤ ∑ t ∈ Finset.range N, (X t ⬝ᵥ Q *ᵥ X t + u t ⬝ᵥ R *ᵥ u t) := by
  have mono : Monotone fun k => X 0 ⬝ᵥ ricIter A B Q R k *ᵥ X 0 := monotone_nat_of_le_succ fun k => iter_mono hQ hR k (X 0)
  let X' : ℕ → Fin n → ℝ := fun t => if t < N then X t else 0
  let u' : ℕ → Fin m → ℝ := fun t => if t < N then u t else 0
  have hX' : ∀ t ≤ N, X' t = X t := by
    intro t ht
    by_cases h : t < N
    · exact if_pos h
    · obtain rfl : t = N := by omega
      rw [hN]
      exact if_neg h
  have h0 : X' 0 = X 0 := hX' 0 (by omega)
  have hs : ∀ t, X' (t + 1) = A *ᵥ X' t + B *ᵥ u' t := by
    intro t
    by_cases h : t < N
    · rw [hX' t h.le, hX' (t + 1) (by omega), hX t]
      simp only [u', if_pos h]
    · simp only [X', u', if_neg h, if_neg (show ¬ t + 1 < N by omega), mulVec_zero, add_zero]
  refine (mono (show k ≤ N + k by omega)).trans ?_
  have := iter_le hQ hR (N + k) X' u' fun t _ => hs t
  simp only [h0] at this
  refine this.trans (le_of_eq ?_)
  rw [Finset.sum_range_add]
  have z : ∑ t ∈ Finset.range k, (X' (N + t) ⬝ᵥ Q *ᵥ X' (N + t) + u' (N + t) ⬝ᵥ R *ᵥ u' (N + t)) = 0 :=
    Finset.sum_eq_zero fun t _ => by
      simp only [X', u', if_neg (show ¬ N + t < N by omega), zero_dotProduct, add_zero]
  rw [z, add_zero]
  refine Finset.sum_congr rfl fun t ht => ?_
  have ht := Finset.mem_range.1 ht
  simp only [X', u', if_pos ht]

/-- the entries from the values -/
theorem polar {P : Matrix (Fin n) (Fin n) ℝ} (hP : Pᵀ = P) (i j : Fin n) :
    P i j = 1 / 2 * ((Pi.single i 1 + Pi.single j 1) ⬝ᵥ P *ᵥ (Pi.single i 1 + Pi.single j 1) - Pi.single i 1 ⬝ᵥ P *ᵥ Pi.single i 1
      - Pi.single j 1 ⬝ᵥ P *ᵥ Pi.single j 1) := by
  have hs : P j i = P i j := congrFun (congrFun hP i) j
  simp only [mulVec_add, add_dotProduct, dotProduct_add, mulVec_single_one, single_one_dotProduct, col_apply, transpose_apply]
  rw [hs]
  ring

/-- continuity of the right-hand side along a sequence -/
theorem ric_tendsto {Ps : ℕ → Matrix (Fin n) (Fin n) ℝ} (h : Tendsto Ps atTop (𝓝 P)) (hdet : (Bᵀ * P * B + R).det ≠ 0) :
    Tendsto (fun k => ric A B Q R (Ps k)) atTop (𝓝 (ric A B Q R P)) := by
  have mulc : ∀ {a b c : ℕ} {F : ℕ → Matrix (Fin a) (Fin b) ℝ} {H : ℕ → Matrix (Fin b) (Fin c) ℝ} {f h}, Tendsto F atTop (𝓝 f) → Tendsto H atTop (𝓝 h) →
      Tendsto (fun k => F k * H k) atTop (𝓝 (f * h)) := by
    intro a b c F H f h hF hH
    have hc : Continuous fun p : Matrix (Fin a) (Fin b) ℝ × Matrix (Fin b) (Fin c) ℝ => p.1 * p.2 := continuous_fst.matrix_mul continuous_snd
    exact (hc.tendsto (f, h)).comp (hF.prodMk_nhds hH)
  have hM : Tendsto (fun k => Bᵀ * Ps k * B + R) atTop (𝓝 (Bᵀ * P * B + R)) :=
    (mulc (mulc tendsto_const_nhds h) tendsto_const_nhds).add tendsto_const_nhds
  have hI : Tendsto (fun k => (Bᵀ * Ps k * B + R)⁻¹) atTop (𝓝 (Bᵀ * P * B + R)⁻¹) := by
    generalize hN : (fun k => Bᵀ * Ps k * B + R) = Ns at hM
    generalize Bᵀ * P * B + R = M at hM hdet
    have e : (fun k => (Bᵀ * Ps k * B + R)⁻¹) = fun k => (Ns k)⁻¹ := by rw [← hN]
    rw [e]
    have hd : Tendsto (fun k => (Ns k).det) atTop (𝓝 M.det) := ((continuous_id.matrix_det).tendsto M).comp hM
    have ha : Tendsto (fun k => (Ns k).adjugate) atTop (𝓝 M.adjugate) := ((continuous_id.matrix_adjugate).tendsto M).comp hM
    have := (hd.inv₀ hdet).smul ha
    rw [Matrix.inv_def, Ring.inverse_eq_inv']
    refine this.congr fun k => ?_
    rw [Matrix.inv_def, Ring.inverse_eq_inv']
  exact (tendsto_const_nhds.add (mulc (mulc tendsto_const_nhds h) tendsto_const_nhds)).sub
    (mulc (mulc (mulc (mulc tendsto_const_nhds h) tendsto_const_nhds) hI) (mulc (mulc tendsto_const_nhds h) tendsto_const_nhds))

/-- if every state can be steered to the origin, the Riccati equation has a solution -/
theorem ric_exists (hQ : Psd Q) (hR : Pd R)
    (hst : ∀ x : Fin n → ℝ, ∃ (N : ℕ) (X : ℕ → Fin n → ℝ) (u : ℕ → Fin m → ℝ), X 0 = x ∧ (∀ t, X (t + 1) = A *ᵥ X t + B *ᵥ u t) ∧ X N = 0) :
    ∃ P, Psd P ∧ P = ric A B Q R P := by
  have hlim : ∀ x : Fin n → ℝ, ∃ l, Tendsto (fun k => x ⬝ᵥ ricIter A B Q R k *ᵥ x) atTop (𝓝 l) := by
    intro x
    obtain ⟨N, X, u, rfl, h1, h2⟩ := hst x
    exact ⟨_, tendsto_atTop_ciSup (monotone_nat_of_le_succ fun k => iter_mono hQ hR k (X 0))
      ⟨_, by rintro _ ⟨k, rfl⟩; exact iter_bounded hQ hR X u h1 h2 k⟩⟩
  choose v hv using hlim
  have hent : ∀ i j, Tendsto (fun k => ricIter A B Q R k i j) atTop
      (𝓝 (1 / 2 * (v (Pi.single i 1 + Pi.single j 1) - v (Pi.single i 1) - v (Pi.single j 1)))) := by
    intro i j
    have := (((hv (Pi.single i 1 + Pi.single j 1)).sub (hv (Pi.single i 1))).sub (hv (Pi.single j 1))).const_mul (1 / 2)
    exact this.congr fun k => (polar (iter_psd hQ hR k).1 i j).symm
  let P : Matrix (Fin n) (Fin n) ℝ := fun i j => 1 / 2 * (v (Pi.single i 1 + Pi.single j 1) - v (Pi.single i 1) - v (Pi.single j 1))
  have hP : Tendsto (ricIter A B Q R) atTop (𝓝 P) := tendsto_pi_nhds.2 fun i => tendsto_pi_nhds.2 fun j => hent i j
  have hpsd : Psd P := by
    constructor
    · funext i j
      exact tendsto_nhds_unique ((hent j i).congr fun k => congrFun (congrFun (iter_psd hQ hR k).1 i) j) (hent i j)
    · intro x
      have hc : Continuous fun P : Matrix (Fin n) (Fin n) ℝ => x ⬝ᵥ P *ᵥ x := by fun_prop
      exact ge_of_tendsto (hc.continuousAt.tendsto.comp hP) (Eventually.of_forall fun k => (iter_psd hQ hR k).2 x)
  refine ⟨P, hpsd, ?_⟩
  exact tendsto_nhds_unique ((tendsto_add_atTop_iff_nat 1).2 hP) (ric_tendsto hP (mid_pd hpsd hR).det)

end Verif.Math
