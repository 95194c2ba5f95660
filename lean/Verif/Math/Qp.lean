import Verif.Math.Farkas
import Mathlib.LinearAlgebra.Matrix.PosDef
import Mathlib.LinearAlgebra.Matrix.NonsingularInverse

/-
Strictly convex quadratic programs: KKT sufficiency and uniqueness, and Bemporad's reduction to
nonnegative least squares.  (Mathematics only, independent of the model.)
-/
set_option linter.unusedSectionVars false

namespace Verif.Math
open Matrix Finset

variable {m n : Type} [Fintype m] [Fintype n] [DecidableEq m] [DecidableEq n]

/-- `1/2 x H x + f x` -/
noncomputable def qcost (H : Matrix n n ℝ) (f x : n → ℝ) : ℝ := 1 / 2 * (x ⬝ᵥ (H *ᵥ x)) + f ⬝ᵥ x

theorem qcost_expand {H : Matrix n n ℝ} (hH : Hᵀ = H) (f x x' : n → ℝ) :
    qcost H f x' = qcost H f x + (H *ᵥ x + f) ⬝ᵥ (x' - x)
      + 1 / 2 * ((x' - x) ⬝ᵥ (H *ᵥ (x' - x))) := by
  have e : x ⬝ᵥ (H *ᵥ x') = (H *ᵥ x) ⬝ᵥ x' := by
    rw [dotProduct_mulVec, ← mulVec_transpose, hH]
  have e2 : x' ⬝ᵥ (H *ᵥ x) = (H *ᵥ x) ⬝ᵥ x' := dotProduct_comm _ _
  have e3 : x ⬝ᵥ (H *ᵥ x) = (H *ᵥ x) ⬝ᵥ x := dotProduct_comm _ _
  simp only [qcost, mulVec_sub, sub_dotProduct, dotProduct_sub, add_dotProduct]
  rw [e, e2, e3]; ring

/-- the first order term is nonnegative at a KKT point -/
theorem kkt_first_order {A : Matrix m n ℝ} {b : m → ℝ} {g x : n → ℝ} {lam : m → ℝ}
    (hstat : g + Aᵀ *ᵥ lam = 0) (hlam : ∀ i, 0 ≤ lam i)
    (hcomp : ∀ i, lam i * (b i - (A *ᵥ x) i) = 0) {x' : n → ℝ} (hx' : ∀ i, (A *ᵥ x') i ≤ b i) :
    0 ≤ g ⬝ᵥ (x' - x) := by
  have hg : g = -(Aᵀ *ᵥ lam) := by
    funext j; have := congrFun hstat j; simp only [Pi.add_apply, Pi.zero_apply] at this
    simp only [Pi.neg_apply]; linarith
  have e : g ⬝ᵥ (x' - x) = ∑ i, lam i * ((A *ᵥ x) i - (A *ᵥ x') i) := by
    rw [hg, neg_dotProduct, dotProduct_comm, dotProduct_mulVec, vecMul_transpose, mulVec_sub,
      dotProduct, ← Finset.sum_neg_distrib]
    exact Finset.sum_congr rfl fun i _ => by simp only [Pi.sub_apply]; ring
  rw [e]
  refine Finset.sum_nonneg fun i _ => ?_
  have h1 := hcomp i
  have h2 := mul_nonneg (hlam i) (sub_nonneg.2 (hx' i))
  nlinarith

theorem kkt_opt {H : Matrix n n ℝ} (hH : H.PosDef) {f : n → ℝ} {A : Matrix m n ℝ} {b : m → ℝ}
    {x : n → ℝ} {lam : m → ℝ}
    (hstat : (H *ᵥ x + f) + Aᵀ *ᵥ lam = 0) (hlam : ∀ i, 0 ≤ lam i)
    (hcomp : ∀ i, lam i * (b i - (A *ᵥ x) i) = 0) {x' : n → ℝ} (hx' : ∀ i, (A *ᵥ x') i ≤ b i) :
    qcost H f x ≤ qcost H f x' ∧ (qcost H f x' ≤ qcost H f x → x' = x) := by
  have hsym : Hᵀ = H := by
    have := hH.1; rw [isHermitian_iff_isSymm] at this; exact this
  have h1 := kkt_first_order hstat hlam hcomp hx'
  rw [qcost_expand hsym f x x']
  by_cases hne : x' - x = 0
  · rw [hne]; simp; exact sub_eq_zero.1 hne
  · have h2 := hH.dotProduct_mulVec_pos hne
    simp only [star_trivial] at h2
    exact ⟨by linarith, fun h => by linarith⟩

/-- consequences of the optimality of the nonnegative least squares problem in the QP solver -/
theorem qp_nnls_kkt {M : Matrix m n ℝ} {μ : m → ℝ} {y : m → ℝ} (hy : ∀ i, 0 ≤ y i)
    (hmin : ∀ y' : m → ℝ, (∀ i, 0 ≤ y' i) →
      nsq (Mᵀ *ᵥ y) + (1 + μ ⬝ᵥ y) ^ 2 ≤ nsq (Mᵀ *ᵥ y') + (1 + μ ⬝ᵥ y') ^ 2) :
    (∀ i, 0 ≤ (M *ᵥ (Mᵀ *ᵥ y)) i + μ i * (1 + μ ⬝ᵥ y)) ∧
    (∀ i, y i * ((M *ᵥ (Mᵀ *ᵥ y)) i + μ i * (1 + μ ⬝ᵥ y)) = 0) ∧
    nsq (Mᵀ *ᵥ y) + (1 + μ ⬝ᵥ y) ^ 2 = 1 + μ ⬝ᵥ y := by
  have hn : ∀ z : m → ℝ, nsq (stackT M μ *ᵥ z - Sum.elim (0 : n → ℝ) (fun _ => -1))
      = nsq (Mᵀ *ᵥ z) + (1 + μ ⬝ᵥ z) ^ 2 := by
    intro z
    rw [stackT_mulVec]
    simp only [nsq, dotProduct, Fintype.sum_sum_type, Pi.sub_apply, Sum.elim_inl, Sum.elim_inr,
      Pi.zero_apply, sub_zero, Finset.univ_unique, Finset.sum_singleton, sub_neg_eq_add]
    ring
  have hk := nnls_kkt (A := stackT M μ) (b := Sum.elim (0 : n → ℝ) (fun _ => -1)) hy (fun y' hy' => by
    rw [hn, hn]; exact hmin y' hy')
  have hg : ∀ i, ((stackT M μ)ᵀ *ᵥ (stackT M μ *ᵥ y - Sum.elim (0 : n → ℝ) (fun _ => -1))) i
      = (M *ᵥ (Mᵀ *ᵥ y)) i + μ i * (1 + μ ⬝ᵥ y) := by
    intro i
    rw [stackT_T_mulVec, stackT_mulVec]
    have e : (fun k => ((Sum.elim (Mᵀ *ᵥ y) (fun _ => μ ⬝ᵥ y) : n ⊕ Unit → ℝ)
        - (Sum.elim (0 : n → ℝ) (fun _ => -1) : n ⊕ Unit → ℝ)) (Sum.inl k)) = Mᵀ *ᵥ y := by
      funext k; simp
    rw [e]
    simp only [Pi.sub_apply, Sum.elim_inr, sub_neg_eq_add]
    ring
  have h1 : ∀ i, 0 ≤ (M *ᵥ (Mᵀ *ᵥ y)) i + μ i * (1 + μ ⬝ᵥ y) := fun i => by
    rw [← hg i]; exact hk.1 i
  have h2 : ∑ i, y i * ((M *ᵥ (Mᵀ *ᵥ y)) i + μ i * (1 + μ ⬝ᵥ y)) = 0 := by
    rw [← hk.2]
    exact Finset.sum_congr rfl fun i _ => by rw [hg i]
  refine ⟨h1, fun i => ?_, ?_⟩
  · exact (Finset.sum_eq_zero_iff_of_nonneg (fun i _ => mul_nonneg (hy i) (h1 i))).1 h2 i (mem_univ i)
  · have e : ∑ i, y i * ((M *ᵥ (Mᵀ *ᵥ y)) i + μ i * (1 + μ ⬝ᵥ y))
        = nsq (Mᵀ *ᵥ y) + (μ ⬝ᵥ y) * (1 + μ ⬝ᵥ y) := by
      simp only [mul_add, Finset.sum_add_distrib]
      have e1 : ∑ i, y i * (M *ᵥ (Mᵀ *ᵥ y)) i = nsq (Mᵀ *ᵥ y) := by
        have : y ⬝ᵥ (M *ᵥ (Mᵀ *ᵥ y)) = (Mᵀ *ᵥ y) ⬝ᵥ (Mᵀ *ᵥ y) := by
          rw [dotProduct_mulVec, ← mulVec_transpose]
        exact this
      rw [e1]
      have e2 : ∀ c : ℝ, ∑ i, y i * (μ i * c) = (μ ⬝ᵥ y) * c := fun c => by
        rw [dotProduct, Finset.sum_mul]
        exact Finset.sum_congr rfl fun i _ => by ring
      have e3 : ∑ i, y i * μ i = μ ⬝ᵥ y := by
        rw [dotProduct]; exact Finset.sum_congr rfl fun i _ => by ring
      simp only [mul_one, e2, e3]
    rw [e] at h2
    linear_combination h2

variable {A : Matrix m n ℝ} {b : m → ℝ} {f : n → ℝ} {F Li : Matrix n n ℝ} {y : m → ℝ}

/-- the optimizer of the QP read off the nonnegative least squares solution -/
theorem bemporad_kkt (hFi : F * Li = 1)
    (hy : ∀ i, 0 ≤ y i)
    (hmin : ∀ y' : m → ℝ, (∀ i, 0 ≤ y' i) →
      nsq ((A * Liᵀ)ᵀ *ᵥ y) + (1 + (b + (A * (Liᵀ * Li)) *ᵥ f) ⬝ᵥ y) ^ 2
        ≤ nsq ((A * Liᵀ)ᵀ *ᵥ y') + (1 + (b + (A * (Liᵀ * Li)) *ᵥ f) ⬝ᵥ y') ^ 2)
    {t : ℝ} (ht : t = 1 + (b + (A * (Liᵀ * Li)) *ᵥ f) ⬝ᵥ y) (ht0 : 0 < t)
    {x : n → ℝ} (hx : x = -((Liᵀ * Li) *ᵥ (f + Aᵀ *ᵥ (t⁻¹ • y)))) :
    (∀ i, (A *ᵥ x) i ≤ b i) ∧ (∀ i, 0 ≤ (t⁻¹ • y) i) ∧
    (∀ i, (t⁻¹ • y) i * (b i - (A *ᵥ x) i) = 0) ∧
    ((F * Fᵀ) *ᵥ x + f) + Aᵀ *ᵥ (t⁻¹ • y) = 0 ∧
    (x + (Liᵀ * Li) *ᵥ f) ⬝ᵥ ((F * Fᵀ) *ᵥ (x + (Liᵀ * Li) *ᵥ f)) = 1 / t - 1 := by
  obtain ⟨k1, k2, k3⟩ := qp_nnls_kkt hy hmin
  rw [← ht] at k1 k2 k3
  have hLF : Li * F = 1 := mul_eq_one_comm.1 hFi
  have hinv : (F * Fᵀ) * (Liᵀ * Li) = 1 := by
    calc (F * Fᵀ) * (Liᵀ * Li) = F * (Fᵀ * Liᵀ) * Li := by simp only [Matrix.mul_assoc]
      _ = 1 := by rw [← transpose_mul, hLF, transpose_one, Matrix.mul_one, hFi]
  have hMM : ∀ z : m → ℝ, (A * Liᵀ) *ᵥ ((A * Liᵀ)ᵀ *ᵥ z) = A *ᵥ ((Liᵀ * Li) *ᵥ (Aᵀ *ᵥ z)) := by
    intro z
    simp only [mulVec_mulVec, transpose_mul, transpose_transpose, Matrix.mul_assoc]
  have hAx : ∀ i, (A *ᵥ x) i = b i - t⁻¹ * (((A * Liᵀ) *ᵥ ((A * Liᵀ)ᵀ *ᵥ y)) i
      + (b + (A * (Liᵀ * Li)) *ᵥ f) i * t) := by
    intro i
    rw [hx, mulVec_neg, mulVec_add, mulVec_smul, mulVec_smul, mulVec_add, mulVec_smul, hMM]
    simp only [Pi.neg_apply, Pi.add_apply, Pi.smul_apply, smul_eq_mul, mulVec_mulVec]
    field_simp
    ring
  have hsl : ∀ i, b i - (A *ᵥ x) i = t⁻¹ * (((A * Liᵀ) *ᵥ ((A * Liᵀ)ᵀ *ᵥ y)) i
      + (b + (A * (Liᵀ * Li)) *ᵥ f) i * t) := fun i => by rw [hAx]; ring
  have hti : 0 < t⁻¹ := inv_pos.2 ht0
  refine ⟨fun i => ?_, fun i => ?_, fun i => ?_, ?_, ?_⟩
  · have := mul_nonneg hti.le (k1 i)
    rw [← hsl] at this; linarith
  · exact mul_nonneg hti.le (hy i)
  · rw [hsl]
    have := k2 i
    simp only [Pi.smul_apply, smul_eq_mul]
    linear_combination (t⁻¹ * t⁻¹) * this
  · rw [hx, mulVec_neg, mulVec_mulVec, hinv, one_mulVec]; abel
  · have e : x + (Liᵀ * Li) *ᵥ f = -((Liᵀ * Li) *ᵥ (Aᵀ *ᵥ (t⁻¹ • y))) := by
      rw [hx, mulVec_add]; abel
    rw [e, mulVec_neg, mulVec_mulVec _ (F * Fᵀ), hinv, one_mulVec, neg_dotProduct_neg, mulVec_smul,
      mulVec_smul, smul_dotProduct, dotProduct_smul]
    have e2 : ((Liᵀ * Li) *ᵥ (Aᵀ *ᵥ y)) ⬝ᵥ (Aᵀ *ᵥ y) = nsq ((A * Liᵀ)ᵀ *ᵥ y) := by
      rw [transpose_mul, transpose_transpose, ← mulVec_mulVec, ← mulVec_mulVec, nsq, dotProduct_comm,
        dotProduct_mulVec, vecMul_transpose]
    rw [e2]
    have : nsq ((A * Liᵀ)ᵀ *ᵥ y) = t - t ^ 2 := by linarith
    rw [this]
    simp only [smul_eq_mul]
    field_simp

/-- a zero residual is a Farkas certificate -/
theorem bemporad_infeasible (hFi : F * Li = 1)
    (hy : ∀ i, 0 ≤ y i)
    (hmin : ∀ y' : m → ℝ, (∀ i, 0 ≤ y' i) →
      nsq ((A * Liᵀ)ᵀ *ᵥ y) + (1 + (b + (A * (Liᵀ * Li)) *ᵥ f) ⬝ᵥ y) ^ 2
        ≤ nsq ((A * Liᵀ)ᵀ *ᵥ y') + (1 + (b + (A * (Liᵀ * Li)) *ᵥ f) ⬝ᵥ y') ^ 2)
    (ht : 1 + (b + (A * (Liᵀ * Li)) *ᵥ f) ⬝ᵥ y ≤ 0) (x : n → ℝ) : ¬ ∀ i, (A *ᵥ x) i ≤ b i := by
  obtain ⟨k1, k2, k3⟩ := qp_nnls_kkt hy hmin
  have hs := nsq_nonneg ((A * Liᵀ)ᵀ *ᵥ y)
  have h0 : 1 + (b + (A * (Liᵀ * Li)) *ᵥ f) ⬝ᵥ y = 0 := by nlinarith
  have hz : nsq ((A * Liᵀ)ᵀ *ᵥ y) = 0 := by rw [h0] at k3; linarith
  rw [nsq_eq_zero, transpose_mul, transpose_transpose, ← mulVec_mulVec] at hz
  have hA : Aᵀ *ᵥ y = 0 := by
    have : F *ᵥ (Li *ᵥ (Aᵀ *ᵥ y)) = Aᵀ *ᵥ y := by rw [mulVec_mulVec, hFi, one_mulVec]
    rw [← this, hz, mulVec_zero]
  have hb : b ⬝ᵥ y = -1 := by
    rw [add_dotProduct] at h0
    have : ((A * (Liᵀ * Li)) *ᵥ f) ⬝ᵥ y = 0 := by
      rw [← mulVec_mulVec, dotProduct_comm, dotProduct_mulVec, ← mulVec_transpose, hA,
        zero_dotProduct]
    linarith
  intro hx
  have := weak_duality hx hy
  rw [hA, dotProduct_zero, hb] at this
  linarith

end Verif.Math
