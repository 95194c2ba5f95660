import Mathlib.LinearAlgebra.Matrix.NonsingularInverse
import Mathlib.LinearAlgebra.Matrix.PosDef
import Mathlib.LinearAlgebra.Matrix.Rank
import Mathlib.Data.Real.Basic
import Mathlib.Tactic.Ring
import Mathlib.Tactic.Abel
import Mathlib.Tactic.Linarith

/- The KKT system of a parametric quadratic program for a fixed active set. -/
namespace Verif.Math
open Matrix

variable {k n l : Type} [Fintype k] [Fintype n] [Fintype l] [DecidableEq k] [DecidableEq n]
  [DecidableEq l]

/-- the formulas of the code for the multipliers and the minimizer -/
def kktPax (E : Matrix k n ℝ) (Hi : Matrix n n ℝ) (M : Matrix k k ℝ) (F : Matrix k l ℝ)
    (G : Matrix n l ℝ) : Matrix k l ℝ := M * (F - E * Hi * G)
def kktPa0 (E : Matrix k n ℝ) (Hi : Matrix n n ℝ) (M : Matrix k k ℝ) (b : k → ℝ) (f : n → ℝ) :
    k → ℝ := -(M *ᵥ (b + (E * Hi) *ᵥ f))
def kktUx (E : Matrix k n ℝ) (Hi : Matrix n n ℝ) (G : Matrix n l ℝ) (P : Matrix k l ℝ) :
    Matrix n l ℝ := -(Hi * (G + Eᵀ * P))
def kktU0 (E : Matrix k n ℝ) (Hi : Matrix n n ℝ) (f : n → ℝ) (p : k → ℝ) : n → ℝ :=
  -(Hi *ᵥ (f + Eᵀ *ᵥ p))

theorem kkt_system {E : Matrix k n ℝ} {H : Matrix n n ℝ} {F : Matrix k l ℝ} {G : Matrix n l ℝ}
    {b : k → ℝ} {f : n → ℝ} {M : Matrix k k ℝ} (hH : IsUnit H.det)
    (hM : IsUnit (E * H⁻¹ * Eᵀ).det) (hMi : M = (E * H⁻¹ * Eᵀ)⁻¹) {P : Matrix k l ℝ} {p0 : k → ℝ}
    {U : Matrix n l ℝ} {u0 : n → ℝ} (hP : P = kktPax E H⁻¹ M F G) (hp : p0 = kktPa0 E H⁻¹ M b f)
    (hU : U = kktUx E H⁻¹ G P) (hu : u0 = kktU0 E H⁻¹ f p0) (x : l → ℝ) :
    H *ᵥ (U *ᵥ x + u0) + G *ᵥ x + f + Eᵀ *ᵥ (P *ᵥ x + p0) = 0 ∧
    E *ᵥ (U *ᵥ x + u0) + F *ᵥ x = b ∧
    ∀ u p, H *ᵥ u + G *ᵥ x + f + Eᵀ *ᵥ p = 0 → E *ᵥ u + F *ᵥ x = b →
      u = U *ᵥ x + u0 ∧ p = P *ᵥ x + p0 := by
  have e1 : P *ᵥ x + p0 = M *ᵥ (F *ᵥ x - b - (E * H⁻¹) *ᵥ (G *ᵥ x + f)) := by
    rw [hP, hp, kktPax, kktPa0, ← mulVec_mulVec, ← mulVec_neg, ← mulVec_add]
    congr 1
    rw [sub_mulVec, ← mulVec_mulVec x (E * H⁻¹) G, mulVec_add]
    abel
  have e2 : U *ᵥ x + u0 = -(H⁻¹ *ᵥ (G *ᵥ x + f + Eᵀ *ᵥ (P *ᵥ x + p0))) := by
    rw [hU, hu, kktUx, kktU0, neg_mulVec, ← mulVec_mulVec, add_mulVec, ← mulVec_mulVec, ← neg_add,
      ← mulVec_add, mulVec_add Eᵀ]
    congr 2
    abel
  have hpp : (E * H⁻¹ * Eᵀ) *ᵥ (P *ᵥ x + p0) = F *ᵥ x - b - (E * H⁻¹) *ᵥ (G *ᵥ x + f) := by
    rw [e1, hMi, mulVec_mulVec, Matrix.mul_nonsing_inv _ hM, one_mulVec]
  have s1 : H *ᵥ (U *ᵥ x + u0) + G *ᵥ x + f + Eᵀ *ᵥ (P *ᵥ x + p0) = 0 := by
    rw [e2, mulVec_neg, mulVec_mulVec, Matrix.mul_nonsing_inv _ hH, one_mulVec]
    abel
  have gen : ∀ u p, H *ᵥ u + G *ᵥ x + f + Eᵀ *ᵥ p = 0 →
      u = -(H⁻¹ *ᵥ (G *ᵥ x + f + Eᵀ *ᵥ p)) := by
    intro u p h
    have h2 : H *ᵥ u = -(G *ᵥ x + f + Eᵀ *ᵥ p) := by
      rw [eq_neg_iff_add_eq_zero, ← h]; abel
    have := congrArg (fun v => H⁻¹ *ᵥ v) h2
    simp only [mulVec_mulVec, Matrix.nonsing_inv_mul _ hH, one_mulVec, mulVec_neg] at this
    exact this
  have genE : ∀ u p, H *ᵥ u + G *ᵥ x + f + Eᵀ *ᵥ p = 0 →
      E *ᵥ u = -((E * H⁻¹) *ᵥ (G *ᵥ x + f)) - (E * H⁻¹ * Eᵀ) *ᵥ p := by
    intro u p h
    rw [gen u p h, mulVec_neg, mulVec_mulVec, mulVec_add (E * H⁻¹), mulVec_mulVec]
    abel
  refine ⟨s1, ?_, fun u p h1 h2 => ?_⟩
  · rw [genE _ _ s1, hpp]; abel
  · have h3 := genE u p h1
    have h4 : (E * H⁻¹ * Eᵀ) *ᵥ p = F *ᵥ x - b - (E * H⁻¹) *ᵥ (G *ᵥ x + f) := by
      rw [← h2, h3]; abel
    have h5 : p = P *ᵥ x + p0 := by
      have := congrArg (fun v => (E * H⁻¹ * Eᵀ)⁻¹ *ᵥ v) (h4.trans hpp.symm)
      simpa only [mulVec_mulVec, Matrix.nonsing_inv_mul _ hM, one_mulVec] using this
    refine ⟨?_, h5⟩
    rw [gen u p h1, gen _ _ s1, h5]

/-- the value function of the code is the cost at the minimizer -/
theorem kkt_value {H : Matrix n n ℝ} (hH : Hᵀ = H) (G : Matrix n l ℝ) (X : Matrix l l ℝ)
    (f : n → ℝ) (fx : l → ℝ) (g : ℝ) (U : Matrix n l ℝ) (u0 : n → ℝ) (x : l → ℝ) :
    1 / 2 * (x ⬝ᵥ ((Uᵀ * H * U + (2 : ℝ) • (Gᵀ * U) + X) *ᵥ x))
      + (((Uᵀ * Hᵀ + Gᵀ) *ᵥ u0 + Uᵀ *ᵥ f + fx) ⬝ᵥ x)
      + (1 / 2 * (u0 ⬝ᵥ (H *ᵥ u0)) + f ⬝ᵥ u0 + g)
    = 1 / 2 * ((U *ᵥ x + u0) ⬝ᵥ (H *ᵥ (U *ᵥ x + u0)) + (U *ᵥ x + u0) ⬝ᵥ (G *ᵥ x)
        + x ⬝ᵥ (Gᵀ *ᵥ (U *ᵥ x + u0)) + x ⬝ᵥ (X *ᵥ x))
      + f ⬝ᵥ (U *ᵥ x + u0) + fx ⬝ᵥ x + g := by
  have a1 : x ⬝ᵥ ((Uᵀ * H * U) *ᵥ x) = (U *ᵥ x) ⬝ᵥ (H *ᵥ (U *ᵥ x)) := by
    rw [← mulVec_mulVec, ← mulVec_mulVec, dotProduct_mulVec, vecMul_transpose]
  have a2 : ∀ y : n → ℝ, x ⬝ᵥ (Gᵀ *ᵥ y) = y ⬝ᵥ (G *ᵥ x) := by
    intro y
    rw [dotProduct_mulVec, vecMul_transpose, dotProduct_comm]
  have a3 : ∀ y : n → ℝ, (Uᵀ *ᵥ y) ⬝ᵥ x = y ⬝ᵥ (U *ᵥ x) := by
    intro y
    rw [dotProduct_comm, dotProduct_mulVec, vecMul_transpose, dotProduct_comm]
  have a4 : ∀ y z : n → ℝ, y ⬝ᵥ (H *ᵥ z) = z ⬝ᵥ (H *ᵥ y) := by
    intro y z
    conv_lhs => rw [← hH]
    rw [dotProduct_mulVec, vecMul_transpose, dotProduct_comm]
  have a5 : (Gᵀ *ᵥ u0) ⬝ᵥ x = u0 ⬝ᵥ (G *ᵥ x) := by rw [dotProduct_comm, a2]
  simp only [add_mulVec, dotProduct_add, add_dotProduct, smul_mulVec, dotProduct_smul, smul_eq_mul,
    mulVec_add, hH]
  rw [a1, ← mulVec_mulVec, ← mulVec_mulVec u0, a2, a2, a3, a3, a5, a4 u0 (U *ᵥ x), dotProduct_comm (H *ᵥ u0)]
  ring

/-- independent rows make the matrix of the multipliers invertible -/
theorem kkt_det {E : Matrix k n ℝ} {H : Matrix n n ℝ} (hH : H.PosDef)
    (hE : ∀ w : k → ℝ, Eᵀ *ᵥ w = 0 → w = 0) : IsUnit (E * H⁻¹ * Eᵀ).det := by
  have hpd : (E * H⁻¹ * Eᵀ).PosDef := by
    have := hH.inv.mul_mul_conjTranspose_same (B := E) (by
      intro a b hab
      have h1 : Eᵀ *ᵥ (a - b) = 0 := by
        rw [mulVec_transpose, sub_vecMul]
        have : a ᵥ* E = b ᵥ* E := hab
        rw [this, sub_self]
      exact sub_eq_zero.1 (hE _ h1))
    simpa [conjTranspose_eq_transpose_of_trivial] using this
  exact (Matrix.isUnit_iff_isUnit_det _).1 hpd.isUnit

/-- the test of the code on the rank -/
theorem rank_lt_iff (E : Matrix k n ℝ) :
    E.rank < Fintype.card k ↔ ¬ ∀ w : k → ℝ, Eᵀ *ᵥ w = 0 → w = 0 := by
  rw [← not_le, not_iff_not]
  have h1 : (∀ w : k → ℝ, Eᵀ *ᵥ w = 0 → w = 0) ↔ LinearMap.ker Eᵀ.mulVecLin = ⊥ := by
    rw [LinearMap.ker_eq_bot']; rfl
  have h2 := LinearMap.finrank_range_add_finrank_ker Eᵀ.mulVecLin
  rw [h1, ← rank_transpose]
  rw [Module.finrank_fintype_fun_eq_card] at h2
  constructor
  · intro h
    have h3 : Module.finrank ℝ (LinearMap.range Eᵀ.mulVecLin) = Eᵀ.rank := rfl
    rw [← Submodule.finrank_eq_zero (R := ℝ)]
    omega
  · intro h
    rw [h, finrank_bot] at h2
    have h3 : Module.finrank ℝ (LinearMap.range Eᵀ.mulVecLin) = Eᵀ.rank := rfl
    omega

end Verif.Math
