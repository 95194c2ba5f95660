import Mathlib.LinearAlgebra.Matrix.NonsingularInverse
import Mathlib.LinearAlgebra.Matrix.PosDef
import Mathlib.Tactic.LinearCombination

/- Completion of squares for the Riccati equation. -/
namespace Verif.Math
open Matrix

variable {m n : ℕ}

theorem symm_form {P : Matrix (Fin n) (Fin n) ℝ} (hP : Pᵀ = P) (a b : Fin n → ℝ) : a ⬝ᵥ P *ᵥ b = b ⬝ᵥ P *ᵥ a := by
  rw [dotProduct_mulVec, ← mulVec_transpose, hP, dotProduct_comm]

/-- the cost of one step followed by `P` is the value of the next iterate `P1` of the Riccati equation plus the square of the distance to the optimal
input -/
theorem riccati_next {A P P1 Q : Matrix (Fin n) (Fin n) ℝ} {B : Matrix (Fin n) (Fin m) ℝ} {R : Matrix (Fin m) (Fin m) ℝ}
    (hP : Pᵀ = P) (hR : Rᵀ = R) (hdet : (Bᵀ * P * B + R).det ≠ 0)
    (hric : P1 = Q + Aᵀ * P * A - Aᵀ * P * B * (Bᵀ * P * B + R)⁻¹ * (Bᵀ * P * A))
    (x : Fin n → ℝ) (u : Fin m → ℝ) :
    let K := -((Bᵀ * P * B + R)⁻¹ * Bᵀ * P * A)
    x ⬝ᵥ Q *ᵥ x + u ⬝ᵥ R *ᵥ u + (A *ᵥ x + B *ᵥ u) ⬝ᵥ P *ᵥ (A *ᵥ x + B *ᵥ u)
      = x ⬝ᵥ P1 *ᵥ x + (u - K *ᵥ x) ⬝ᵥ (Bᵀ * P * B + R) *ᵥ (u - K *ᵥ x) := by
  intro K
  set M := Bᵀ * P * B + R with hM
  have hMs : Mᵀ = M := by
    rw [hM, transpose_add, transpose_mul, transpose_mul, transpose_transpose, hP, hR, Matrix.mul_assoc]
  have hMi : M * M⁻¹ = 1 := mul_nonsing_inv M (isUnit_iff_ne_zero.2 hdet)
  set k := K *ᵥ x with hk
  set s := A *ᵥ x with hs
  set w := B *ᵥ u with hw
  have hMK : M * K = -(Bᵀ * P * A) := by
    rw [show K = -(M⁻¹ * Bᵀ * P * A) from rfl, Matrix.mul_neg, ← Matrix.mul_assoc, ← Matrix.mul_assoc, ← Matrix.mul_assoc, hMi,
      Matrix.one_mul]
  have back : ∀ a : Fin m → ℝ, a ⬝ᵥ M *ᵥ k = -((B *ᵥ a) ⬝ᵥ P *ᵥ s) := by
    intro a
    rw [hk, mulVec_mulVec, hMK, neg_mulVec, dotProduct_neg, hs, mulVec_mulVec, Matrix.mul_assoc, ← mulVec_mulVec, dotProduct_mulVec,
      vecMul_transpose]
  have e1 : u ⬝ᵥ M *ᵥ k = -(w ⬝ᵥ P *ᵥ s) := back u
  have e2 : k ⬝ᵥ M *ᵥ u = -(w ⬝ᵥ P *ᵥ s) := by rw [symm_form hMs, e1]
  have e3 : k ⬝ᵥ M *ᵥ k = -((B *ᵥ k) ⬝ᵥ P *ᵥ s) := back k
  have hric' : P1 = Q + Aᵀ * P * A + Aᵀ * P * B * K := by
    conv_lhs => rw [hric]
    rw [show K = -(M⁻¹ * Bᵀ * P * A) from rfl, Matrix.mul_neg, sub_eq_add_neg]
    simp only [Matrix.mul_assoc]
  have e4 : x ⬝ᵥ P1 *ᵥ x = x ⬝ᵥ Q *ᵥ x + s ⬝ᵥ P *ᵥ s + s ⬝ᵥ P *ᵥ (B *ᵥ k) := by
    conv_lhs => rw [hric']
    rw [add_mulVec, add_mulVec, dotProduct_add, dotProduct_add]
    congr 1
    · congr 1
      rw [Matrix.mul_assoc, ← mulVec_mulVec, dotProduct_mulVec, vecMul_transpose, hs, mulVec_mulVec]
    · rw [Matrix.mul_assoc, Matrix.mul_assoc, ← mulVec_mulVec, dotProduct_mulVec, vecMul_transpose, hs, hk]
      simp only [mulVec_mulVec, Matrix.mul_assoc]
  have e5 : u ⬝ᵥ M *ᵥ u = w ⬝ᵥ P *ᵥ w + u ⬝ᵥ R *ᵥ u := by
    rw [hM, add_mulVec, dotProduct_add]
    congr 1
    rw [Matrix.mul_assoc, ← mulVec_mulVec, dotProduct_mulVec, vecMul_transpose, hw, mulVec_mulVec]
  have e6 : s ⬝ᵥ P *ᵥ w = w ⬝ᵥ P *ᵥ s := symm_form hP s w
  have e7 : s ⬝ᵥ P *ᵥ (B *ᵥ k) = (B *ᵥ k) ⬝ᵥ P *ᵥ s := symm_form hP _ _
  rw [mulVec_add, mulVec_sub, add_dotProduct, sub_dotProduct, dotProduct_add, dotProduct_add, dotProduct_sub, dotProduct_sub, e1, e2,
    e3, e4, e5, e6, e7]
  ring

/-- the same at a solution of the Riccati equation -/
theorem riccati_step {A P Q : Matrix (Fin n) (Fin n) ℝ} {B : Matrix (Fin n) (Fin m) ℝ} {R : Matrix (Fin m) (Fin m) ℝ}
    (hP : Pᵀ = P) (hR : Rᵀ = R) (hdet : (Bᵀ * P * B + R).det ≠ 0)
    (hric : P = Q + Aᵀ * P * A - Aᵀ * P * B * (Bᵀ * P * B + R)⁻¹ * (Bᵀ * P * A))
    (x : Fin n → ℝ) (u : Fin m → ℝ) :
    let K := -((Bᵀ * P * B + R)⁻¹ * Bᵀ * P * A)
    x ⬝ᵥ Q *ᵥ x + u ⬝ᵥ R *ᵥ u + (A *ᵥ x + B *ᵥ u) ⬝ᵥ P *ᵥ (A *ᵥ x + B *ᵥ u)
      = x ⬝ᵥ P *ᵥ x + (u - K *ᵥ x) ⬝ᵥ (Bᵀ * P * B + R) *ᵥ (u - K *ᵥ x) :=
  riccati_next hP hR hdet hric x u

end Verif.Math
