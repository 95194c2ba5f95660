import Verif.Math.Nnls
import Mathlib.Analysis.Matrix.Order
import Mathlib.Analysis.Matrix.Spectrum
import Mathlib.Analysis.InnerProductSpace.GramSchmidtOrtho
import Mathlib.Logic.Equiv.Fintype

/-
Existence of the matrix factorizations used by the code: Moore-Penrose inverse, Cholesky factor,
right singular vectors, QR factorization.  (Mathematics only.)
-/
set_option linter.unusedSectionVars false

namespace Verif.Math
open Matrix Finset

variable {m n : Type} [Fintype m] [Fintype n] [DecidableEq m] [DecidableEq n]

/-- a least squares inverse -/
theorem exists_lsInverse (B : Matrix m n ℝ) :
    ∃ P : Matrix n m ℝ, B * P * B = B ∧ (B * P)ᵀ = B * P := by
  choose z hz using fun j : m => exists_normal_eq B (Pi.single j 1)
  let P : Matrix n m ℝ := fun i j => z j i
  have hP : Bᵀ * (B * P) = Bᵀ := by
    funext i j
    have := congrFun (hz j) i
    rw [mulVec_sub, Pi.sub_apply, Pi.zero_apply, sub_eq_zero] at this
    have e1 : (Bᵀ * (B * P)) i j = (Bᵀ *ᵥ (B *ᵥ z j)) i := rfl
    rw [e1, this]
    simp
  have hPt : (B * P)ᵀ * B = B := by
    have := congrArg transpose hP
    rwa [transpose_mul, transpose_transpose] at this
  have hs : (B * P)ᵀ * (B * P) = (B * P)ᵀ := by
    rw [transpose_mul, Matrix.mul_assoc, hP]
  have hsym : (B * P)ᵀ = B * P := by
    have h1 := congrArg transpose hs
    rw [transpose_mul, transpose_transpose] at h1
    rw [← hs, h1]
  exact ⟨P, by rw [← hsym]; exact hPt, hsym⟩

/-- existence of the Moore-Penrose inverse -/
theorem exists_pinv (B : Matrix m n ℝ) :
    ∃ X : Matrix n m ℝ, B * X * B = B ∧ X * B * X = X ∧ (B * X)ᵀ = B * X ∧ (X * B)ᵀ = X * B := by
  obtain ⟨P, p1, p2⟩ := exists_lsInverse B
  obtain ⟨Q, q1, q2⟩ := exists_lsInverse Bᵀ
  set G := Qᵀ with hG
  have g1 : B * G * B = B := by
    have := congrArg transpose q1
    simpa [transpose_mul, Matrix.mul_assoc] using this
  have g2 : (G * B)ᵀ = G * B := by
    have : G * B = (Bᵀ * Q)ᵀ := by rw [transpose_mul, transpose_transpose]
    rw [this, q2, q2]
  have b1 : B * (G * B * P) = B * P := by
    rw [← Matrix.mul_assoc, ← Matrix.mul_assoc, g1]
  have b2 : (G * B * P) * B = G * B := by
    rw [Matrix.mul_assoc, Matrix.mul_assoc, ← Matrix.mul_assoc B, p1]
  refine ⟨G * B * P, ?_, ?_, ?_, ?_⟩
  · rw [b1, p1]
  · rw [b2, ← Matrix.mul_assoc, ← Matrix.mul_assoc]
    congr 1
    rw [Matrix.mul_assoc, Matrix.mul_assoc, ← Matrix.mul_assoc B, g1]
  · rw [b1, p2]
  · rw [b2, g2]

/-- existence of a Cholesky-like factor -/
theorem exists_chol {H : Matrix n n ℝ} (h : H.PosDef) : ∃ F : Matrix n n ℝ, F * Fᵀ = H := by
  open scoped MatrixOrder Norms.L2Operator in
  obtain ⟨B, hB⟩ := CStarAlgebra.nonneg_iff_eq_star_mul_self.mp h.posSemidef.nonneg
  refine ⟨Bᵀ, ?_⟩
  rw [transpose_transpose, hB]
  rfl

theorem mulVec_eq_zero_of_gram {A : Matrix m n ℝ} {v : n → ℝ} (h : (Aᵀ * A) *ᵥ v = 0) :
    A *ᵥ v = 0 := by
  have : nsq (A *ᵥ v) = 0 := by
    rw [nsq, dotProduct_mulVec, ← mulVec_transpose, mulVec_mulVec, h, zero_dotProduct]
  exact nsq_eq_zero.1 this

/-- existence of an orthonormal basis whose last vectors span the kernel -/
theorem exists_svdV {k : ℕ} (A : Matrix m (Fin k) ℝ) :
    ∃ V : Matrix (Fin k) (Fin k) ℝ, Vᵀ * V = 1 ∧
      ∀ j : Fin k, A.rank ≤ j → ∀ i, (A * V) i j = 0 := by
  have hH : (Aᵀ * A).IsHermitian := by
    rw [isHermitian_iff_isSymm, IsSymm, transpose_mul, transpose_transpose]
  have hr : A.rank = Fintype.card {i // hH.eigenvalues i ≠ 0} := by
    rw [← hH.rank_eq_card_non_zero_eigs, rank_transpose_mul_self]
  have hrk : A.rank ≤ k := by simpa using rank_le_card_width A
  have hc : Fintype.card {i : Fin k // (i : ℕ) < A.rank} = Fintype.card {i // hH.eigenvalues i ≠ 0} := by
    rw [← hr, Fintype.card_subtype]
    have : (Finset.univ.filter fun i : Fin k => (i : ℕ) < A.rank)
        = Finset.univ.map (Fin.castLEEmb hrk) := by
      ext i
      simp only [mem_filter, mem_univ, true_and, mem_map, Fin.castLEEmb_apply]
      constructor
      · intro h; exact ⟨⟨i, h⟩, rfl⟩
      · rintro ⟨j, rfl⟩; exact j.2
    rw [this]; simp
  let σ := (Fintype.equivOfCardEq hc).extendSubtype
  let U : Matrix (Fin k) (Fin k) ℝ := hH.eigenvectorUnitary
  have hU : Uᵀ * U = 1 := by
    have := (Matrix.mem_unitaryGroup_iff').1 hH.eigenvectorUnitary.2
    rwa [star_eq_conjTranspose, conjTranspose_eq_transpose_of_trivial] at this
  let V : Matrix (Fin k) (Fin k) ℝ := Matrix.of fun i j => U i (σ j)
  refine ⟨V, ?_, ?_⟩
  · funext i j
    have h1 : (Vᵀ * V) i j = (Uᵀ * U) (σ i) (σ j) := rfl
    rw [h1, hU]
    simp [Matrix.one_apply]
  · intro j hj i
    have hz : hH.eigenvalues (σ j) = 0 := by
      have := (Fintype.equivOfCardEq hc).extendSubtype_not_mem j (by simpa using hj)
      simpa using this
    have h2 := hH.mulVec_eigenvectorBasis (σ j)
    rw [hz, zero_smul] at h2
    have h3 := congrFun (mulVec_eq_zero_of_gram h2) i
    have h4 : (A * V) i j = (A *ᵥ fun l => U l (σ j)) i := rfl
    rw [h4]
    exact h3

/-- existence of the reduced QR factorization -/
theorem exists_qr (a b : ℕ) (A : Matrix (Fin a) (Fin b) ℝ) :
    ∃ (Q : Matrix (Fin a) (Fin (min a b)) ℝ) (R : Matrix (Fin (min a b)) (Fin b) ℝ),
      Qᵀ * Q = 1 ∧ Q * R = A ∧ ∀ (i : Fin (min a b)) (j : Fin b), (j : ℕ) < i → R i j = 0 := by
  let f : Fin a → EuclideanSpace ℝ (Fin a) := fun j =>
    WithLp.toLp 2 (fun i => if h : (j : ℕ) < b then A i ⟨j, h⟩ else 0)
  have hcard : Module.finrank ℝ (EuclideanSpace ℝ (Fin a)) = Fintype.card (Fin a) := by simp
  obtain ⟨B, hB⟩ : ∃ B : OrthonormalBasis (Fin a) ℝ (EuclideanSpace ℝ (Fin a)),
      ∀ i j : Fin a, i < j → inner ℝ (B j) (f i) = 0 :=
    ⟨InnerProductSpace.gramSchmidtOrthonormalBasis hcard f, fun i j h =>
      InnerProductSpace.gramSchmidtOrthonormalBasis_inv_triangular hcard f h⟩
  let Q0 : Matrix (Fin a) (Fin a) ℝ := Matrix.of fun i j => B j i
  have hQ0 : Q0ᵀ * Q0 = 1 := by
    funext i j
    have h1 := orthonormal_iff_ite.1 B.orthonormal j i
    simp only [PiLp.inner_apply, RCLike.inner_apply, conj_trivial] at h1
    have h2 : (Q0ᵀ * Q0) i j = ∑ x, (B i) x * (B j) x := rfl
    rw [h2, h1, Matrix.one_apply]
    simp only [eq_comm]
  have hQ0' : Q0 * Q0ᵀ = 1 := mul_eq_one_comm.1 hQ0
  have hle : min a b ≤ a := min_le_left _ _
  let Q : Matrix (Fin a) (Fin (min a b)) ℝ := Matrix.of fun i j => Q0 i (Fin.castLE hle j)
  have hlow : ∀ (i : Fin a) (j : Fin b), (j : ℕ) < i → (Q0ᵀ * A) i j = 0 := by
    intro i j hij
    have hja : (j : ℕ) < a := hij.trans i.2
    have h1 := hB ⟨j, hja⟩ i hij
    simp only [PiLp.inner_apply, RCLike.inner_apply, conj_trivial] at h1
    have h2 : (Q0ᵀ * A) i j = ∑ x, (B i) x * A x j := rfl
    rw [h2, ← h1]
    refine Finset.sum_congr rfl fun l _ => ?_
    have h3 : (f ⟨j, hja⟩) l = A l j := by simp [f]
    rw [h3, mul_comm]
  refine ⟨Q, Qᵀ * A, ?_, ?_, ?_⟩
  · funext i j
    have h1 : (Qᵀ * Q) i j = (Q0ᵀ * Q0) (Fin.castLE hle i) (Fin.castLE hle j) := rfl
    rw [h1, hQ0]
    simp [Matrix.one_apply]
  · have hA : Q0 * (Q0ᵀ * A) = A := by rw [← Matrix.mul_assoc, hQ0', Matrix.one_mul]
    funext i j
    conv_rhs => rw [← hA]
    rw [Matrix.mul_apply, Matrix.mul_apply]
    -- the rows beyond `min a b` vanish
    have h1 : ∑ x : Fin a, Q0 i x * (Q0ᵀ * A) x j
        = ∑ x ∈ (Finset.univ.map (Fin.castLEEmb hle)), Q0 i x * (Q0ᵀ * A) x j := by
      symm
      apply Finset.sum_subset (Finset.subset_univ _)
      intro x _ hx
      have hx' : min a b ≤ (x : ℕ) := by
        by_contra hc
        apply hx
        simp only [mem_map, mem_univ, true_and, Fin.castLEEmb_apply]
        exact ⟨⟨x, not_le.1 hc⟩, rfl⟩
      rw [hlow x j (by have := j.2; have := x.2; omega), mul_zero]
    rw [h1, Finset.sum_map]
    rfl
  · intro i j hij
    exact hlow (Fin.castLE hle i) j hij

end Verif.Math
