import Mathlib.LinearAlgebra.Matrix.Rank
import Mathlib.LinearAlgebra.Matrix.DotProduct
import Mathlib.Analysis.SpecialFunctions.Pow.Real
import Mathlib.Tactic.Linarith
import Mathlib.Tactic.LinearCombination
import Mathlib.Tactic.FieldSimp

/-
Least squares and nonnegative least squares: existence of minimizers and the KKT conditions.
(Mathematics only, independent of the model.)
-/
set_option linter.unusedSectionVars false

namespace Verif.Math
open Matrix Finset

variable {m n : Type} [Fintype m] [Fintype n] [DecidableEq n]

/-- squared Euclidean norm -/
def nsq (v : m → ℝ) : ℝ := v ⬝ᵥ v

theorem nsq_nonneg (v : m → ℝ) : 0 ≤ nsq v :=
  Finset.sum_nonneg fun i _ => mul_self_nonneg (v i)

theorem nsq_eq_zero {v : m → ℝ} : nsq v = 0 ↔ v = 0 := dotProduct_self_eq_zero

theorem nsq_pos {v : m → ℝ} (h : v ≠ 0) : 0 < nsq v :=
  lt_of_le_of_ne (nsq_nonneg v) (fun h' => h (nsq_eq_zero.1 h'.symm))

theorem nsq_add (u v : m → ℝ) : nsq (u + v) = nsq u + 2 * (u ⬝ᵥ v) + nsq v := by
  simp only [nsq, add_dotProduct, dotProduct_add]
  rw [dotProduct_comm v u]; ring

theorem nsq_sub (u v : m → ℝ) : nsq (u - v) = nsq u - 2 * (u ⬝ᵥ v) + nsq v := by
  simp only [nsq, sub_dotProduct, dotProduct_sub]
  rw [dotProduct_comm v u]; ring

theorem nsq_smul (a : ℝ) (v : m → ℝ) : nsq (a • v) = a ^ 2 * nsq v := by
  simp only [nsq, smul_dotProduct, dotProduct_smul, smul_eq_mul]; ring

/-- the normal equations have a solution -/
theorem exists_normal_eq (A : Matrix m n ℝ) (b : m → ℝ) :
    ∃ z : n → ℝ, Aᵀ *ᵥ (A *ᵥ z - b) = 0 := by
  have hle : LinearMap.range (Aᵀ * A).mulVecLin ≤ LinearMap.range Aᵀ.mulVecLin := by
    rintro _ ⟨x, rfl⟩
    exact ⟨A *ᵥ x, by simp⟩
  have hdim : Module.finrank ℝ (LinearMap.range Aᵀ.mulVecLin)
      = Module.finrank ℝ (LinearMap.range (Aᵀ * A).mulVecLin) := by
    have h1 : (Aᵀ * A).rank = A.rank := rank_transpose_mul_self A
    have h2 : Aᵀ.rank = A.rank := rank_transpose A
    simpa [Matrix.rank] using h2.trans h1.symm
  have heq := Submodule.eq_of_le_of_finrank_eq hle hdim.symm
  have hb : Aᵀ *ᵥ b ∈ LinearMap.range (Aᵀ * A).mulVecLin := by
    rw [heq]; exact ⟨b, rfl⟩
  obtain ⟨z, hz⟩ := hb
  refine ⟨z, ?_⟩
  rw [mulVec_sub, mulVec_mulVec]
  simp only [mulVecLin_apply] at hz
  rw [hz, sub_self]

/-- Pythagoras around a point whose residual is orthogonal to the direction. -/
theorem nsq_pyth (A : Matrix m n ℝ) (b : m → ℝ) (z w : n → ℝ)
    (h : (w - z) ⬝ᵥ (Aᵀ *ᵥ (A *ᵥ z - b)) = 0) :
    nsq (A *ᵥ w - b) = nsq (A *ᵥ z - b) + nsq (A *ᵥ (w - z)) := by
  have e : A *ᵥ w - b = (A *ᵥ z - b) + A *ᵥ (w - z) := by
    rw [mulVec_sub]; abel
  rw [e, nsq_add]
  have : (A *ᵥ z - b) ⬝ᵥ (A *ᵥ (w - z)) = 0 := by
    rw [dotProduct_comm, ← h, dotProduct_mulVec (w - z), vecMul_transpose]
  rw [this]; ring

/-- Every nonnegative vector can be replaced by a nonnegative vector, not worse in the least squares
sense, that satisfies the normal equations on a set of coordinates containing its support. -/
theorem nnls_reduce (A : Matrix m n ℝ) (b : m → ℝ) :
    ∀ (k : ℕ) (S : Finset n), S.card = k → ∀ y : n → ℝ, (∀ i, 0 ≤ y i) → (∀ i, i ∉ S → y i = 0) →
      ∃ (T : Finset n) (z : n → ℝ), (∀ i, 0 ≤ z i) ∧ (∀ i, i ∉ T → z i = 0) ∧
        (∀ i ∈ T, (Aᵀ *ᵥ (A *ᵥ z - b)) i = 0) ∧ nsq (A *ᵥ z - b) ≤ nsq (A *ᵥ y - b) := by
  intro k
  induction k using Nat.strong_induction_on with
  | _ k ih =>
  intro S hS y hy0 hyS
  -- least squares over the coordinates in `S`
  let AS : Matrix m n ℝ := fun i j => if j ∈ S then A i j else 0
  obtain ⟨z0, hz0⟩ := exists_normal_eq AS b
  let z : n → ℝ := fun j => if j ∈ S then z0 j else 0
  have hAz : A *ᵥ z = AS *ᵥ z0 := by
    funext i
    simp only [mulVec, dotProduct, AS, z]
    exact Finset.sum_congr rfl fun j _ => by by_cases h : j ∈ S <;> simp [h]
  have hst : ∀ i ∈ S, (Aᵀ *ᵥ (A *ᵥ z - b)) i = 0 := by
    intro i hi
    have := congrFun hz0 i
    rw [← hAz] at this
    have hx : ∀ k, AS k i = A k i := fun k => if_pos hi
    simpa only [mulVec, dotProduct, transpose_apply, hx, Pi.zero_apply] using this
  have hzS : ∀ i, i ∉ S → z i = 0 := fun i hi => by simp [z, hi]
  have hpy : ∀ w : n → ℝ, (∀ i, i ∉ S → w i = 0) →
      nsq (A *ᵥ w - b) = nsq (A *ᵥ z - b) + nsq (A *ᵥ (w - z)) := by
    intro w hw
    apply nsq_pyth
    apply Finset.sum_eq_zero
    intro i _
    by_cases hi : i ∈ S
    · rw [hst i hi, mul_zero]
    · simp [hw i hi, hzS i hi]
  by_cases hneg : ∀ i, 0 ≤ z i
  · refine ⟨S, z, hneg, hzS, hst, ?_⟩
    rw [hpy y hyS]; linarith [nsq_nonneg (A *ᵥ (y - z))]
  · push Not at hneg
    let F : Finset n := Finset.univ.filter fun i => z i < 0
    have hF : F.Nonempty := by
      obtain ⟨i, hi⟩ := hneg
      exact ⟨i, by simp [F, hi]⟩
    obtain ⟨i0, hi0, hmin⟩ := F.exists_min_image (fun i => y i / (y i - z i)) hF
    have hzi0 : z i0 < 0 := by simpa [F] using hi0
    have hi0S : i0 ∈ S := by
      by_contra h; rw [hzS i0 h] at hzi0; exact lt_irrefl _ hzi0
    set t := y i0 / (y i0 - z i0) with ht
    have hden : 0 < y i0 - z i0 := by linarith [hy0 i0]
    have ht0 : 0 ≤ t := div_nonneg (hy0 i0) hden.le
    have ht1 : t ≤ 1 := by rw [ht, div_le_one hden]; linarith
    let w : n → ℝ := y + t • (z - y)
    have hwi : ∀ i, w i = y i + t * (z i - y i) := fun i => by simp [w]
    have hw0 : ∀ i, 0 ≤ w i := by
      intro i
      rw [hwi]
      by_cases h : z i < 0
      · have hd : 0 < y i - z i := by linarith [hy0 i]
        have := hmin i (by simp [F, h])
        have h2 : t * (y i - z i) ≤ y i := by
          rw [← le_div_iff₀ hd]; exact this
        linarith
      · push Not at h
        have : y i + t * (z i - y i) = (1 - t) * y i + t * z i := by ring
        rw [this]
        exact add_nonneg (mul_nonneg (by linarith) (hy0 i)) (mul_nonneg ht0 h)
    have hwi0 : w i0 = 0 := by
      rw [hwi, ht]; field_simp; ring
    have hwS : ∀ i, i ∉ S → w i = 0 := fun i hi => by rw [hwi, hyS i hi, hzS i hi]; ring
    have hwE : ∀ i, i ∉ S.erase i0 → w i = 0 := by
      intro i hi
      by_cases h : i = i0
      · rw [h, hwi0]
      · exact hwS i (fun h' => hi (Finset.mem_erase.2 ⟨h, h'⟩))
    have hcost : nsq (A *ᵥ w - b) ≤ nsq (A *ᵥ y - b) := by
      rw [hpy w hwS, hpy y hyS]
      have : w - z = (1 - t) • (y - z) := by
        funext i; simp only [Pi.sub_apply, hwi, Pi.smul_apply, smul_eq_mul]; ring
      rw [this, mulVec_smul, nsq_smul]
      have h1 : (1 - t) ^ 2 ≤ 1 := by nlinarith
      nlinarith [nsq_nonneg (A *ᵥ (y - z))]
    have hcard : (S.erase i0).card < k := by
      rw [← hS]; exact Finset.card_erase_lt_of_mem hi0S
    obtain ⟨T, z', h1, h2, h3, h4⟩ := ih _ hcard (S.erase i0) rfl w hw0 hwE
    exact ⟨T, z', h1, h2, h3, h4.trans hcost⟩

/-- **Nonnegative least squares problems have a solution.** -/
theorem nnls_exists (A : Matrix m n ℝ) (b : m → ℝ) :
    ∃ y : n → ℝ, (∀ i, 0 ≤ y i) ∧
      ∀ y' : n → ℝ, (∀ i, 0 ≤ y' i) → nsq (A *ᵥ y - b) ≤ nsq (A *ᵥ y' - b) := by
  classical
  let P : Finset n → (n → ℝ) → Prop := fun T z => (∀ i, 0 ≤ z i) ∧ (∀ i, i ∉ T → z i = 0) ∧
        (∀ i ∈ T, (Aᵀ *ᵥ (A *ᵥ z - b)) i = 0)
  let G : Finset (Finset n) := Finset.univ.filter fun T => ∃ z, P T z
  have hG : G.Nonempty := by
    obtain ⟨T, z, h1, h2, h3, _⟩ := nnls_reduce A b _ Finset.univ rfl 0 (fun _ => le_refl _)
      (fun _ _ => rfl)
    exact ⟨T, by simp only [G, mem_filter, mem_univ, true_and]; exact ⟨z, h1, h2, h3⟩⟩
  let zf : Finset n → (n → ℝ) := fun T => if h : ∃ z, P T z then h.choose else 0
  have hzf : ∀ T ∈ G, P T (zf T) := by
    intro T hT
    have h : ∃ z, P T z := by simpa [G] using hT
    simp only [zf, dif_pos h]; exact h.choose_spec
  obtain ⟨T0, hT0, hmin⟩ := G.exists_min_image (fun T => nsq (A *ᵥ zf T - b)) hG
  refine ⟨zf T0, (hzf T0 hT0).1, fun y' hy' => ?_⟩
  obtain ⟨T, z, h1, h2, h3, h4⟩ := nnls_reduce A b _ Finset.univ rfl y' hy'
    (fun i hi => absurd (Finset.mem_univ i) hi)
  have hTG : T ∈ G := by simp only [G, mem_filter, mem_univ, true_and]; exact ⟨z, h1, h2, h3⟩
  obtain ⟨k1, k2, k3⟩ := hzf T hTG
  have : nsq (A *ᵥ zf T - b) ≤ nsq (A *ᵥ z - b) := by
    rw [nsq_pyth A b (zf T) z]
    · linarith [nsq_nonneg (A *ᵥ (z - zf T))]
    · apply Finset.sum_eq_zero
      intro i _
      by_cases hi : i ∈ T
      · rw [k3 i hi, mul_zero]
      · simp [h2 i hi, k2 i hi]
  exact (hmin T hTG).trans (this.trans h4)

theorem quad_first_order {p q ε : ℝ} (hε : 0 < ε) (hq : 0 ≤ q)
    (h : ∀ t, 0 ≤ t → t ≤ ε → 0 ≤ t * p + t ^ 2 * q) : 0 ≤ p := by
  by_contra hp
  push Not at hp
  rcases hq.eq_or_lt with rfl | hq
  · have := h ε hε.le le_rfl
    nlinarith
  · have hs : 0 < min ε (-p / (2 * q)) := lt_min hε (by apply div_pos <;> linarith)
    set t := min ε (-p / (2 * q)) with ht
    have h1 := h t hs.le (min_le_left _ _)
    have h2 : t * (2 * q) ≤ -p := by
      rw [← le_div_iff₀ (by linarith)]; exact min_le_right _ _
    nlinarith

/-- KKT conditions of nonnegative least squares: necessary ... -/
theorem nnls_kkt {A : Matrix m n ℝ} {b : m → ℝ} {y : n → ℝ} (hy : ∀ i, 0 ≤ y i)
    (hmin : ∀ y' : n → ℝ, (∀ i, 0 ≤ y' i) → nsq (A *ᵥ y - b) ≤ nsq (A *ᵥ y' - b)) :
    (∀ i, 0 ≤ (Aᵀ *ᵥ (A *ᵥ y - b)) i) ∧ y ⬝ᵥ (Aᵀ *ᵥ (A *ᵥ y - b)) = 0 := by
  set g := Aᵀ *ᵥ (A *ᵥ y - b) with hg
  have key : ∀ d : n → ℝ, ∀ t : ℝ,
      nsq (A *ᵥ (y + t • d) - b) = nsq (A *ᵥ y - b) + t * (2 * (d ⬝ᵥ g)) + t ^ 2 * nsq (A *ᵥ d) := by
    intro d t
    have e : A *ᵥ (y + t • d) - b = (A *ᵥ y - b) + t • (A *ᵥ d) := by
      rw [mulVec_add, mulVec_smul]; abel
    rw [e, nsq_add, nsq_smul, dotProduct_smul, hg, dotProduct_mulVec d, vecMul_transpose,
      dotProduct_comm (A *ᵥ d), smul_eq_mul]
    ring
  constructor
  · intro i
    have hd : 0 ≤ 2 * ((Pi.single i 1 : n → ℝ) ⬝ᵥ g) := by
      apply quad_first_order one_pos (nsq_nonneg (A *ᵥ Pi.single i 1))
      intro t ht _
      have := hmin (y + t • Pi.single i 1) (fun j => by
        by_cases h : j = i
        · subst h; simp; linarith [hy j]
        · simp [h, hy j])
      rw [key] at this; linarith
    rw [single_dotProduct, one_mul] at hd; linarith
  · have h1 : 0 ≤ 2 * (y ⬝ᵥ g) := by
      apply quad_first_order one_pos (nsq_nonneg (A *ᵥ y))
      intro t ht _
      have := hmin (y + t • y) (fun j => by
        simp only [Pi.add_apply, Pi.smul_apply, smul_eq_mul]
        exact add_nonneg (hy j) (mul_nonneg ht (hy j)))
      rw [key] at this; linarith
    have h2 : 0 ≤ 2 * ((-y) ⬝ᵥ g) := by
      apply quad_first_order one_pos (nsq_nonneg (A *ᵥ (-y)))
      intro t ht ht1
      have := hmin (y + t • (-y)) (fun j => by
        simp only [Pi.add_apply, Pi.smul_apply, smul_eq_mul, Pi.neg_apply]
        nlinarith [hy j])
      rw [key] at this; linarith
    rw [neg_dotProduct] at h2
    linarith

/-- ... and sufficient. -/
theorem nnls_of_kkt {A : Matrix m n ℝ} {b : m → ℝ} {y : n → ℝ}
    (h1 : ∀ i, 0 ≤ (Aᵀ *ᵥ (A *ᵥ y - b)) i) (h2 : y ⬝ᵥ (Aᵀ *ᵥ (A *ᵥ y - b)) = 0)
    (y' : n → ℝ) (hy' : ∀ i, 0 ≤ y' i) : nsq (A *ᵥ y - b) ≤ nsq (A *ᵥ y' - b) := by
  have e : A *ᵥ y' - b = (A *ᵥ y - b) + A *ᵥ (y' - y) := by rw [mulVec_sub]; abel
  rw [e, nsq_add]
  have : (A *ᵥ y - b) ⬝ᵥ (A *ᵥ (y' - y)) = y' ⬝ᵥ (Aᵀ *ᵥ (A *ᵥ y - b)) := by
    rw [dotProduct_comm, ← vecMul_transpose, ← dotProduct_mulVec, sub_dotProduct, h2, sub_zero]
  rw [this]
  have h3 : 0 ≤ y' ⬝ᵥ (Aᵀ *ᵥ (A *ᵥ y - b)) :=
    Finset.sum_nonneg fun i _ => mul_nonneg (hy' i) (h1 i)
  linarith [nsq_nonneg (A *ᵥ (y' - y))]

end Verif.Math
