import Verif.Math.Nnls

/-
Farkas' lemma, strong duality and attainment of linear programs, Stiemke's lemma, boundedness of
polyhedra.  (Mathematics only, independent of the model.)
-/
set_option linter.unusedSectionVars false

namespace Verif.Math
open Matrix Finset

variable {m n : Type} [Fintype m] [Fintype n] [DecidableEq m] [DecidableEq n]

/-- Farkas' lemma: cone membership or separating hyperplane. -/
theorem farkas (A : Matrix m n ℝ) (b : m → ℝ) (h : ¬ ∃ y : n → ℝ, (∀ i, 0 ≤ y i) ∧ A *ᵥ y = b) :
    ∃ g : m → ℝ, (∀ i, (Aᵀ *ᵥ g) i ≤ 0) ∧ 0 < b ⬝ᵥ g := by
  obtain ⟨y, hy, hmin⟩ := nnls_exists A b
  obtain ⟨k1, k2⟩ := nnls_kkt hy hmin
  have hne : A *ᵥ y - b ≠ 0 := fun h0 => h ⟨y, hy, sub_eq_zero.1 h0⟩
  refine ⟨-(A *ᵥ y - b), fun i => by rw [mulVec_neg, Pi.neg_apply]; linarith [k1 i], ?_⟩
  have hs := nsq_pos hne
  have e : nsq (A *ᵥ y - b) = (A *ᵥ y) ⬝ᵥ (A *ᵥ y - b) - b ⬝ᵥ (A *ᵥ y - b) := by
    rw [nsq, sub_dotProduct]
  have e2 : (A *ᵥ y) ⬝ᵥ (A *ᵥ y - b) = 0 := by
    rw [← k2, dotProduct_mulVec y, vecMul_transpose]
  rw [dotProduct_neg]; linarith

/-- the matrix `[Aᵀ; bᵀ]` -/
def stackT (A : Matrix m n ℝ) (b : m → ℝ) : Matrix (n ⊕ Unit) m ℝ :=
  fun i j => Sum.elim (fun k => A j k) (fun _ => b j) i

theorem stackT_mulVec (A : Matrix m n ℝ) (b : m → ℝ) (y : m → ℝ) :
    stackT A b *ᵥ y = Sum.elim (Aᵀ *ᵥ y) (fun _ => b ⬝ᵥ y) := by
  funext i
  cases i <;> simp [stackT, mulVec, dotProduct]

theorem stackT_T_mulVec (A : Matrix m n ℝ) (b : m → ℝ) (g : n ⊕ Unit → ℝ) (i : m) :
    ((stackT A b)ᵀ *ᵥ g) i = (A *ᵥ (fun k => g (Sum.inl k))) i + b i * g (Sum.inr ()) := by
  simp [stackT, mulVec, dotProduct, Fintype.sum_sum_type]

theorem dot_sum (f : n → ℝ) (c : ℝ) (g : n ⊕ Unit → ℝ) :
    (Sum.elim f (fun _ => c)) ⬝ᵥ g = f ⬝ᵥ (fun k => g (Sum.inl k)) + c * g (Sum.inr ()) := by
  simp [dotProduct, Fintype.sum_sum_type]

/-- A system of inequalities without solution has a Farkas certificate. -/
theorem farkas_ineq (A : Matrix m n ℝ) (b : m → ℝ) (h : ¬ ∃ x : n → ℝ, ∀ i, (A *ᵥ x) i ≤ b i) :
    ∃ y : m → ℝ, (∀ i, 0 ≤ y i) ∧ Aᵀ *ᵥ y = 0 ∧ b ⬝ᵥ y < 0 := by
  by_cases hc : ∃ y : m → ℝ, (∀ i, 0 ≤ y i) ∧ stackT A b *ᵥ y = Sum.elim (0 : n → ℝ) (fun _ => -1)
  · obtain ⟨y, hy, he⟩ := hc
    rw [stackT_mulVec] at he
    refine ⟨y, hy, ?_, ?_⟩
    · funext k; exact congrFun he (Sum.inl k)
    · have := congrFun he (Sum.inr ()); simp only [Sum.elim_inr] at this; linarith
  · exfalso
    obtain ⟨g, h1, h2⟩ := farkas _ _ hc
    rw [dot_sum] at h2
    set s := g (Sum.inr ()) with hs
    have hs0 : 0 < -s := by
      have : (0 : n → ℝ) ⬝ᵥ (fun k => g (Sum.inl k)) = 0 := zero_dotProduct _
      linarith
    apply h
    refine ⟨(-s)⁻¹ • (fun k => g (Sum.inl k)), fun i => ?_⟩
    have := h1 i
    rw [stackT_T_mulVec, ← hs] at this
    rw [mulVec_smul, Pi.smul_apply, smul_eq_mul, inv_mul_le_iff₀ hs0]
    linarith

/-- Weak duality / the easy direction of Farkas' lemma. -/
theorem weak_duality {A : Matrix m n ℝ} {b : m → ℝ} {x : n → ℝ} {y : m → ℝ}
    (hx : ∀ i, (A *ᵥ x) i ≤ b i) (hy : ∀ i, 0 ≤ y i) : x ⬝ᵥ (Aᵀ *ᵥ y) ≤ b ⬝ᵥ y := by
  rw [dotProduct_mulVec, vecMul_transpose]
  exact Finset.sum_le_sum fun i _ => mul_le_mul_of_nonneg_right (hx i) (hy i)

/-- Strong duality at an optimal solution. -/
theorem strong_duality {A : Matrix m n ℝ} {b : m → ℝ} {f x : n → ℝ}
    (hx : ∀ i, (A *ᵥ x) i ≤ b i)
    (hopt : ∀ x' : n → ℝ, (∀ i, (A *ᵥ x') i ≤ b i) → f ⬝ᵥ x ≤ f ⬝ᵥ x') :
    ∃ y : m → ℝ, (∀ i, 0 ≤ y i) ∧ Aᵀ *ᵥ y = -f ∧ b ⬝ᵥ y = -(f ⬝ᵥ x) := by
  by_cases hc : ∃ y : m → ℝ, (∀ i, 0 ≤ y i) ∧
      stackT A b *ᵥ y = Sum.elim (-f) (fun _ => -(f ⬝ᵥ x))
  · obtain ⟨y, hy, he⟩ := hc
    rw [stackT_mulVec] at he
    refine ⟨y, hy, ?_, ?_⟩
    · funext k; exact congrFun he (Sum.inl k)
    · exact congrFun he (Sum.inr ())
  · exfalso
    obtain ⟨g, h1, h2⟩ := farkas _ _ hc
    rw [dot_sum] at h2
    set s := g (Sum.inr ()) with hs
    set d : n → ℝ := fun k => g (Sum.inl k) with hd
    have h1' : ∀ i, (A *ᵥ d) i + b i * s ≤ 0 := fun i => by
      have := h1 i; rwa [stackT_T_mulVec] at this
    rw [neg_dotProduct] at h2
    rcases lt_or_ge s 0 with hs0 | hs0
    · have hs1 : 0 < -s := by linarith
      have := hopt ((-s)⁻¹ • d) (fun i => by
        rw [mulVec_smul, Pi.smul_apply, smul_eq_mul, inv_mul_le_iff₀ hs1]
        linarith [h1' i])
      rw [dotProduct_smul, smul_eq_mul, le_inv_mul_iff₀ hs1] at this
      linarith
    · have := hopt (x + (d + s • x)) (fun i => by
        rw [mulVec_add, mulVec_add, mulVec_smul]
        simp only [Pi.add_apply, Pi.smul_apply, smul_eq_mul]
        nlinarith [h1' i, hx i])
      rw [dotProduct_add, dotProduct_add, dotProduct_smul, smul_eq_mul] at this
      linarith

/-- If the linear program is feasible and the dual is infeasible there is a descending ray. -/
theorem dual_infeasible_ray {A : Matrix m n ℝ} {f : n → ℝ}
    (h : ¬ ∃ y : m → ℝ, (∀ i, 0 ≤ y i) ∧ Aᵀ *ᵥ y = -f) :
    ∃ d : n → ℝ, (∀ i, (A *ᵥ d) i ≤ 0) ∧ f ⬝ᵥ d < 0 := by
  obtain ⟨g, h1, h2⟩ := farkas _ _ h
  rw [neg_dotProduct] at h2
  refine ⟨g, ?_, by linarith⟩
  simpa using h1

/-- primal-dual system `A x ≤ b`, `Aᵀ y ≤ -f`, `-Aᵀ y ≤ f`, `-y ≤ 0`, `f x + b y ≤ 0` -/
def pdMat (A : Matrix m n ℝ) (b : m → ℝ) (f : n → ℝ) :
    Matrix (m ⊕ n ⊕ n ⊕ m ⊕ Unit) (n ⊕ m) ℝ := fun i j =>
  match i, j with
  | .inl i, .inl j => A i j
  | .inl _, .inr _ => 0
  | .inr (.inl _), .inl _ => 0
  | .inr (.inl k), .inr j => A j k
  | .inr (.inr (.inl _)), .inl _ => 0
  | .inr (.inr (.inl k)), .inr j => - A j k
  | .inr (.inr (.inr (.inl _))), .inl _ => 0
  | .inr (.inr (.inr (.inl i))), .inr j => if i = j then -1 else 0
  | .inr (.inr (.inr (.inr _))), .inl j => f j
  | .inr (.inr (.inr (.inr _))), .inr j => b j

def pdRhs (b : m → ℝ) (f : n → ℝ) : m ⊕ n ⊕ n ⊕ m ⊕ Unit → ℝ
  | .inl i => b i
  | .inr (.inl k) => - f k
  | .inr (.inr (.inl k)) => f k
  | .inr (.inr (.inr (.inl _))) => 0
  | .inr (.inr (.inr (.inr _))) => 0

/-- A linear program that is feasible and has a feasible dual has an optimal solution. -/
theorem lp_attained {A : Matrix m n ℝ} {b : m → ℝ} {f x0 : n → ℝ} {y0 : m → ℝ}
    (hx0 : ∀ i, (A *ᵥ x0) i ≤ b i) (hy0 : ∀ i, 0 ≤ y0 i) (hd0 : Aᵀ *ᵥ y0 = -f) :
    ∃ x : n → ℝ, (∀ i, (A *ᵥ x) i ≤ b i) ∧
      ∀ x' : n → ℝ, (∀ i, (A *ᵥ x') i ≤ b i) → f ⬝ᵥ x ≤ f ⬝ᵥ x' := by
  by_cases hc : ∃ z : n ⊕ m → ℝ, ∀ i, (pdMat A b f *ᵥ z) i ≤ pdRhs b f i
  · obtain ⟨z, hz⟩ := hc
    set x : n → ℝ := fun k => z (.inl k) with hx
    set y : m → ℝ := fun k => z (.inr k) with hy
    have e1 : ∀ i, (A *ᵥ x) i ≤ b i := fun i => by
      have := hz (.inl i)
      simpa [pdMat, pdRhs, mulVec, dotProduct, Fintype.sum_sum_type] using this
    have e2 : Aᵀ *ᵥ y = -f := by
      funext k
      have h1 := hz (.inr (.inl k))
      have h2 := hz (.inr (.inr (.inl k)))
      simp only [pdMat, pdRhs, mulVec, dotProduct, Fintype.sum_sum_type, zero_mul,
        Finset.sum_const_zero, zero_add, neg_mul, Finset.sum_neg_distrib] at h1 h2
      simp only [mulVec, dotProduct, transpose_apply, Pi.neg_apply, hy]
      linarith
    have e3 : ∀ i, 0 ≤ y i := fun i => by
      have := hz (.inr (.inr (.inr (.inl i))))
      simp [pdMat, pdRhs, mulVec, dotProduct, Fintype.sum_sum_type] at this
      simpa [hy] using this
    have e4 : f ⬝ᵥ x + b ⬝ᵥ y ≤ 0 := by
      have := hz (.inr (.inr (.inr (.inr ()))))
      simpa [pdMat, pdRhs, mulVec, dotProduct, Fintype.sum_sum_type] using this
    refine ⟨x, e1, fun x' hx' => ?_⟩
    have hw := weak_duality hx' e3
    rw [e2, dotProduct_neg, dotProduct_comm] at hw
    linarith
  · exfalso
    obtain ⟨w, hw0, hw1, hw2⟩ := farkas_ineq _ _ hc
    set u : m → ℝ := fun i => w (.inl i) with hu
    set v : n → ℝ := fun k => w (.inr (.inl k)) - w (.inr (.inr (.inl k))) with hv
    set p : m → ℝ := fun k => w (.inr (.inr (.inr (.inl k)))) with hp
    set s : ℝ := w (.inr (.inr (.inr (.inr ())))) with hs
    have hs0 : 0 ≤ s := hw0 _
    have hu0 : ∀ i, 0 ≤ u i := fun i => hw0 _
    have hp0 : ∀ i, 0 ≤ p i := fun i => hw0 _
    have e1 : ∀ k, (Aᵀ *ᵥ u) k + s * f k = 0 := fun k => by
      have := congrFun hw1 (.inl k)
      simp [pdMat, mulVec, dotProduct, Fintype.sum_sum_type] at this
      simp only [mulVec, dotProduct, transpose_apply, hu]
      linarith
    have e2 : ∀ i, (A *ᵥ v) i - p i + s * b i = 0 := fun i => by
      have := congrFun hw1 (.inr i)
      simp [pdMat, mulVec, dotProduct, Fintype.sum_sum_type] at this
      simp only [mulVec, dotProduct, hv, hp, mul_sub, Finset.sum_sub_distrib]
      linarith
    have e3 : b ⬝ᵥ u - f ⬝ᵥ v < 0 := by
      simp [pdRhs, dotProduct, Fintype.sum_sum_type] at hw2
      simp only [dotProduct, hu, hv, mul_sub, Finset.sum_sub_distrib]
      linarith
    have hfu : Aᵀ *ᵥ u = -(s • f) := by
      funext k
      have := e1 k
      simp only [Pi.neg_apply, Pi.smul_apply, smul_eq_mul]; linarith
    -- weak duality against `x0`, `y0`
    have hAv : ∀ i, (A *ᵥ (-v)) i ≤ s * b i := fun i => by
      rw [mulVec_neg, Pi.neg_apply]; linarith [e2 i, hp0 i]
    rcases hs0.eq_or_lt with h0 | h0
    · have k1 := weak_duality hx0 hu0
      rw [hfu, ← h0] at k1
      simp at k1
      have k2 := weak_duality (b := 0) (x := -v) (y := y0) (A := A)
        (fun i => by have := hAv i; rw [← h0] at this; simpa using this) hy0
      rw [hd0, neg_dotProduct_neg, zero_dotProduct, dotProduct_comm] at k2
      linarith
    · have k1 := weak_duality (b := s • b) (x := -v) (y := u) (A := A)
        (fun i => by simpa using hAv i) hu0
      rw [hfu, neg_dotProduct_neg, dotProduct_smul, smul_dotProduct, dotProduct_comm,
        smul_eq_mul, smul_eq_mul] at k1
      nlinarith

/-- A feasible linear program whose cost is bounded below has an optimal solution. -/
theorem lp_attained_of_bounded {A : Matrix m n ℝ} {b : m → ℝ} {f x0 : n → ℝ}
    (hx0 : ∀ i, (A *ᵥ x0) i ≤ b i) {M : ℝ}
    (hM : ∀ x : n → ℝ, (∀ i, (A *ᵥ x) i ≤ b i) → M ≤ f ⬝ᵥ x) :
    ∃ x : n → ℝ, (∀ i, (A *ᵥ x) i ≤ b i) ∧
      ∀ x' : n → ℝ, (∀ i, (A *ᵥ x') i ≤ b i) → f ⬝ᵥ x ≤ f ⬝ᵥ x' := by
  by_cases h : ∃ y : m → ℝ, (∀ i, 0 ≤ y i) ∧ Aᵀ *ᵥ y = -f
  · obtain ⟨y, h1, h2⟩ := h
    exact lp_attained hx0 h1 h2
  · exfalso
    obtain ⟨d, h1, h2⟩ := dual_infeasible_ray h
    have hM0 := hM x0 hx0
    set t := (f ⬝ᵥ x0 - M + 1) / (-(f ⬝ᵥ d)) with ht
    have hfd : 0 < -(f ⬝ᵥ d) := by linarith
    have ht0 : 0 ≤ t := div_nonneg (by linarith) hfd.le
    have := hM (x0 + t • d) (fun i => by
      rw [mulVec_add, mulVec_smul]
      simp only [Pi.add_apply, Pi.smul_apply, smul_eq_mul]
      nlinarith [h1 i, hx0 i])
    rw [dotProduct_add, dotProduct_smul, smul_eq_mul] at this
    have e : t * (-(f ⬝ᵥ d)) = f ⬝ᵥ x0 - M + 1 := by rw [ht]; exact div_mul_cancel₀ _ hfd.ne'
    linarith

/-- Stiemke's lemma. -/
theorem stiemke (A : Matrix m n ℝ)
    (h : ∀ d : n → ℝ, (∀ i, (A *ᵥ d) i ≤ 0) → A *ᵥ d = 0) :
    ∃ y : m → ℝ, (∀ i, 0 < y i) ∧ Aᵀ *ᵥ y = 0 := by
  have key : ∀ i : m, ∃ y : m → ℝ, (∀ j, 0 ≤ y j) ∧ 1 ≤ y i ∧ Aᵀ *ᵥ y = 0 := by
    intro i
    by_cases hc : ∃ y : m → ℝ, (∀ j, 0 ≤ y j) ∧ Aᵀ *ᵥ y = - (Aᵀ *ᵥ Pi.single i 1)
    · obtain ⟨y, hy, he⟩ := hc
      refine ⟨y + Pi.single i 1, fun j => ?_, ?_, ?_⟩
      · by_cases hj : j = i
        · subst hj; simp; linarith [hy j]
        · simp [hj, hy j]
      · simp [hy i]
      · rw [mulVec_add, he]; simp
    · exfalso
      obtain ⟨g, h1, h2⟩ := farkas _ _ hc
      rw [transpose_transpose] at h1
      have := h g h1
      rw [neg_dotProduct, dotProduct_comm, dotProduct_mulVec, vecMul_transpose, this] at h2
      simp at h2
  choose Y h1 h2 h3 using key
  refine ⟨∑ i, Y i, fun j => ?_, ?_⟩
  · rw [Finset.sum_apply]
    calc (0:ℝ) < Y j j := by linarith [h2 j]
      _ ≤ ∑ i, Y i j := Finset.single_le_sum (f := fun i => Y i j) (fun i _ => h1 i j) (mem_univ j)
  · have : ∀ s : Finset m, Aᵀ *ᵥ (∑ i ∈ s, Y i) = 0 := by
      intro s
      induction s using Finset.induction_on with
      | empty => simp
      | insert a s ha ih => rw [Finset.sum_insert ha, mulVec_add, h3, ih, add_zero]
    exact this _

/-- the easy direction of Stiemke's lemma -/
theorem stiemke_easy {A : Matrix m n ℝ} {y : m → ℝ} (hy : ∀ i, 0 < y i) (he : Aᵀ *ᵥ y = 0)
    {d : n → ℝ} (hd : ∀ i, (A *ᵥ d) i ≤ 0) : A *ᵥ d = 0 := by
  have h0 : ∑ i, (A *ᵥ d) i * y i = 0 := by
    have : (A *ᵥ d) ⬝ᵥ y = d ⬝ᵥ (Aᵀ *ᵥ y) := by rw [dotProduct_mulVec, vecMul_transpose]
    rw [he, dotProduct_zero] at this
    exact this
  have := (Finset.sum_eq_zero_iff_of_nonpos
    (fun i _ => mul_nonpos_of_nonpos_of_nonneg (hd i) (hy i).le)).1 h0
  funext i
  have := this i (mem_univ i)
  rcases mul_eq_zero.1 this with h | h
  · exact h
  · exact absurd h (hy i).ne'

/-- A matrix with trivial kernel has a left inverse. -/
theorem exists_left_inverse (A : Matrix m n ℝ) (h : ∀ d : n → ℝ, A *ᵥ d = 0 → d = 0) :
    ∃ B : Matrix n m ℝ, B * A = 1 := by
  have hk : LinearMap.ker A.mulVecLin = ⊥ := by
    rw [LinearMap.ker_eq_bot']
    intro d hd; exact h d hd
  obtain ⟨g, hg⟩ := A.mulVecLin.exists_leftInverse_of_injective hk
  refine ⟨LinearMap.toMatrix' g, ?_⟩
  have hA : LinearMap.toMatrix' A.mulVecLin = A := LinearMap.toMatrix'_toLin' A
  rw [← hA, ← LinearMap.toMatrix'_comp, hg, LinearMap.toMatrix'_id]

/-- A polyhedron without recession directions is bounded. -/
theorem bounded_of_no_recession {A : Matrix m n ℝ} (b : m → ℝ)
    (h : ∀ d : n → ℝ, (∀ i, (A *ᵥ d) i ≤ 0) → d = 0) :
    ∃ R : ℝ, ∀ x : n → ℝ, (∀ i, (A *ᵥ x) i ≤ b i) → ∀ k, |x k| ≤ R := by
  obtain ⟨y, hy, he⟩ := stiemke A (fun d hd => by rw [h d hd, mulVec_zero])
  obtain ⟨B, hB⟩ := exists_left_inverse A (fun d hd => h d (fun i => by rw [hd]; simp))
  -- bound on the slack
  let S : m → ℝ := fun i => |b i| + |b ⬝ᵥ y| / y i
  refine ⟨∑ k, ∑ i, |B k i| * S i, fun x hx k => ?_⟩
  have hsl : ∀ i, |(A *ᵥ x) i| ≤ S i := by
    intro i
    have hsum : ∑ j, (b j - (A *ᵥ x) j) * y j = b ⬝ᵥ y := by
      have : (A *ᵥ x) ⬝ᵥ y = 0 := by
        have : (A *ᵥ x) ⬝ᵥ y = x ⬝ᵥ (Aᵀ *ᵥ y) := by rw [dotProduct_mulVec, vecMul_transpose]
        rw [this, he, dotProduct_zero]
      simp only [sub_mul, Finset.sum_sub_distrib]
      simp only [dotProduct] at this ⊢
      rw [this, sub_zero]
    have h1 : (b i - (A *ᵥ x) i) * y i ≤ b ⬝ᵥ y := by
      rw [← hsum]
      exact Finset.single_le_sum (f := fun j => (b j - (A *ᵥ x) j) * y j)
        (fun j _ => mul_nonneg (by linarith [hx j]) (hy j).le) (mem_univ i)
    have h2 : b i - (A *ᵥ x) i ≤ |b ⬝ᵥ y| / y i := by
      rw [le_div_iff₀ (hy i)]; exact h1.trans (le_abs_self _)
    have h3 := hx i
    have h4 : 0 ≤ |b ⬝ᵥ y| / y i := div_nonneg (abs_nonneg _) (hy i).le
    rw [abs_le]
    constructor <;> simp only [S] <;> linarith [neg_abs_le (b i), le_abs_self (b i)]
  have hxk : x k = ∑ i, B k i * (A *ᵥ x) i := by
    have : B *ᵥ (A *ᵥ x) = x := by rw [mulVec_mulVec, hB, one_mulVec]
    exact (congrFun this k).symm
  rw [hxk]
  have hS0 : ∀ i, 0 ≤ S i := fun i => (abs_nonneg _).trans (hsl i)
  calc |∑ i, B k i * (A *ᵥ x) i| ≤ ∑ i, |B k i * (A *ᵥ x) i| := Finset.abs_sum_le_sum_abs _ _
    _ ≤ ∑ i, |B k i| * S i := Finset.sum_le_sum fun i _ => by
        rw [abs_mul]; exact mul_le_mul_of_nonneg_left (hsl i) (abs_nonneg _)
    _ ≤ _ := Finset.single_le_sum (f := fun k => ∑ i, |B k i| * S i)
        (fun k _ => Finset.sum_nonneg fun i _ => mul_nonneg (abs_nonneg _) (hS0 i)) (mem_univ k)

/-- A non-empty bounded polyhedron has no recession direction. -/
theorem no_recession_of_bounded {A : Matrix m n ℝ} {b : m → ℝ} {x0 : n → ℝ}
    (hx0 : ∀ i, (A *ᵥ x0) i ≤ b i) {R : ℝ}
    (hR : ∀ x : n → ℝ, (∀ i, (A *ᵥ x) i ≤ b i) → ∀ k, |x k| ≤ R)
    {d : n → ℝ} (hd : ∀ i, (A *ᵥ d) i ≤ 0) : d = 0 := by
  funext k
  by_contra hk
  have hk' : 0 < |d k| := abs_pos.2 hk
  set t := (R + |x0 k| + 1) / |d k| with ht
  have hR0 : 0 ≤ R := (abs_nonneg _).trans (hR x0 hx0 k)
  have ht0 : 0 ≤ t := div_nonneg (by positivity) hk'.le
  have := hR (x0 + t • d) (fun i => by
      rw [mulVec_add, mulVec_smul]
      simp only [Pi.add_apply, Pi.smul_apply, smul_eq_mul]
      nlinarith [hd i, hx0 i]) k
  simp only [Pi.add_apply, Pi.smul_apply, smul_eq_mul] at this
  have h1 : |t * d k| = R + |x0 k| + 1 := by
    rw [abs_mul, abs_of_nonneg ht0, ht]; field_simp
  have h2 : |t * d k| ≤ |x0 k + t * d k| + |x0 k| := by
    have := abs_sub (x0 k + t * d k) (x0 k)
    simpa using this
  linarith

end Verif.Math
