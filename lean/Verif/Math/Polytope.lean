import Verif.Math.Farkas
import Mathlib.Analysis.Convex.KreinMilman
import Mathlib.Topology.Algebra.Module.FiniteDimension
import Mathlib.Topology.Instances.Matrix
import Mathlib.Algebra.BigOperators.Field

/-
Extreme points of polyhedra and facets of convex hulls of points.  (Mathematics only, independent of the model.)
-/
set_option linter.unusedSectionVars false

namespace Verif.Math
open Matrix Finset

variable {m n : Type} [Fintype m] [Fintype n] [DecidableEq m] [DecidableEq n]

/-- `{x | A x ≤ b}` -/
def polySet (A : Matrix m n ℝ) (b : m → ℝ) : Set (n → ℝ) := {x | ∀ i, (A *ᵥ x) i ≤ b i}

/-- `x` is not the midpoint of a segment of `S` -/
def IsExt (S : Set (n → ℝ)) (x : n → ℝ) : Prop := x ∈ S ∧ ∀ v, x + v ∈ S → x - v ∈ S → v = 0

theorem exists_small (s t : m → ℝ) (hs : ∀ i, 0 ≤ s i) (h0 : ∀ i, s i = 0 → t i = 0) : ∃ ε > 0, ∀ i, ε * |t i| ≤ s i := by
  classical
  have key : ∀ F : Finset m, ∃ ε > 0, ∀ i ∈ F, ε * |t i| ≤ s i := by
    intro F
    induction F using Finset.induction_on with
    | empty => exact ⟨1, one_pos, by simp⟩
    | insert i F hi ih =>
      obtain ⟨ε, he, h⟩ := ih
      rcases (hs i).eq_or_lt with hz | hp
      · refine ⟨ε, he, fun k hk => ?_⟩
        rcases Finset.mem_insert.1 hk with rfl | hk
        · rw [h0 _ hz.symm]; simp [← hz]
        · exact h k hk
      · refine ⟨min ε (s i / (|t i| + 1)), lt_min he (by positivity), fun k hk => ?_⟩
        rcases Finset.mem_insert.1 hk with rfl | hk
        · calc min ε (s k / (|t k| + 1)) * |t k| ≤ s k / (|t k| + 1) * (|t k| + 1) :=
              mul_le_mul (min_le_right _ _) (by linarith) (abs_nonneg _) (by positivity)
            _ = s k := by field_simp
        · exact (mul_le_mul_of_nonneg_right (min_le_left _ _) (abs_nonneg _)).trans (h k hk)
  obtain ⟨ε, he, h⟩ := key univ
  exact ⟨ε, he, fun i => h i (mem_univ i)⟩

/-- the extreme points are those determined by their active inequalities -/
theorem isExt_iff (A : Matrix m n ℝ) (b : m → ℝ) (x : n → ℝ) :
    IsExt (polySet A b) x ↔ x ∈ polySet A b ∧ ∀ v, (∀ i, (A *ᵥ x) i = b i → (A *ᵥ v) i = 0) → v = 0 := by
  refine and_congr_right fun hx => ⟨fun h v hv => ?_, fun h v h1 h2 => ?_⟩
  · obtain ⟨ε, he, hε⟩ := exists_small (fun i => b i - (A *ᵥ x) i) (A *ᵥ v) (fun i => sub_nonneg.2 (hx i))
      (fun i hi => hv i (by linarith))
    have := h (ε • v) (fun i => by
        rw [mulVec_add, mulVec_smul]
        simp only [Pi.add_apply, Pi.smul_apply, smul_eq_mul]
        have := hε i
        have := mul_le_mul_of_nonneg_left (le_abs_self ((A *ᵥ v) i)) he.le
        linarith) (fun i => by
        rw [mulVec_sub, mulVec_smul]
        simp only [Pi.sub_apply, Pi.smul_apply, smul_eq_mul]
        have := hε i
        have := mul_le_mul_of_nonneg_left (neg_abs_le ((A *ᵥ v) i)) he.le
        linarith)
    rcases smul_eq_zero.1 this with h0 | h0
    · exact absurd h0 he.ne'
    · exact h0
  · refine h v fun i hi => ?_
    have a1 := h1 i
    have a2 := h2 i
    rw [mulVec_add, Pi.add_apply] at a1
    rw [mulVec_sub, Pi.sub_apply] at a2
    linarith

theorem ext_finite (A : Matrix m n ℝ) (b : m → ℝ) : {x | IsExt (polySet A b) x}.Finite := by
  classical
  refine Set.Finite.of_finite_image (f := fun x => (univ.filter fun i => (A *ᵥ x) i = b i : Finset m)) (Set.toFinite _) ?_
  intro x hx y hy hxy
  have h := ((isExt_iff A b x).1 hx).2 (y - x) fun i hi => by
    have : i ∈ univ.filter fun i => (A *ᵥ y) i = b i := by
      rw [← show (univ.filter fun i => (A *ᵥ x) i = b i) = univ.filter fun i => (A *ᵥ y) i = b i from hxy]
      simp [hi]
    simp only [mem_filter, mem_univ, true_and] at this
    rw [mulVec_sub, Pi.sub_apply, this, hi, sub_self]
  exact (sub_eq_zero.1 h).symm

theorem polySet_compact {A : Matrix m n ℝ} {b : m → ℝ} {R : ℝ} (hR : ∀ x ∈ polySet A b, ∀ k, |x k| ≤ R) : IsCompact (polySet A b) := by
  refine IsCompact.of_isClosed_subset (isCompact_univ_pi fun _ : n => isCompact_Icc (a := -R) (b := R)) ?_ fun x hx k _ => abs_le.1 (hR x hx k)
  rw [show polySet A b = ⋂ i, {x | (A *ᵥ x) i ≤ b i} by ext; simp [polySet]]
  refine isClosed_iInter fun i => isClosed_le ?_ continuous_const
  exact (continuous_apply i).comp (Continuous.matrix_mulVec continuous_const continuous_id)

/-- a linear function on a bounded polyhedron has its maximum at an extreme point -/
theorem exists_ext_max {A : Matrix m n ℝ} {b : m → ℝ} {R : ℝ} (hR : ∀ x ∈ polySet A b, ∀ k, |x k| ≤ R) {x0 : n → ℝ} (h0 : x0 ∈ polySet A b)
    (g : n → ℝ) : ∃ x, IsExt (polySet A b) x ∧ g ⬝ᵥ x0 ≤ g ⬝ᵥ x := by
  have hK := polySet_compact hR
  let l : (n → ℝ) →L[ℝ] ℝ := LinearMap.toContinuousLinearMap (dotProductBilin ℝ ℝ g)
  have hl : ∀ x, l x = g ⬝ᵥ x := fun x => rfl
  have hF : IsCompact (l.toExposed (polySet A b)) := (ContinuousLinearMap.toExposed.isExposed).isCompact hK
  obtain ⟨x1, hx1, hmax⟩ := hK.exists_isMaxOn ⟨x0, h0⟩ l.continuous.continuousOn
  obtain ⟨x, hx⟩ := hF.extremePoints_nonempty ⟨x1, hx1, fun y hy => hmax hy⟩
  have hx' := (ContinuousLinearMap.toExposed.isExposed (A := polySet A b) (l := l)).isExtreme.extremePoints_subset_extremePoints hx
  refine ⟨x, ⟨hx'.1, fun v h1 h2 => ?_⟩, ?_⟩
  · have := hx'.2 h1 h2 ⟨1 / 2, 1 / 2, by norm_num, by norm_num, by norm_num, by
      funext k
      simp only [Pi.add_apply, Pi.smul_apply, smul_eq_mul, Pi.sub_apply]
      ring⟩
    simpa using this
  · rw [← hl, ← hl]
    exact hx.1.2 x0 h0

/-- the points of `R^n` that are convex combinations of the rows -/
def hullSet (P : Matrix m n ℝ) : Set (n → ℝ) := {x | ∃ w : m → ℝ, (∀ k, 0 ≤ w k) ∧ ∑ k, w k = 1 ∧ x = Pᵀ *ᵥ w}

theorem hull_separate (P : Matrix m n ℝ) {x : n → ℝ} (hx : x ∉ hullSet P) :
    ∃ (g : n → ℝ) (c : ℝ), (∀ k, (P *ᵥ g) k ≤ c) ∧ c < g ⬝ᵥ x := by
  by_contra hcon
  push Not at hcon
  apply hx
  by_contra hno
  obtain ⟨g, h1, h2⟩ := farkas (stackT P (fun _ => (1 : ℝ))) (Sum.elim x fun _ => 1) (by
    rintro ⟨w, hw, he⟩
    rw [stackT_mulVec] at he
    refine hno ⟨w, hw, ?_, ?_⟩
    · have := congrFun he (Sum.inr ())
      simpa [dotProduct] using this
    · funext k
      exact (congrFun he (Sum.inl k)).symm)
  rw [dot_sum] at h2
  have := hcon (fun k => g (Sum.inl k)) (-g (Sum.inr ())) fun k => by
    have := h1 k
    rw [stackT_T_mulVec] at this
    linarith
  rw [dotProduct_comm] at this
  linarith

/-- The convex hull of points that are not on a hyperplane is the intersection of its finitely many facets. -/
theorem exists_facets (P : Matrix m n ℝ) [Nonempty m] [Nonempty n]
    (hP : ∀ (a : n → ℝ) (d : ℝ), (∀ k, (P *ᵥ a) k = d) → a = 0) :
    ∃ F : Finset ((n → ℝ) × ℝ), (∀ f ∈ F, ∑ j, f.1 j ^ 2 = 1) ∧
      (∀ x, x ∈ hullSet P ↔ ∀ f ∈ F, f.1 ⬝ᵥ x + f.2 ≤ 0) ∧
      ∀ f ∈ F, ∀ (a : n → ℝ) (c : ℝ), (∀ k, (P *ᵥ f.1) k + f.2 = 0 → (P *ᵥ a) k + c = 0) → ∃ t : ℝ, a = t • f.1 ∧ c = t * f.2 := by
  classical
  have hM : (0 : ℝ) < Fintype.card m := by exact_mod_cast Fintype.card_pos
  set z : n → ℝ := fun j => (∑ k, P k j) / Fintype.card m with hz
  have hza : ∀ a : n → ℝ, a ⬝ᵥ z = (∑ k, (P *ᵥ a) k) / Fintype.card m := by
    intro a
    simp only [hz, dotProduct, mulVec]
    rw [Finset.sum_comm, Finset.sum_div]
    refine Finset.sum_congr rfl fun j _ => ?_
    rw [mul_div_assoc', Finset.mul_sum]
    congr 1
    exact Finset.sum_congr rfl fun k _ => mul_comm _ _
  -- the polar about the mean of the points
  set A : Matrix m n ℝ := fun k j => P k j - z j with hA
  have hAv : ∀ (a : n → ℝ) k, (A *ᵥ a) k = (P *ᵥ a) k - a ⬝ᵥ z := by
    intro a k
    simp only [hA, mulVec, dotProduct, sub_mul, Finset.sum_sub_distrib]
    congr 1
    exact Finset.sum_congr rfl fun k _ => mul_comm _ _
  have hrec : ∀ a : n → ℝ, (∀ i, (A *ᵥ a) i ≤ 0) → a = 0 := by
    intro a ha
    have hs : ∑ k, (A *ᵥ a) k = 0 := by
      simp only [hAv, Finset.sum_sub_distrib, Finset.sum_const, Finset.card_univ, nsmul_eq_mul, hza]
      field_simp
      ring
    have h0 := (Finset.sum_eq_zero_iff_of_nonpos fun k _ => ha k).1 hs
    exact hP a (a ⬝ᵥ z) fun k => by have := h0 k (mem_univ k); rw [hAv] at this; linarith
  obtain ⟨R, hR⟩ := bounded_of_no_recession (fun _ => (1 : ℝ)) hrec
  have hfin := ext_finite A fun _ => (1 : ℝ)
  have htight := fun a => isExt_iff A (fun _ => (1 : ℝ)) a
  have hpos : ∀ a, IsExt (polySet A fun _ => (1 : ℝ)) a → 0 < ∑ j, a j ^ 2 := by
    intro a ha
    refine (Finset.sum_nonneg fun j _ => sq_nonneg _).lt_of_ne fun h => ?_
    have h0 : a = 0 := by
      funext j
      have := (Finset.sum_eq_zero_iff_of_nonneg fun j _ => sq_nonneg (a j)).1 h.symm j (mem_univ j)
      simpa using this
    have := ((htight a).1 ha).2 (fun _ => 1) fun i hi => by
      rw [h0, mulVec_zero] at hi
      simp at hi
    obtain ⟨j⟩ := ‹Nonempty n›
    have := congrFun this j
    simp at this
  let nf : (n → ℝ) → (n → ℝ) × ℝ := fun a => ((1 / Real.sqrt (∑ j, a j ^ 2)) • a, -(1 + a ⬝ᵥ z) * (1 / Real.sqrt (∑ j, a j ^ 2)))
  refine ⟨hfin.toFinset.image nf, ?_, ?_, ?_⟩
  · intro f hf
    obtain ⟨a, ha, rfl⟩ := Finset.mem_image.1 hf
    have hp := hpos a (by simpa using ha)
    have hs := Real.sq_sqrt hp.le
    have hs0 := Real.sqrt_pos.2 hp
    simp only [nf, Pi.smul_apply, smul_eq_mul, mul_pow, ← Finset.mul_sum]
    rw [div_pow, hs]
    field_simp
  · intro x
    constructor
    · rintro ⟨w, hw, hw1, rfl⟩ f hf
      obtain ⟨a, ha, rfl⟩ := Finset.mem_image.1 hf
      have ha : IsExt (polySet A fun _ => (1 : ℝ)) a := by simpa using ha
      have hs0 := Real.sqrt_pos.2 (hpos a ha)
      have hle : a ⬝ᵥ (Pᵀ *ᵥ w) ≤ 1 + a ⬝ᵥ z := by
        rw [dotProduct_mulVec, vecMul_transpose]
        calc (P *ᵥ a) ⬝ᵥ w ≤ ∑ k, (1 + a ⬝ᵥ z) * w k := Finset.sum_le_sum fun k _ => by
              have := ha.1 k
              rw [hAv] at this
              exact mul_le_mul_of_nonneg_right (by linarith) (hw k)
          _ = _ := by rw [← Finset.mul_sum, hw1, mul_one]
      show ((1 / Real.sqrt (∑ j, a j ^ 2)) • a) ⬝ᵥ _ + -(1 + a ⬝ᵥ z) * (1 / Real.sqrt (∑ j, a j ^ 2)) ≤ 0
      rw [smul_dotProduct, smul_eq_mul]
      have : 0 < 1 / Real.sqrt (∑ j, a j ^ 2) := by positivity
      nlinarith
    · intro h
      by_contra hx
      obtain ⟨g, c, h1, h2⟩ := hull_separate P hx
      have hzc : g ⬝ᵥ z < c := by
        have hle : ∀ k, 0 ≤ c - (P *ᵥ g) k := fun k => sub_nonneg.2 (h1 k)
        rw [hza, div_lt_iff₀ hM]
        have hsum : ∑ k, (c - (P *ᵥ g) k) = c * Fintype.card m - ∑ k, (P *ᵥ g) k := by
          simp [Finset.sum_sub_distrib, mul_comm]
        have := (Finset.sum_nonneg fun k _ => hle k : 0 ≤ ∑ k, (c - (P *ᵥ g) k))
        rcases this.eq_or_lt with h0 | h0
        · have hk := (Finset.sum_eq_zero_iff_of_nonneg fun k _ => hle k).1 h0.symm
          have hg : g = 0 := hP g c fun k => by have := hk k (mem_univ k); linarith
          obtain ⟨k⟩ := ‹Nonempty m›
          have := hk k (mem_univ k)
          rw [hg, mulVec_zero] at this
          rw [hg, zero_dotProduct] at h2
          simp only [Pi.zero_apply] at this
          linarith
        · linarith
      have hs : 0 < c - g ⬝ᵥ z := by linarith
      obtain ⟨a, ha, hmax⟩ := exists_ext_max hR (x0 := (1 / (c - g ⬝ᵥ z)) • g) (fun k => by
        rw [mulVec_smul, Pi.smul_apply, smul_eq_mul, hAv, one_div, inv_mul_le_iff₀ hs]
        linarith [h1 k]) (x - z)
      have hlt : 1 < (x - z) ⬝ᵥ ((1 / (c - g ⬝ᵥ z)) • g) := by
        rw [dotProduct_smul, smul_eq_mul, one_div, sub_dotProduct, dotProduct_comm x, dotProduct_comm z, lt_inv_mul_iff₀ hs]
        linarith
      have := h (nf a) (Finset.mem_image_of_mem _ (by simpa using ha))
      have hs0 := Real.sqrt_pos.2 (hpos a ha)
      have e : (nf a).1 ⬝ᵥ x + (nf a).2 = (1 / Real.sqrt (∑ j, a j ^ 2)) * ((x - z) ⬝ᵥ a - 1) := by
        show ((1 / Real.sqrt (∑ j, a j ^ 2)) • a) ⬝ᵥ _ + -(1 + a ⬝ᵥ z) * (1 / Real.sqrt (∑ j, a j ^ 2)) = _
        rw [smul_dotProduct, smul_eq_mul, sub_dotProduct, dotProduct_comm x, dotProduct_comm z]
        ring
      rw [e] at this
      have : 0 < (1 / Real.sqrt (∑ j, a j ^ 2)) * ((x - z) ⬝ᵥ a - 1) := mul_pos (by positivity) (by linarith)
      linarith
  · intro f hf a' c' h
    obtain ⟨a, ha, rfl⟩ := Finset.mem_image.1 hf
    have ha : IsExt (polySet A fun _ => (1 : ℝ)) a := by simpa using ha
    set s := Real.sqrt (∑ j, a j ^ 2) with hs
    have hs0 : 0 < s := Real.sqrt_pos.2 (hpos a ha)
    set t := -(c' + a' ⬝ᵥ z) with ht
    have h0 := ((htight a).1 ha).2 (a' - t • a) fun k hk => by
      rw [hAv] at hk
      have h1 := h k (by
        show (P *ᵥ ((1 / s) • a)) k + -(1 + a ⬝ᵥ z) * (1 / s) = 0
        rw [mulVec_smul, Pi.smul_apply, smul_eq_mul, show (P *ᵥ a) k = 1 + a ⬝ᵥ z by linarith]
        ring)
      rw [mulVec_sub, mulVec_smul, Pi.sub_apply, Pi.smul_apply, smul_eq_mul, hAv, hAv, hk]
      linarith
    have h1 : a' = t • a := sub_eq_zero.1 h0
    refine ⟨t * s, ?_, ?_⟩
    · show a' = (t * s) • (1 / s) • a
      rw [smul_smul, mul_assoc, mul_one_div_cancel hs0.ne', mul_one, h1]
    · show c' = t * s * (-(1 + a ⬝ᵥ z) * (1 / s))
      have h2 : c' = -t - t * (a ⬝ᵥ z) := by
        have : a' ⬝ᵥ z = t * (a ⬝ᵥ z) := by rw [h1, smul_dotProduct, smul_eq_mul]
        linarith
      rw [h2]
      field_simp
      ring

end Verif.Math
