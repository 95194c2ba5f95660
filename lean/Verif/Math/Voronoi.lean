import Mathlib.Analysis.InnerProductSpace.Basic
import Mathlib.Topology.Order.Basic

/- A Voronoi cell is determined by the points with which it shares a facet. -/
namespace Verif.Math
open Filter Topology
open scoped InnerProductSpace

variable {E : Type*} [NormedAddCommGroup E] [InnerProductSpace ℝ E]

theorem eventually_ne (a b : ℝ) (hb : b ≠ 0) : ∀ᶠ s in 𝓝[>] (0 : ℝ), a + s * b ≠ 0 := by
  by_cases ha : a = 0
  · filter_upwards [self_mem_nhdsWithin] with s hs
    rw [ha, zero_add]
    exact mul_ne_zero (ne_of_gt hs) hb
  · have : Tendsto (fun s : ℝ => a + s * b) (𝓝[>] 0) (𝓝 (a + 0 * b)) := by
      refine Tendsto.mono_left ?_ nhdsWithin_le_nhds
      exact (continuous_const.add (continuous_id.mul continuous_const)).tendsto 0
    rw [zero_mul, add_zero] at this
    exact this.eventually_ne ha

/-- a vector orthogonal to none of finitely many nonzero vectors -/
theorem exists_avoid : ∀ l : List E, (∀ v ∈ l, v ≠ 0) → ∃ e, ∀ v ∈ l, ⟪v, e⟫_ℝ ≠ 0
  | [], _ => ⟨0, fun _ h => by cases h⟩
  | v :: l, h => by
    classical
    obtain ⟨e, he⟩ := exists_avoid l (fun w hw => h w (List.mem_cons_of_mem _ hw))
    have hv : v ≠ 0 := h v List.mem_cons_self
    have key : ∀ w ∈ v :: l, ∀ᶠ s in 𝓝[>] (0 : ℝ), ⟪w, e + s • v⟫_ℝ ≠ 0 := by
      intro w hw
      simp only [inner_add_right, inner_smul_right]
      rcases List.mem_cons.1 hw with rfl | hw'
      · exact eventually_ne _ _ (inner_self_ne_zero.2 hv)
      · have hc : Tendsto (fun s : ℝ => ⟪w, e⟫_ℝ + s * ⟪w, v⟫_ℝ) (𝓝[>] 0) (𝓝 (⟪w, e⟫_ℝ + 0 * ⟪w, v⟫_ℝ)) := by
          refine Tendsto.mono_left ?_ nhdsWithin_le_nhds
          exact (continuous_const.add (continuous_id.mul continuous_const)).tendsto 0
        rw [zero_mul, add_zero] at hc
        exact hc.eventually_ne (he w hw')
    have all : ∀ᶠ s in 𝓝[>] (0 : ℝ), ∀ w ∈ (v :: l).toFinset, ⟪w, e + s • v⟫_ℝ ≠ 0 := by
      rw [Filter.eventually_all_finset]
      exact fun w hw => key w (by simpa using hw)
    obtain ⟨s, hs⟩ := all.exists
    exact ⟨e + s • v, fun w hw => hs w (by simpa using hw)⟩

theorem dist_cmp (p q d : E) : dist (p + d) q ^ 2 - dist (p + d) p ^ 2 = ‖q - p‖ ^ 2 - 2 * ⟪q - p, d⟫_ℝ := by
  have h1 : p + d - q = d - (q - p) := by abel
  have h2 : p + d - p = d := by abel
  rw [dist_eq_norm, dist_eq_norm, h1, h2, norm_sub_sq_real, real_inner_comm]
  ring

theorem dist_le_iff (p q d : E) : dist (p + d) p ≤ dist (p + d) q ↔ 2 * ⟪q - p, d⟫_ℝ ≤ ‖q - p‖ ^ 2 := by
  rw [← pow_le_pow_iff_left₀ dist_nonneg dist_nonneg two_ne_zero, ← sub_nonneg, dist_cmp, sub_nonneg]

theorem dist_lt_iff (p q d : E) : dist (p + d) p < dist (p + d) q ↔ 2 * ⟪q - p, d⟫_ℝ < ‖q - p‖ ^ 2 := by
  rw [← pow_lt_pow_iff_left₀ dist_nonneg dist_nonneg two_ne_zero, ← sub_pos, dist_cmp, sub_pos]

theorem voronoi_neighbours {ι : Type*} [Fintype ι] (p : ι → E) (hp : Function.Injective p) (i : ι) (N : ι → Prop)
    (hN : ∀ j, j ≠ i → (∃ z, dist z (p i) = dist z (p j) ∧ ∀ k, k ≠ i → k ≠ j → dist z (p i) < dist z (p k)) → N j)
    (x : E) (hx : ∀ j, N j → dist x (p i) ≤ dist x (p j)) (j : ι) : dist x (p i) ≤ dist x (p j) := by
  classical
  by_contra hcon
  obtain ⟨d, rfl⟩ : ∃ d, x = p i + d := ⟨x - p i, by abel⟩
  set w : ι → E := fun k => p k - p i with hw
  set c : ι → ℝ := fun k => ‖w k‖ ^ 2 with hc
  have hw0 : ∀ k, k ≠ i → w k ≠ 0 := fun k hk h => hk (hp (sub_eq_zero.1 h))
  have hc0 : ∀ k, k ≠ i → 0 < c k := fun k hk => by
    have := norm_pos_iff.2 (hw0 k hk)
    positivity
  have hj : c j < 2 * ⟪w j, d⟫_ℝ := by
    rw [dist_le_iff, not_le] at hcon
    exact hcon
  have hji : j ≠ i := by
    rintro rfl
    simp [hc, hw] at hj
  -- the vectors to avoid
  have hv : ∀ k l, k ≠ i → l ≠ i → k ≠ l → c k • w l - c l • w k ≠ 0 := by
    intro k l hk hl hkl h
    have h1 : c k • w l = c l • w k := sub_eq_zero.1 h
    have nk := norm_pos_iff.2 (hw0 k hk)
    have nl := norm_pos_iff.2 (hw0 l hl)
    have h2 : ‖c k • w l‖ = ‖c l • w k‖ := by rw [h1]
    rw [norm_smul, norm_smul, Real.norm_of_nonneg (hc0 k hk).le, Real.norm_of_nonneg (hc0 l hl).le] at h2
    have h3 : ‖w k‖ = ‖w l‖ := by
      have : (‖w k‖ - ‖w l‖) * (‖w k‖ * ‖w l‖) = 0 := by
        have : ‖w k‖ ^ 2 * ‖w l‖ = ‖w l‖ ^ 2 * ‖w k‖ := h2
        linear_combination this
      rcases mul_eq_zero.1 this with h | h
      · linarith
      · exact absurd h (by positivity)
    have h4 : c k = c l := by simp only [hc, h3]
    rw [h4] at h1
    have h5 : w l = w k := smul_right_injective E (hc0 l hl).ne' h1
    exact hkl (hp (sub_left_inj.1 h5)).symm
  set V : List E := ((Finset.univ : Finset (ι × ι)).filter fun q => q.1 ≠ i ∧ q.2 ≠ i ∧ q.1 ≠ q.2).toList.map
    fun q => c q.1 • w q.2 - c q.2 • w q.1 with hV
  obtain ⟨e, he⟩ := exists_avoid V (fun v hv' => by
    obtain ⟨q, hq, rfl⟩ := List.mem_map.1 hv'
    rw [Finset.mem_toList, Finset.mem_filter] at hq
    exact hv _ _ hq.2.1 hq.2.2.1 hq.2.2.2)
  have he' : ∀ k l, k ≠ i → l ≠ i → k ≠ l → ⟪c k • w l - c l • w k, e⟫_ℝ ≠ 0 := fun k l hk hl hkl =>
    he _ (List.mem_map.2 ⟨(k, l), by rw [Finset.mem_toList, Finset.mem_filter]; exact ⟨Finset.mem_univ _, hk, hl, hkl⟩, rfl⟩)
  -- shrink towards `p i`
  obtain ⟨θ, hθ1, hθ2⟩ := exists_between (show c j / (2 * ⟪w j, d⟫_ℝ) < 1 by
    rw [div_lt_one (lt_trans (hc0 j hji) hj)]
    exact hj)
  have hr : 0 < 2 * ⟪w j, d⟫_ℝ := lt_trans (hc0 j hji) hj
  have hθ0 : 0 < θ := lt_trans (div_pos (hc0 j hji) hr) hθ1
  have hj1 : c j < 2 * ⟪w j, θ • d⟫_ℝ := by
    rw [inner_smul_right]
    rw [div_lt_iff₀ hr] at hθ1
    linarith
  have hN1 : ∀ k, k ≠ i → N k → 2 * ⟪w k, θ • d⟫_ℝ < c k := by
    intro k hk hNk
    have h1 := (dist_le_iff _ _ _).1 (hx k hNk)
    have h2 : 2 * ⟪w k, d⟫_ℝ ≤ c k := h1
    rw [inner_smul_right]
    have := hc0 k hk
    nlinarith
  -- perturb
  have cont : ∀ k, Tendsto (fun s : ℝ => 2 * ⟪w k, θ • d + s • e⟫_ℝ) (𝓝[>] 0) (𝓝 (2 * ⟪w k, θ • d⟫_ℝ)) := by
    intro k
    have : Tendsto (fun s : ℝ => 2 * ⟪w k, θ • d + s • e⟫_ℝ) (𝓝[>] 0) (𝓝 (2 * (⟪w k, θ • d⟫_ℝ + 0 * ⟪w k, e⟫_ℝ))) := by
      simp only [inner_add_right, inner_smul_right _ e]
      refine Tendsto.mono_left ?_ nhdsWithin_le_nhds
      exact (continuous_const.mul (continuous_const.add (continuous_id.mul continuous_const))).tendsto 0
    rwa [zero_mul, add_zero] at this
  have e1 : ∀ᶠ s in 𝓝[>] (0 : ℝ), ∀ k, k ≠ i → N k → 2 * ⟪w k, θ • d + s • e⟫_ℝ < c k := by
    rw [Filter.eventually_all]
    intro k
    by_cases hk : k ≠ i ∧ N k
    · filter_upwards [(cont k).eventually_lt_const (hN1 k hk.1 hk.2)] with s hs _ _
      exact hs
    · exact Filter.Eventually.of_forall fun s h1 h2 => absurd ⟨h1, h2⟩ hk
  have e2 : ∀ᶠ s in 𝓝[>] (0 : ℝ), c j < 2 * ⟪w j, θ • d + s • e⟫_ℝ := (cont j).eventually_const_lt hj1
  have e3 : ∀ᶠ s in 𝓝[>] (0 : ℝ), ∀ q : ι × ι, q.1 ≠ i → q.2 ≠ i → q.1 ≠ q.2 → ⟪c q.1 • w q.2 - c q.2 • w q.1, θ • d + s • e⟫_ℝ ≠ 0 := by
    rw [Filter.eventually_all]
    rintro ⟨k, l⟩
    by_cases hk : k ≠ i ∧ l ≠ i ∧ k ≠ l
    · simp only [inner_add_right, inner_smul_right _ e]
      filter_upwards [eventually_ne ⟪c k • w l - c l • w k, θ • d⟫_ℝ _ (he' k l hk.1 hk.2.1 hk.2.2)] with s hs _ _ _
      exact hs
    · exact Filter.Eventually.of_forall fun s h1 h2 h3 => absurd ⟨h1, h2, h3⟩ hk
  obtain ⟨s, hs1, hs2, hs3⟩ := (e1.and (e2.and e3)).exists
  set d' := θ • d + s • e with hd'
  set r : ι → ℝ := fun k => 2 * ⟪w k, d'⟫_ℝ with hr'
  -- the first bisector crossed
  obtain ⟨k, hkK, hmin⟩ := Finset.exists_min_image (Finset.univ.filter fun k => k ≠ i ∧ c k < r k) (fun k => c k / r k)
    ⟨j, by rw [Finset.mem_filter]; exact ⟨Finset.mem_univ _, hji, hs2⟩⟩
  rw [Finset.mem_filter] at hkK
  obtain ⟨-, hki, hkr⟩ := hkK
  have hrk : 0 < r k := lt_trans (hc0 k hki) hkr
  set t := c k / r k with ht
  have ht0 : 0 < t := div_pos (hc0 k hki) hrk
  have ht1 : t < 1 := (div_lt_one hrk).2 hkr
  have hNk : N k := by
    refine hN k hki ⟨p i + t • d', ?_, fun l hl hlk => ?_⟩
    · have := dist_cmp (p i) (p k) (t • d')
      rw [inner_smul_right] at this
      have h0 : ‖p k - p i‖ ^ 2 - 2 * (t * ⟪p k - p i, d'⟫_ℝ) = 0 := by
        show c k - 2 * (t * ⟪w k, d'⟫_ℝ) = 0
        have : t * r k = c k := div_mul_cancel₀ _ hrk.ne'
        simp only [hr'] at this
        linarith
      rw [h0] at this
      exact (pow_left_inj₀ dist_nonneg dist_nonneg two_ne_zero).1 (by linarith)
    · rw [dist_lt_iff, inner_smul_right]
      show 2 * (t * ⟪w l, d'⟫_ℝ) < c l
      have e0 : 2 * (t * ⟪w l, d'⟫_ℝ) = t * r l := by simp only [hr']; ring
      rw [e0]
      by_cases hl' : c l < r l
      · have h1 := hmin l (by rw [Finset.mem_filter]; exact ⟨Finset.mem_univ _, hl, hl'⟩)
        have hrl : 0 < r l := lt_trans (hc0 l hl) hl'
        have h2 : t * r l ≤ c l := (le_div_iff₀ hrl).1 h1
        refine lt_of_le_of_ne h2 fun h3 => ?_
        refine hs3 (k, l) hki hl (Ne.symm hlk) ?_
        show ⟪c k • w l - c l • w k, d'⟫_ℝ = 0
        rw [inner_sub_left, real_inner_smul_left, real_inner_smul_left]
        have h4 : t * r k = c k := div_mul_cancel₀ _ hrk.ne'
        have h5 : c k * r l = c l * r k := by rw [← h3, ← h4]; ring
        simp only [hr'] at h5
        linarith
      · have := hc0 l hl
        rcases le_or_gt (r l) 0 with h | h
        · nlinarith
        · nlinarith [not_lt.1 hl']
  exact absurd (hs1 k hki hNk) (not_lt.2 hkr.le)

end Verif.Math
