import Mathlib.Topology.Order.Compact
import Mathlib.Topology.Order.DenselyOrdered
import Mathlib.Analysis.SpecialFunctions.Pow.Real

/- A function that is Lipschitz on each of finitely many closed sets that cover an interval is Lipschitz on the interval. -/
namespace Verif.LipschitzCover
open Set

theorem cover {ι : Type} [DecidableEq ι] (I : Finset ι) (S : ι → Set ℝ) (hS : ∀ i ∈ I, IsClosed (S i)) (g : ℝ → ℝ) (K : ℝ)
    (hg : ∀ i ∈ I, ∀ s ∈ S i, ∀ t ∈ S i, s ≤ t → |g t - g s| ≤ K * (t - s)) (a b : ℝ) (hab : a ≤ b) (hcov : ∀ t ∈ Icc a b, ∃ i ∈ I, t ∈ S i) :
    |g b - g a| ≤ K * (b - a) := by
  induction I using Finset.strongInduction generalizing a with
  | H I ih =>
    obtain ⟨i, hi, ha⟩ := hcov a ⟨le_rfl, hab⟩
    -- the last point of the interval in this set
    have hc : IsCompact (S i ∩ Icc a b) := isCompact_Icc.inter_left (hS i hi)
    obtain ⟨t, ⟨ht1, ht2⟩, hmax⟩ := hc.exists_isMaxOn ⟨a, ha, le_rfl, hab⟩ (f := id) continuousOn_id
    have h1 := hg i hi a ha t ht1 ht2.1
    rcases eq_or_lt_of_le ht2.2 with rfl | hlt
    · exact h1
    · have h2 : |g b - g t| ≤ K * (b - t) := by
        refine ih (I.erase i) (Finset.erase_ssubset hi) (fun j hj => hS j (Finset.mem_of_mem_erase hj)) (fun j hj => hg j (Finset.mem_of_mem_erase hj)) t hlt.le ?_
        -- the remaining sets cover what is beyond that point, and are closed
        have hcl : IsClosed (⋃ j ∈ I.erase i, S j) := Set.Finite.isClosed_biUnion (Finset.finite_toSet _) fun j hj => hS j (Finset.mem_of_mem_erase hj)
        have hsub : Ioc t b ⊆ ⋃ j ∈ I.erase i, S j := by
          intro s hs
          obtain ⟨j, hj, hsj⟩ := hcov s ⟨ht2.1.trans hs.1.le, hs.2⟩
          have hne : j ≠ i := by
            rintro rfl
            exact absurd (hmax ⟨hsj, ht2.1.trans hs.1.le, hs.2⟩) (not_le.2 hs.1)
          exact mem_biUnion (Finset.mem_erase.2 ⟨hne, hj⟩) hsj
        have : Icc t b ⊆ ⋃ j ∈ I.erase i, S j := by
          rw [← closure_Ioc hlt.ne]
          exact hcl.closure_subset_iff.2 hsub
        intro s hs
        simpa using this hs
      have := abs_sub_le (g b) (g t) (g a)
      linarith

end Verif.LipschitzCover
