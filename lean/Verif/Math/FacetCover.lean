import Mathlib.Algebra.BigOperators.Ring.Finset
import Mathlib.Algebra.Order.BigOperators.Ring.Finset
import Mathlib.Topology.Order.Compact
import Mathlib.Topology.Instances.Real.Lemmas
import Mathlib.Topology.Algebra.Field
import Mathlib.Topology.MetricSpace.Pseudo.Lemmas
import Mathlib.Tactic.Linarith
import Mathlib.Tactic.FieldSimp
import Mathlib.Tactic.Ring

/-
Finitely many polyhedra with interior points cover the space as far as it can be reached through their facets: if each facet is a subset of one of the polyhedra that has also a point beyond it,
the polyhedra cover each point, unless the point is beyond a facet without such a neighbour.
-/
namespace Verif.FacetCover
open Finset Filter Topology

/-- the product of two vectors with `n` entries -/
def dot (n : ℕ) (a x : ℕ → ℝ) : ℝ := ∑ j ∈ range n, a j * x j

theorem dot_line (n : ℕ) (a w v : ℕ → ℝ) (t : ℝ) : dot n a (fun j => w j + t * v j) = dot n a w + t * dot n a v := by
  unfold dot
  rw [Finset.mul_sum, ← Finset.sum_add_distrib]
  exact Finset.sum_congr rfl fun j _ => by ring

theorem dot_sub (n : ℕ) (a w v : ℕ → ℝ) : dot n a (fun j => w j - v j) = dot n a w - dot n a v := by
  unfold dot
  rw [← Finset.sum_sub_distrib]
  exact Finset.sum_congr rfl fun j _ => by ring

theorem dot_comb (n : ℕ) (c d : ℝ) (a a' w : ℕ → ℝ) : dot n (fun j => c * a j - d * a' j) w = c * dot n a w - d * dot n a' w := by
  unfold dot
  rw [Finset.mul_sum, Finset.mul_sum, ← Finset.sum_sub_distrib]
  exact Finset.sum_congr rfl fun j _ => by ring

/-- a small move keeps strict inequalities -/
theorem small_lt {a b c : ℝ} (h : a < c) : ∀ᶠ δ in 𝓝[>] (0 : ℝ), a + δ * b < c := by
  have : ContinuousAt (fun δ : ℝ => a + δ * b) 0 := by fun_prop
  exact (this.eventually (gt_mem_nhds (by simpa using h))).filter_mono nhdsWithin_le_nhds

theorem small_ne {a b : ℝ} (h : a ≠ 0) : ∀ᶠ δ in 𝓝[>] (0 : ℝ), a + δ * b ≠ 0 := by
  have : ContinuousAt (fun δ : ℝ => a + δ * b) 0 := by fun_prop
  exact (this.eventually_ne (by simpa using h)).filter_mono nhdsWithin_le_nhds

/-- an open polyhedron is not covered by finitely many hyperplanes -/
theorem avoid {n : ℕ} {ι κ : Type*} (I : Finset ι) (a : ι → ℕ → ℝ) (b : ι → ℝ) (x : ℕ → ℝ) (G : Finset κ) (g : κ → ℕ → ℝ)
    (h0 : ∃ w, ∀ i ∈ I, dot n (a i) w < b i) (hg : ∀ k ∈ G, dot n (g k) (g k) ≠ 0) :
    ∃ w, (∀ i ∈ I, dot n (a i) w < b i) ∧ ∀ k ∈ G, dot n (g k) w ≠ dot n (g k) x := by
  classical
  induction G using Finset.induction_on with
  | empty => exact h0.imp fun w hw => ⟨hw, by simp⟩
  | insert k G hk ih =>
    obtain ⟨w, w1, w2⟩ := ih fun l hl => hg l (mem_insert_of_mem hl)
    by_cases hkw : dot n (g k) w = dot n (g k) x
    · have e1 : ∀ᶠ δ in 𝓝[>] (0 : ℝ), ∀ i ∈ I, dot n (a i) w + δ * dot n (a i) (g k) < b i :=
        (Filter.eventually_all_finset I).2 fun i hi => small_lt (w1 i hi)
      have e2 : ∀ᶠ δ in 𝓝[>] (0 : ℝ), ∀ l ∈ G, (dot n (g l) w - dot n (g l) x) + δ * dot n (g l) (g k) ≠ 0 :=
        (Filter.eventually_all_finset G).2 fun l hl => small_ne (sub_ne_zero.2 (w2 l hl))
      obtain ⟨δ, ⟨d1, d2⟩, d3⟩ := ((e1.and e2).and self_mem_nhdsWithin).exists
      refine ⟨fun j => w j + δ * g k j, fun i hi => by rw [dot_line]; exact d1 i hi, fun l hl => ?_⟩
      rw [dot_line]
      rcases mem_insert.1 hl with rfl | hl
      · rw [hkw]
        intro h
        have : δ * dot n (g l) (g l) = 0 := by linarith
        exact (mul_ne_zero (ne_of_gt d3) (hg l (mem_insert_self _ _))) this
      · intro h
        exact d2 l hl (by linarith)
    · refine ⟨w, w1, fun l hl => ?_⟩
      rcases mem_insert.1 hl with rfl | hl
      · exact hkw
      · exact w2 l hl

/-- The polyhedra `k < m` have the inequalities `a k i · y ≤ b k i`, `i ∈ I k`, no two of which imply one another, and points where all of them are strict.  Each facet is a subset of one
of the polyhedra that has also a point beyond the facet, or `x` is not beyond the facet.  Then `x` is in one of the polyhedra. -/
theorem cover {n m : ℕ} (I : ℕ → Finset ℕ) (a : ℕ → ℕ → ℕ → ℝ) (b : ℕ → ℕ → ℝ) (x : ℕ → ℝ) (hm : 0 < m)
    (hint : ∀ k < m, ∃ w, ∀ i ∈ I k, dot n (a k i) w < b k i)
    (hirr : ∀ k < m, ∀ i ∈ I k, ∀ j ∈ I k, i ≠ j → ∃ z, dot n (a k i) z ≤ b k i ∧ b k j < dot n (a k j) z)
    (hnb : ∀ k < m, ∀ i ∈ I k, dot n (a k i) x ≤ b k i ∨ ∃ l < m,
      (∀ y, (∀ j ∈ I k, dot n (a k j) y ≤ b k j) → dot n (a k i) y = b k i → ∀ j ∈ I l, dot n (a l j) y ≤ b l j) ∧
      ∃ p, (∀ j ∈ I l, dot n (a l j) p ≤ b l j) ∧ b k i < dot n (a k i) p) :
    ∃ k < m, ∀ i ∈ I k, dot n (a k i) x ≤ b k i := by
  classical
  -- a point from where the segment to `x` meets no two facets at once
  set g : ℕ × ℕ × ℕ → ℕ → ℝ := fun t j => (b t.1 t.2.2 - dot n (a t.1 t.2.2) x) * a t.1 t.2.1 j - (b t.1 t.2.1 - dot n (a t.1 t.2.1) x) * a t.1 t.2.2 j with hgd
  set G : Finset (ℕ × ℕ × ℕ) := ((range m).biUnion fun k => (I k ×ˢ I k).image fun ij => (k, ij.1, ij.2)).filter fun t => dot n (g t) (g t) ≠ 0 with hG
  obtain ⟨w, w1, w2⟩ := avoid (n := n) (I 0) (a 0) (b 0) x G g (hint 0 hm) fun t ht => (mem_filter.1 ht).2
  have hgen : ∀ k < m, ∀ i ∈ I k, ∀ j ∈ I k, dot n (g (k, i, j)) (g (k, i, j)) ≠ 0 → dot n (g (k, i, j)) w ≠ dot n (g (k, i, j)) x := by
    intro k hk i hi j hj h
    refine w2 _ (mem_filter.2 ⟨mem_biUnion.2 ⟨k, mem_range.2 hk, mem_image.2 ⟨(i, j), mem_product.2 ⟨hi, hj⟩, rfl⟩⟩, h⟩)
  set v : ℕ → ℝ := fun j => x j - w j with hv
  have hx1 : ∀ k i, dot n (a k i) x = dot n (a k i) w + dot n (a k i) v := fun k i => by rw [hv, dot_sub]; ring
  -- the last point of the segment that is covered
  set K : Set ℝ := {t | 0 ≤ t ∧ t ≤ 1 ∧ ∃ k < m, ∀ i ∈ I k, dot n (a k i) w + t * dot n (a k i) v ≤ b k i} with hK
  have hKc : IsCompact K := by
    refine Metric.isCompact_of_isClosed_isBounded ?_ ((Metric.isBounded_Icc (0 : ℝ) 1).subset fun t ht => ⟨ht.1, ht.2.1⟩)
    have : K = (Set.Icc 0 1) ∩ ⋃ k ∈ (range m : Set ℕ), {t | ∀ i ∈ I k, dot n (a k i) w + t * dot n (a k i) v ≤ b k i} := by
      ext t
      simp only [hK, Set.mem_setOf_eq, Set.mem_inter_iff, Set.mem_Icc, Set.mem_iUnion, and_assoc, exists_prop, coe_range, Set.mem_Iio]
    rw [this]
    refine isClosed_Icc.inter ((finite_toSet _).isClosed_biUnion fun k _ => ?_)
    simp only [Set.setOf_forall]
    refine isClosed_iInter fun i => isClosed_iInter fun _ => ?_
    exact isClosed_le (by fun_prop) continuous_const
  have hKn : K.Nonempty := ⟨0, le_rfl, zero_le_one, 0, hm, fun i hi => by rw [zero_mul, add_zero]; exact (w1 i hi).le⟩
  obtain ⟨s0, s1, k, hk, hks⟩ := hKc.sSup_mem hKn
  have hup : ∀ t ∈ K, t ≤ sSup K := fun t ht => le_csSup hKc.bddAbove ht
  set τ := sSup K with hτ
  by_cases h1 : τ = 1
  · refine ⟨k, hk, fun i hi => ?_⟩
    have := hks i hi
    rw [h1, one_mul] at this
    rw [hx1]
    exact this
  exfalso
  have hlt : τ < 1 := lt_of_le_of_ne s1 h1
  -- nothing is covered right after it
  have hnot : ∀ l < m, ¬ ∀ᶠ δ in 𝓝[>] (0 : ℝ), ∀ j ∈ I l, dot n (a l j) w + (τ + δ) * dot n (a l j) v ≤ b l j := by
    intro l hl h
    have h2 : ∀ᶠ δ in 𝓝[>] (0 : ℝ), τ + δ * 1 < 1 := small_lt hlt
    obtain ⟨δ, ⟨d1, d2⟩, d3⟩ := ((h.and h2).and self_mem_nhdsWithin).exists
    have d3 : 0 < δ := d3
    have := hup (τ + δ) ⟨by linarith, by linarith, l, hl, d1⟩
    linarith
  obtain ⟨i, hi, hit, hiv⟩ : ∃ i ∈ I k, dot n (a k i) w + τ * dot n (a k i) v = b k i ∧ 0 < dot n (a k i) v := by
    by_contra hno
    push Not at hno
    refine hnot k hk ((Filter.eventually_all_finset _).2 fun j hj => ?_)
    rcases lt_or_eq_of_le (hks j hj) with h | h
    · exact (small_lt (b := dot n (a k j) v) h).mono fun δ hδ => by rw [add_mul, ← add_assoc]; exact hδ.le
    · have h3 := hno j hj h
      filter_upwards [self_mem_nhdsWithin] with δ hδ
      have hδ : 0 < δ := hδ
      rw [add_mul, ← add_assoc, h]
      have := mul_nonneg hδ.le (neg_nonneg.2 h3)
      linarith
  set y : ℕ → ℝ := fun j => w j + τ * v j with hy
  have hyd : ∀ l j, dot n (a l j) y = dot n (a l j) w + τ * dot n (a l j) v := fun l j => dot_line ..
  have hbx : ∀ j, dot n (a k j) y = b k j → b k j - dot n (a k j) x = -((1 - τ) * dot n (a k j) v) := by
    intro j hj
    rw [← hj, hyd, hx1]
    ring
  have hiy : dot n (a k i) y = b k i := by rw [hyd]; exact hit
  have hα := hbx i hiy
  have hαneg : b k i - dot n (a k i) x < 0 := by
    rw [hα]
    have := mul_pos (sub_pos.2 hlt) hiv
    linarith
  -- the other inequalities are strict there
  have hslack : ∀ j ∈ I k, j ≠ i → dot n (a k j) y < b k j := by
    intro j hj hji
    refine lt_of_le_of_ne (by rw [hyd]; exact hks j hj) fun hjy => ?_
    by_cases hgg : dot n (g (k, i, j)) (g (k, i, j)) = 0
    · have hz : ∀ l < n, g (k, i, j) l = 0 := by
        unfold dot at hgg
        intro l hl
        have := (Finset.sum_eq_zero_iff_of_nonneg fun l _ => mul_self_nonneg (g (k, i, j) l)).1 hgg l (mem_range.2 hl)
        exact mul_self_eq_zero.1 this
      set lam := (b k j - dot n (a k j) x) / (b k i - dot n (a k i) x) with hlam
      have hprop : ∀ z, dot n (a k j) z = lam * dot n (a k i) z := by
        intro z
        have h2 : dot n (g (k, i, j)) z = 0 := Finset.sum_eq_zero fun l hl => by rw [hz l (mem_range.1 hl), zero_mul]
        rw [hgd] at h2
        simp only at h2
        rw [dot_comb] at h2
        rw [hlam, div_mul_eq_mul_div, eq_div_iff hαneg.ne]
        linarith
      have hb : b k j = lam * b k i := by rw [← hjy, hprop, hiy]
      obtain ⟨u, hu⟩ := hint k hk
      have u1 := hu i hi
      have u2 := hu j hj
      rw [hprop, hb] at u2
      rcases lt_trichotomy lam 0 with h | h | h
      · nlinarith
      · rw [h] at u2
        linarith
      · obtain ⟨z, z1, z2⟩ := hirr k hk i hi j hj hji.symm
        rw [hprop, hb] at z2
        nlinarith
    · refine hgen k hk i hi j hj hgg ?_
      have h2 : dot n (g (k, i, j)) w - dot n (g (k, i, j)) x = 0 := by
        rw [← dot_sub, hgd]
        simp only
        rw [dot_comb, dot_sub, dot_sub]
        rw [hα, hbx j hjy, hx1, hx1]
        ring
      linarith
  -- the neighbour beyond the facet
  obtain ⟨l, hl, hsub, p, hp, hpb⟩ := (hnb k hk i hi).resolve_left (by linarith)
  refine hnot l hl ?_
  set c := dot n (a k i) p - b k i with hc
  have hcpos : 0 < c := by linarith
  set α := dot n (a k i) v with hαd
  -- weights
  have hs : ∀ᶠ δ in 𝓝[>] (0 : ℝ), 0 + δ * (α / c) < 1 := small_lt one_pos
  have hrow : ∀ᶠ δ in 𝓝[>] (0 : ℝ), ∀ j ∈ I k, j ≠ i → dot n (a k j) y - b k j + δ * (dot n (a k j) v - (α / c) * (dot n (a k j) p - b k j)) < 0 := by
    refine (Filter.eventually_all_finset _).2 fun j hj => ?_
    by_cases hji : j = i
    · exact Filter.Eventually.of_forall fun δ h => absurd hji h
    · exact (small_lt (sub_neg.2 (hslack j hj hji))).mono fun δ h _ => h
  filter_upwards [hs, hrow, self_mem_nhdsWithin] with δ d1 d2 d3 j hj
  have d3 : 0 < δ := d3
  set s := δ * (α / c) with hsd
  have hs0 : 0 ≤ s := mul_nonneg d3.le (div_nonneg hiv.le hcpos.le)
  have hs1 : 0 < 1 - s := by linarith
  have hsc : s * c = δ * α := by rw [hsd]; field_simp
  set f : ℕ → ℝ := fun j => (1 - s)⁻¹ * (y j + δ * v j) - ((1 - s)⁻¹ * s) * p j with hf
  have hfd : ∀ A : ℕ → ℝ, dot n A f = (1 - s)⁻¹ * (dot n A y + δ * dot n A v - s * dot n A p) := by
    intro A
    unfold dot
    rw [Finset.mul_sum, Finset.mul_sum, ← Finset.sum_add_distrib, ← Finset.sum_sub_distrib, Finset.mul_sum]
    exact Finset.sum_congr rfl fun j _ => by rw [hf]; ring
  have hfi : dot n (a k i) f = b k i := by
    rw [hfd, hiy, inv_mul_eq_div, div_eq_iff hs1.ne']
    have : dot n (a k i) p = b k i + c := by rw [hc]; ring
    rw [this, ← hαd]
    linarith
  have hff := hsub f (fun j' hj' => by
    by_cases hji : j' = i
    · rw [hji, hfi]
    · rw [hfd, inv_mul_eq_div, div_le_iff₀ hs1]
      have := d2 j' hj' hji
      have e : δ * (dot n (a k j') v - (α / c) * (dot n (a k j') p - b k j')) = δ * dot n (a k j') v - s * (dot n (a k j') p - b k j') := by rw [hsd]; ring
      rw [e] at this
      linarith) hfi j hj
  have hpj := hp j hj
  have hfin : dot n (a l j) w + (τ + δ) * dot n (a l j) v = (1 - s) * dot n (a l j) f + s * dot n (a l j) p := by
    rw [hfd, mul_inv_cancel_left₀ hs1.ne', hyd]
    ring
  rw [hfin]
  nlinarith

end Verif.FacetCover
