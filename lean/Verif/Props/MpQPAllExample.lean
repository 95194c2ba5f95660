import Verif.Props.MpQPAll
import Verif.Props.MpQPCoverageExample

/- The hypotheses of C122_partial on a program with two regions. -/
namespace Verif.Props
open Finset Verif.MpQP

/-- `C122_partial` on the program `clip`: the regions `x ≤ 0` and `0 ≤ x` cover each parameter -/
example (L : Lib) (hL : LibSpec L) : ∃ (q : MpQP) (sol : ExplicitSolution), q.Made ∧ q.data.Shape 1 1 ∧ 0 < q.Au.nr ∧
    explicit_solve L q 3 = .ok (some sol) ∧ sol.length = 2 ∧
    (∀ x : ℝ, (∃ u, q.data.Feas 1 1 u fun _ => x) → ∃ (a : List ℕ) (y z : ℝ), (∀ i ∈ a, i < q.Au.nr) ∧ q.data.Licq 1 a ∧ y ≤ x ∧ x ≤ z ∧
      1e-5 + q.Au.nr * 1e-7 + 2e-7 < z - y ∧ StrictBetween q.data 1 a y z) ∧
    ∀ x : Vec ℝ, x.n = 1 → ∃ cr ∈ sol, cr.polyhedron.Mem x.e ∧ cr.contains x = .ok true := by
  obtain ⟨q, hm, hd, hs, hA, -⟩ := clip_made
  have hd : IsClip q.data := by rw [hd]; exact clip_is
  obtain ⟨c1, c2, h, l1, l2⟩ := clip_search hL hm hd 0
  obtain ⟨⟨a1, a2, a3⟩, b1, b2, b3⟩ := clip_poly hm hd
  have hrow : ∀ cr ∈ [c1, c2], ∀ i < cr.polyhedron.A.nr, cr.polyhedron.A.e i 0 = 0 ∨ |cr.polyhedron.A.e i 0| = 1 := by
    intro cr hcr i hi
    right
    obtain ⟨P, ⟨e1, -⟩, rfl⟩ := l1
    obtain ⟨P', ⟨e1', -⟩, rfl⟩ := l2
    simp only [List.mem_cons, List.not_mem_nil, or_false] at hcr
    rcases hcr with rfl | rfl
    · simp only [e1] at hi ⊢
      obtain rfl : i = 0 := by omega
      rw [a2]; norm_num
    · simp only [e1'] at hi ⊢
      obtain rfl : i = 0 := by omega
      rw [b2]; norm_num
  have hans := fun xa (hxa : Reached L q 1e-5 xa) (_ : ∃ u, q.data.Feas 1 1 u xa.1.e) => clip_answer hL hm hd hxa
  have hnr : q.data.Au.nr = 1 := hd.nr
  have hf : ∀ x : ℕ → ℝ, ∃ u, q.data.Feas 1 1 u x := fun x => ⟨fun _ => 0, fun i hi => by
    obtain rfl : i = 0 := by omega
    rw [hd.lhs, hd.b]⟩
  have hwide : ∀ x : ℝ, (∃ u, q.data.Feas 1 1 u fun _ => x) → ∃ (a : List ℕ) (y z : ℝ), (∀ i ∈ a, i < q.Au.nr) ∧ q.data.Licq 1 a ∧ y ≤ x ∧ x ≤ z ∧
      1e-5 + q.Au.nr * 1e-7 + 2e-7 < z - y ∧ StrictBetween q.data 1 a y z := by
    intro x _
    rcases le_total x 0 with hx | hx
    · refine ⟨[], x - 1, 0, by simp, hd.licq _ (.inl rfl), by linarith, hx, by rw [hA]; norm_num; linarith, fun t _ t2 => ⟨fun _ => t, fun _ => 0, ?_, by simp, ?_⟩⟩
      · refine ⟨fun i hi => ?_, fun j hj => ?_, fun i hi => le_rfl, fun i hi => by simp⟩
        · obtain rfl : i = 0 := by omega
          rw [hd.lhs, hd.b]; exact t2.le
        · obtain rfl : j = 0 := by omega
          rw [hd.lag]; ring
      · intro i hi _
        obtain rfl : i = 0 := by omega
        rw [hd.lhs, hd.b]; exact t2
    · refine ⟨[0], 0, x + 1, by simp [hA], hd.licq _ (.inr rfl), hx, by linarith, by rw [hA]; norm_num; linarith,
        fun t t1 _ => ⟨fun _ => 0, fun _ => 100 * t, ?_, fun i hi => by linarith, ?_⟩⟩
      · refine ⟨fun i hi => ?_, fun j hj => ?_, fun i hi => by linarith, fun i hi => ?_⟩
        · obtain rfl : i = 0 := by omega
          rw [hd.lhs, hd.b]
        · obtain rfl : j = 0 := by omega
          rw [hd.lag]; ring
        · obtain rfl : i = 0 := by omega
          rw [hd.lhs, hd.b]; ring
      · intro i hi hi0
        obtain rfl : i = 0 := by omega
        simp at hi0
  exact ⟨q, _, hm, hs, by omega, h, rfl, hwide, fun x hx =>
    C122_partial L hL 1 q hm hs one_pos (by omega) 1e-5 (by norm_num) 3 _ h hrow hans (hf _) hwide x hx (hf _)⟩

end Verif.Props
