import Verif.Props.MpQPNeighbours
import Verif.Props.MpcExplicitFalse

/- The hypotheses of C103 on a program with two regions: the facet `x ≤ 0` of the first one. -/
namespace Verif.Props
open Finset Verif.MpQP

/-- on the program `clip` the search returns two regions; C103 at the only facet of the first one, whose step leads out of it -/
example (L : Lib) (hL : LibSpec L) : ∃ (q : MpQP) (sol : ExplicitSolution) (cr : CritReg), q.Made ∧ q.data.Shape 1 1 ∧
    explicit_solve L q 3 = .ok (some sol) ∧ sol.length = 2 ∧ sol[0]? = some cr ∧ 0 < cr.polyhedron.A.nr ∧
    (∃ z : ℕ → ℝ, (∀ j < cr.polyhedron.A.nr, j ≠ 0 → Spec.rowVal cr.polyhedron.A j z ≤ cr.polyhedron.b.e j) ∧
      cr.polyhedron.b.e 0 + 1e-7 ≤ Spec.rowVal cr.polyhedron.A 0 z) ∧
    1e-7 < (1e-5 : ℝ) * ∑ j ∈ range 1, cr.polyhedron.A.e 0 j ^ 2 ∧
    ∃ (x : Vec ℝ) (guess : List ℕ), x.n = 1 ∧ x.e 0 = 1e-5 ∧ (∀ j, j ∈ guess ↔ j = 0) ∧ Through L q sol (x, guess) ∧ cr.contains x = .ok false := by
  obtain ⟨q, hm, hd, hs, -⟩ := clip_made
  have hd : IsClip q.data := by rw [hd]; exact clip_is
  obtain ⟨c1, c2, h, l1, l2⟩ := clip_search hL hm hd 0
  obtain ⟨⟨a1, a2, a3⟩, -⟩ := clip_poly hm hd
  obtain ⟨P, ⟨e1, e2, -, -⟩, rfl⟩ := l1
  have hnc : P.A.nc = 1 := by rw [e1]; exact (fCr_inv (a := []) hd.shape).1
  have hnr : P.A.nr = 1 := by rw [e1]; exact a1
  have hA : P.A.e 0 0 = 1 := by rw [e1]; exact a2
  have hb : P.b.e 0 = 0 := by rw [e2]; exact a3
  have hz : ∀ v : ℕ → ℝ, Spec.rowVal P.A 0 v = v 0 := fun v => by
    unfold Spec.rowVal
    rw [hnc, Finset.sum_range_one, hA, one_mul]
  have h1 : ∀ j < P.A.nr, j ≠ 0 → Spec.rowVal P.A j (fun _ => 1) ≤ P.b.e j := fun j hj hj0 => by omega
  have h2 : P.b.e 0 + 1e-7 ≤ Spec.rowVal P.A 0 (fun _ => 1) := by rw [hz, hb]; norm_num
  have h3 : 1e-7 < (1e-5 : ℝ) * ∑ j ∈ range 1, P.A.e 0 j ^ 2 := by
    rw [Finset.sum_range_one, hA]; norm_num
  obtain ⟨y, x, g, g1, g2, g3, -, g4, g5, g6⟩ := C103 L hL 1 1 q hm hs 1e-5 3 _ h 0 _ rfl 0 (by show 0 < P.A.nr; omega) (fun _ => 1) h1 h2
  refine ⟨q, _, _, hm, hs, h, rfl, rfl, by show 0 < P.A.nr; omega, ⟨fun _ => 1, h1, h2⟩, h3, x, g, g1, ?_, fun j => ?_, g5, g6 h3⟩
  · have e := g3 0 one_pos
    have e' : Spec.rowVal P.A 0 y = P.b.e 0 := g2
    rw [hz, hb] at e'
    have e'' : x.e 0 = y 0 + 1e-5 * P.A.e 0 0 := e
    rw [e'', e', hA]; norm_num
  · rw [g4]
    show Xor' (j ∈ ([] : List ℕ)) (j = 0) ↔ j = 0
    simp [Xor']

end Verif.Props
