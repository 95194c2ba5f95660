import Verif.Model.TestVertices
import Verif.Props.IntersectionTest
import Verif.Props.Vertices

/- C207: the polyhedra without vertices in the test of `vertices`. -/
namespace Verif.TestSuite
open Finset Verif.Props Spec

theorem fresh_caches {p : Poly} (h : p = Poly.fresh p.A p.b p.C p.d) : p._radius = none ∧ p._center = none ∧ p._vertices = none := by
  rw [h]
  exact ⟨rfl, rfl, rfl⟩

/-- the vertices of an unbounded polyhedron, and the polyhedron afterwards -/
theorem unbounded_vertices {L : Lib} (Q : Qhull) {p q : Poly} (hv : p._vertices = none) (h : ask p (Poly.bounded L) = .ok (false, q)) :
    ask p (Poly.vertices L Q) = .ok (none, q) := by
  have hb : Poly.bounded L p = (.ok false, q) := by
    unfold ask at h
    split at h
    · next a r e =>
      cases h
      exact e
    · cases h
  have : Poly.vertices L Q p = (.ok none, q) := by
    unfold Poly.vertices
    rw [PyM.bind_ok (show PyM.get p = (.ok p, p) from rfl)]
    rw [hv]
    exact PyM.bind_ok hb
  unfold ask
  rw [this]

theorem noVertices_ok (L : Lib) (hL : LibSpec L) (Q : Qhull) (hQ : QhullSpec Q) : noVertices L Q = .ok () := by
  obtain ⟨p1, h1, f1, r1⟩ := rep_from_lower 2 (full 2 0) none none (Or.inr ⟨rfl, rfl, rfl⟩) rfl
  have r1 : Rep 2 p1 [(fun z => -1 * z 0, 0), (fun z => -1 * z 1, 0)] [] := ⟨r1.inv, r1.ineq.trans (by simp [sel2, full, List.range_succ]), r1.eqs⟩
  obtain ⟨q1, a1, b1⟩ := (ask_bounded hL r1 f1 (by simp) (by norm_num) (fun _ => 0) (by simp) (by norm_num)).2 (fun _ => 1) (by simp) (by simp) ⟨0, by norm_num, by norm_num⟩
    (Or.inr (by norm_num))
  have v1 := unbounded_vertices Q (fresh_caches f1).2.2 a1
  obtain ⟨p2, h2, f2, r2⟩ := rep_upper b1 ⟨2, fun i => if i = 0 then 1 else 0⟩ none rfl
  have r2 : Rep 2 p2 ([(fun z => -1 * z 0, 0), (fun z => -1 * z 1, 0)] ++ [(fun z => 1 * z 0, 1), (fun z => 1 * z 1, 0)]) [] :=
    ⟨r2.inv, r2.ineq.trans (by simp [sel2, List.range_succ]), r2.eqs⟩
  have near : NearPoint 2 p2.A p2.b p2.C p2.d := ⟨fun _ => 0, (r2.mem _).2 (by simp), by norm_num⟩
  have bdd : IsBounded 2 p2.A p2.b p2.C p2.d := ⟨1, fun x hx j hj => by
    have := ((r2.mem x).1 hx).1
    simp at this
    obtain ⟨k1, k2, k3, k4⟩ := this
    rw [abs_le]
    interval_cases j <;> constructor <;> linarith⟩
  obtain ⟨q2, a2, A2, B2, C2, D2⟩ := (C86_partial L hL Q hQ 2 p2 r2.inv (fresh_emptyOk f2) (Or.inl (fresh_bounded f2)) (fresh_caches f2).1 (fresh_caches f2).2.1 (fresh_caches f2).2.2
    near bdd (Or.inl r2.len.2) (by rw [r2.len.2]; rfl)).2 (by
      rintro ⟨c, hc⟩
      have s : ∀ t : ℝ, t ^ 2 = (1e-7) ^ 2 → Real.sqrt (∑ j ∈ range 2, (if j = 1 then t else 0) ^ 2) ≤ 1e-7 := fun t ht => by
        rw [Finset.sum_range_succ, Finset.sum_range_one]
        simp only [if_true, zero_ne_one, if_false]
        rw [ht, show (0 : ℝ) ^ 2 + (1e-7) ^ 2 = (1e-7) ^ 2 by norm_num, Real.sqrt_sq (by norm_num)]
      have u := ((r2.mem _).1 (hc (fun j => if j = 1 then 1e-7 else 0) (fun i hi => absurd hi (by rw [r2.len.2]; simp)) (s _ rfl))).1
      have w := ((r2.mem _).1 (hc (fun j => if j = 1 then -1e-7 else 0) (fun i hi => absurd hi (by rw [r2.len.2]; simp)) (s _ (by norm_num)))).1
      simp at u w
      obtain ⟨-, -, -, u⟩ := u
      obtain ⟨-, w, -, -⟩ := w
      norm_num at u w
      linarith)
  have b2 : Rep 2 q2 ([(fun z => -1 * z 0, 0), (fun z => -1 * z 1, 0)] ++ [(fun z => 1 * z 0, 1), (fun z => 1 * z 1, 0)]) [] := by
    refine ⟨?_, ?_, ?_⟩
    · have := r2.inv
      unfold Poly.Inv at this ⊢
      rw [A2, B2, C2, D2]
      exact this
    · rw [A2, B2]; exact r2.ineq
    · rw [C2, D2]; exact r2.eqs
  have v2 : ask p2 (Poly.vertices L Q) = .ok (none, q2) := by
    unfold ask
    rw [a2]
  obtain ⟨p3, h3, f3, r3⟩ := rep_upper b2 (full 2 (-1)) none rfl
  have r3 : Rep 2 p3 (([(fun z => -1 * z 0, 0), (fun z => -1 * z 1, 0)] ++ [(fun z => 1 * z 0, 1), (fun z => 1 * z 1, 0)]) ++ [(fun z => 1 * z 0, -1), (fun z => 1 * z 1, -1)]) [] :=
    ⟨r3.inv, r3.ineq.trans (by simp [sel2, full, List.range_succ]), r3.eqs⟩
  obtain ⟨q3, a3⟩ := (C89_partial L hL Q 2 p3 r3.inv (fresh_emptyOk f3) (fresh_bounded f3) (fresh_caches f3).1 (fresh_caches f3).2.2).2.1 (fun x hx => by
      have := ((r3.mem x).1 hx).1
      simp at this
      obtain ⟨k1, -, -, -, k2, -⟩ := this
      linarith) (Or.inl r3.len.2) (fun i hi hv => by
      have hi : i < 6 := by rw [r3.len.1] at hi; exact hi
      have k := hv (fun _ => 1) fun k hk => absurd hk (by rw [r3.len.2]; simp)
      exfalso
      interval_cases i <;> (rw [(rep_row r3 rfl).1] at k; norm_num at k))
  have v3 : ask p3 (Poly.vertices L Q) = .ok (none, q3) := by
    unfold ask
    rw [a3]
  unfold noVertices fullB pairB
  rw [h1, Py.ok_bind, v1, Py.ok_bind]
  dsimp only
  rw [show assertTrue (none : Option (List (Vec ℝ))).isNone = .ok () from rfl, Py.ok_bind, h2, Py.ok_bind, v2, Py.ok_bind]
  dsimp only
  rw [show assertTrue (none : Option (List (Vec ℝ))).isNone = .ok () from rfl, Py.ok_bind, h3, Py.ok_bind, v3, Py.ok_bind]
  rfl

/-- C207, what is proved: in `test_vertices` the unbounded, the flat and the empty polyhedron have no vertices.  Missing with respect to C207: the comparisons with the
vertices of the other polyhedra of the test, which are C86 and C21 for all polyhedra up to the order of the vertices and the tolerances of `same_vectors`. -/
theorem C207_partial (L : Lib) (hL : LibSpec L) (Q : Qhull) (hQ : QhullSpec Q) : noVertices L Q = .ok () := noVertices_ok L hL Q hQ

end Verif.TestSuite
