import Verif.Props.PolyhedronSets
import Mathlib.Tactic.Linarith
import Mathlib.Tactic.NormNum
/-!
C152: membership in a polyhedron after an addition of inequalities that was rejected.  With a right-hand
side given as a column, `add_inequality` raises after the rows of `A` were stacked (`C06_false`).  If the
exception is caught and the object used again, `contains` subtracts a right-hand side that has fewer
entries than there are rows.  Numpy refuses, unless the right-hand side has exactly one entry, which is
then taken for all the rows.
-/
open Finset

namespace Verif.Props

/-- the rows of a rejected addition stay in the polyhedron -/
theorem rejected_state {n : ℕ} {p q : Poly} (hp : p.Inv n) {A B : Mat ℝ} {idx : Option (List ℕ)}
    (hB : B.nr * B.nc = A.nr) (hA : A.nc = (Poly.sel n idx).length) {e : PyErr}
    (h : Poly.add_inequality A (.d2 B) idx p = (.error e, q)) :
    q = { p.deleteAttributes with A := p.A.vapp (A.mul (Poly.selectionMatrix n idx)) } := by
  have h0 := hp.1
  subst h0
  rw [Poly.add_inequality_run, if_neg (show ¬ A.nr ≠ (NDArr.d2 B).size from not_not.2 hB.symm), if_neg (not_not.2 hA)] at h
  cases h
  rfl

/-- C152, what holds: after `add_inequality` rejected a column, `contains` raises `ValueError`, unless the
polyhedron had exactly one inequality `a x ≤ β`; in this case it answers, and the answer is the one of the
polyhedron before the call with the rejected rows added to it, with right-hand side `β` in place of the one
that was given.  Missing: that the answer is the one before the call (false, see `C152_false`). -/
theorem C152_partial (n : ℕ) (p q : Poly) (hp : p.Inv n) (A B : Mat ℝ) (idx : Option (List ℕ))
    (hB : B.nr * B.nc = A.nr) (h0 : 0 < A.nr) (hA : A.nc = (Poly.sel n idx).length) (e : PyErr)
    (h : Poly.add_inequality A (.d2 B) idx p = (.error e, q)) (x : Vec ℝ) (hx : x.n = n) (tol : ℝ) :
    (p.A.nr ≠ 1 → q.contains x tol = .error .valueError) ∧
    (p.A.nr = 1 → ∃ r r', p.contains x tol = .ok r ∧ q.contains x tol = .ok r' ∧
      (r' = true ↔ r = true ∧
        ∀ i < A.nr, ∑ j ∈ range A.nc, A.e i j * x.e ((Poly.sel n idx).getD j 0) - p.b.e 0 ≤ tol)) := by
  have hq := rejected_state hp hB hA h
  obtain ⟨s1, s2, s3, s4⟩ := hp
  subst hq
  set A' := p.A.vapp (A.mul (Poly.selectionMatrix n idx)) with hA'
  have hnr : A'.nr = p.A.nr + A.nr := rfl
  have e1 : np.dotMV A' x = .ok (A'.mulVec x) := if_pos (s1.trans hx.symm)
  have hn : (A'.mulVec x).n = p.A.nr + A.nr := rfl
  constructor
  · intro hne
    show (np.dotMV A' x >>= fun Ax => np.subV Ax p.b >>= fun e => np.max e >>= fun m =>
      Poly.eqResidualOk p.C p.d x tol >>= fun in_eq => pure (decide (m ≤ tol) && in_eq)) = _
    rw [e1, Py.ok_bind]
    have e2 : np.subV (A'.mulVec x) p.b = np.broadcastV (· - ·) (A'.mulVec x) p.b := if_neg (by omega)
    rw [e2]
    unfold np.broadcastV
    rw [if_neg (by omega)]
    split_ifs with h1
    · have hz : p.b.n = 0 := by omega
      rw [Py.ok_bind]
      unfold np.max
      rw [dif_pos hz]
      rfl
    · rfl
  · intro h1
    have e2 : np.subV (A'.mulVec x) p.b = .ok ⟨p.A.nr + A.nr, fun i => (A'.mulVec x).e i - p.b.e 0⟩ := by
      have k : np.subV (A'.mulVec x) p.b = np.broadcastV (· - ·) (A'.mulVec x) p.b := if_neg (by omega)
      rw [k]
      unfold np.broadcastV
      rw [if_pos (show p.b.n = 1 by omega)]
      rfl
    obtain ⟨m', hm'⟩ := np_max_ok (v := ⟨p.A.nr + A.nr, fun i => (A'.mulVec x).e i - p.b.e 0⟩) (by show 0 < p.A.nr + A.nr; omega)
    have f1 : np.dotMV p.A x = .ok (p.A.mulVec x) := if_pos (s1.trans hx.symm)
    have f2 : np.subV (p.A.mulVec x) p.b = .ok ((p.A.mulVec x).sub p.b) := if_pos s2.symm
    obtain ⟨m, hm⟩ := np_max_ok (v := (p.A.mulVec x).sub p.b) (by show 0 < p.A.nr; omega)
    have e3 : ∃ r, Poly.eqResidualOk p.C p.d x tol = .ok r := by
      unfold Poly.eqResidualOk
      by_cases hC : 0 < p.C.nr
      · have g1 : np.dotMV p.C x = .ok (p.C.mulVec x) := if_pos (s3.trans hx.symm)
        have g2 : np.subV (p.C.mulVec x) p.d = .ok ((p.C.mulVec x).sub p.d) := if_pos s4.symm
        obtain ⟨k, hk⟩ := np_max_ok (v := (p.C.mulVec x).sub p.d) hC
        rw [if_pos hC, g1, Py.ok_bind, g2, Py.ok_bind, hk, Py.ok_bind]
        exact ⟨_, rfl⟩
      · rw [if_neg hC]
        exact ⟨_, rfl⟩
    obtain ⟨t, ht⟩ := e3
    refine ⟨decide (m ≤ tol) && t, decide (m' ≤ tol) && t, ?_, ?_, ?_⟩
    · unfold Poly.contains
      rw [f1, Py.ok_bind, f2, Py.ok_bind, hm, Py.ok_bind, ht]
      rfl
    · show (np.dotMV A' x >>= fun Ax => np.subV Ax p.b >>= fun e => np.max e >>= fun m =>
        Poly.eqResidualOk p.C p.d x tol >>= fun in_eq => pure (decide (m ≤ tol) && in_eq)) = _
      rw [e1, Py.ok_bind, e2, Py.ok_bind, hm', Py.ok_bind, ht]
      rfl
    · simp only [Bool.and_eq_true, decide_eq_true_eq]
      rw [np_max_le hm, np_max_le hm']
      have hold : ∀ i < p.A.nr, (A'.mulVec x).e i = (p.A.mulVec x).e i := by
        intro i hi
        show ∑ j ∈ range p.A.nc, (if i < p.A.nr then p.A.e i j else _) * x.e j = _
        simp only [if_pos hi]
        rfl
      have hnew : ∀ i, (A'.mulVec x).e (p.A.nr + i)
          = ∑ j ∈ range A.nc, A.e i j * x.e ((Poly.sel n idx).getD j 0) := by
        intro i
        show ∑ j ∈ range p.A.nc, (if p.A.nr + i < p.A.nr then p.A.e (p.A.nr + i) j
          else (A.mul (Poly.selectionMatrix n idx)).e (p.A.nr + i - p.A.nr) j) * x.e j = _
        simp only [if_neg (show ¬ p.A.nr + i < p.A.nr by omega), Nat.add_sub_cancel_left]
        rw [s1]
        exact Poly.mulSel A idx hA x.e i
      constructor
      · rintro ⟨k1, k2⟩
        refine ⟨⟨fun i hi => ?_, k2⟩, fun i hi => ?_⟩
        · have hi' : i < p.A.nr := hi
          have := k1 i (by show i < _ + _; omega)
          have h0 : i = 0 := by omega
          subst h0
          simpa [hold 0 hi'] using this
        · have := k1 (p.A.nr + i) (by show _ + i < _ + _; omega)
          simpa [hnew i] using this
      · rintro ⟨⟨k1, k2⟩, k3⟩
        refine ⟨fun i hi => ?_, k2⟩
        have hi' : i < p.A.nr + A.nr := hi
        by_cases hlt : i < p.A.nr
        · have := k1 i hlt
          have h0 : i = 0 := by omega
          subst h0
          simpa [hold 0 hlt] using this
        · obtain ⟨k, rfl⟩ : ∃ k, i = p.A.nr + k := ⟨i - p.A.nr, by omega⟩
          have := k3 k (by omega)
          simpa [hnew k] using this

/-- the half line `x ≤ 1` -/
noncomputable def belowOne : Poly := Poly.fresh ⟨1, 1, fun _ _ => 1⟩ ⟨1, fun _ => 1⟩ (Mat.zeros 0 1) (Vec.zeros 0)

theorem belowOne_inv : belowOne.Inv 1 := ⟨rfl, rfl, rfl, rfl⟩

/-- C152 is false of the code: the point `1` belongs to the half line `x ≤ 1`; the addition of `2 x ≤ 9`,
that the point meets, is rejected because the right-hand side is a column; after this `contains` raises
nothing and says that the point is not in the half line. -/
theorem C152_false : ∃ (p q : Poly) (A B : Mat ℝ) (x : Vec ℝ), p.Inv 1 ∧ x.n = 1 ∧ B.nr = A.nr ∧ B.nc = 1 ∧
    (∀ i < A.nr, ∑ j ∈ range 1, A.e i j * x.e j ≤ B.e i 0) ∧
    Poly.add_inequality A (.d2 B) none p = (.error .valueError, q) ∧
    p.contains x = .ok true ∧ q.contains x = .ok false := by
  have hrun : Poly.add_inequality ⟨1, 1, fun _ _ => 2⟩ (.d2 ⟨1, 1, fun _ _ => 9⟩) none belowOne
      = (.error .valueError, { belowOne.deleteAttributes with
          A := belowOne.A.vapp ((⟨1, 1, fun _ _ => 2⟩ : Mat ℝ).mul (Poly.selectionMatrix 1 none)) }) := rfl
  obtain ⟨r, r', h1, h2, h3⟩ := (C152_partial 1 belowOne _ belowOne_inv ⟨1, 1, fun _ _ => 2⟩ ⟨1, 1, fun _ _ => 9⟩ none rfl
    (by show 0 < 1; omega) rfl _ hrun ⟨1, fun _ => 1⟩ rfl 1e-7).2 rfl
  obtain ⟨r2, k1, k2⟩ := contains_iff belowOne_inv (by show 0 < 1; omega) ⟨1, fun _ => 1⟩ rfl 1e-7
  have hr : r = true := by
    rw [h1] at k1
    cases k1
    refine k2.2 ⟨fun i _ => ?_, fun h => absurd h (by show ¬ 0 < 0; omega)⟩
    show ∑ j ∈ range 1, (1 : ℝ) * 1 - 1 ≤ _
    norm_num
  have hr' : r' = false := by
    rw [Bool.eq_false_iff]
    intro ht
    have := (h3.1 ht).2 0 (by show 0 < 1; omega)
    have h' : ∑ j ∈ range 1, (2 : ℝ) * 1 - 1 ≤ 1e-7 := this
    norm_num at h'
  subst hr hr'
  refine ⟨belowOne, _, ⟨1, 1, fun _ _ => 2⟩, ⟨1, 1, fun _ _ => 9⟩, ⟨1, fun _ => 1⟩, belowOne_inv, rfl, rfl, rfl, fun i _ => ?_, hrun, h1, h2⟩
  show ∑ j ∈ range 1, (2 : ℝ) * 1 ≤ 9
  norm_num

/-- two inequalities and a rejected third one: the hypotheses of the first part are met, the call raises -/
example : ∃ q, Poly.add_inequality ⟨1, 1, fun _ _ => 2⟩ (.d2 ⟨1, 1, fun _ _ => 9⟩) none
      (Poly.fresh ⟨2, 1, fun i _ => if i = 0 then 1 else -1⟩ ⟨2, fun _ => 1⟩ (Mat.zeros 0 1) (Vec.zeros 0)) = (.error .valueError, q) ∧
    q.contains ⟨1, fun _ => 0⟩ = .error .valueError :=
  ⟨_, rfl, (C152_partial 1 (Poly.fresh ⟨2, 1, fun i _ => if i = 0 then 1 else -1⟩ ⟨2, fun _ => 1⟩ (Mat.zeros 0 1) (Vec.zeros 0))
    _ ⟨rfl, rfl, rfl, rfl⟩ ⟨1, 1, fun _ _ => 2⟩ ⟨1, 1, fun _ _ => 9⟩ none rfl
    (by show 0 < 1; omega) rfl _ rfl ⟨1, fun _ => 0⟩ rfl 1e-7).1 (by show (2 : ℕ) ≠ 1; omega)⟩

end Verif.Props
