import Verif.Props.HybridValue

/- Equalities and the hybrid controller: C75 of properties.jsonl. -/
namespace Verif.Props
open Finset Spec Dyn Control

/-- C75, what holds for the hybrid controller: the equalities of the terminal set do not reach the program.  The answer satisfies the inequalities, its value
is a lower bound of the costs of the trajectories that satisfy the equalities of domains and terminal set as well, and it is optimal for the problem with the equalities
if it happens to satisfy them.  Missing with respect to C75: the equalities themselves (false, see `C75_hybrid_false`). -/
theorem C75_hybrid_partial (L : Lib) (hL : LibSpec L) (S : PWA) (N : ℕ) (Q R P : Mat ℝ) (X_N : Poly) (h : HybArgs S N Q R P X_N) (hw : Weights S.nx S.nu Q R P)
    (hnx : 0 < S.nx) (hg : GoodDomains S) :
    ∃ c, HMPC.init L S N Q R P X_N = .ok c ∧
      (∀ X' : Poly, X'.A = X_N.A → X'.b = X_N.b → ∃ c', HMPC.init L S N Q R P X' = .ok c' ∧ c'.mpmiqp = c.mpmiqp ∧
        ∀ G x, c'.feedforward G x = c.feedforward G x) ∧
      ∀ (G : Gurobi) (x : Vec ℝ) (a : HMPC.Answer), GurobiSpec G → x.n = S.nx → MiNoTiny c.mpmiqp x.e → c.feedforward G x = .ok (some a) →
        Consistent (hyb S N Q R P X_N) x.e a ∧ (∀ m u, (hyb S N Q R P X_N).Feas x.e m u → a.V ≤ (hyb S N Q R P X_N).cost x.e m u) ∧
        ((hyb S N Q R P X_N).EqFeas x.e (fun t => a.modes.getD t 0) (inputsOf a.u) →
          (hyb S N Q R P X_N).Opt x.e (fun t => a.modes.getD t 0) (inputsOf a.u)) := by
  obtain ⟨c, h1, -, -⟩ := C72 L hL S N Q R P X_N h hnx hg
  refine ⟨c, h1, fun X' e1 e2 => ?_, fun G x a hG hx ht ha => ?_⟩
  · refine ⟨{ c with X_N := X' }, ?_, rfl, fun _ _ => rfl⟩
    unfold HMPC.init at h1 ⊢
    obtain ⟨⟨al, be⟩, g1, h1⟩ := Py.bind_eq_ok h1
    obtain ⟨ga, g2, h1⟩ := Py.bind_eq_ok h1
    obtain ⟨q, g3, h1⟩ := Py.bind_eq_ok h1
    have hq : condense_hybrid S N Q R P X' al be ga = .ok q := by
      rw [← g3]
      unfold condense_hybrid condense_inequalities
      rw [e1, e2]
    cases h1
    rw [g1, Py.ok_bind]
    simp only
    rw [g2, Py.ok_bind, hq]
    rfl
  · obtain ⟨o, k1, k2, -⟩ := C73_partial L hL G hG S N Q R P X_N h hw hnx hg c h1 x hx ht
    rw [ha] at k1
    cases k1
    obtain ⟨k3, k4⟩ := k2 a rfl
    exact ⟨k3, k4, fun he => ⟨⟨k3.feas, he⟩, fun m u hf => k3.value ▸ k4 m u hf⟩⟩

/-- `|x| ≤ 1` and `x = 1` -/
noncomputable def endAt1 : Poly := Poly.fresh interval1.A interval1.b (Mat.eye 1) ⟨1, fun _ => 1⟩

/-- C75 is false of the hybrid controller: from `x = 0` the only input that leads to the terminal set `{1}` in one step of the first mode is `1`; the controller
answers, whatever the optimizer, with a trajectory that ends in `0`. -/
theorem C75_hybrid_false : ∃ (S : PWA) (N : ℕ) (Q R P : Mat ℝ) (X_N : Poly) (x : Vec ℝ), HybArgs S N Q R P X_N ∧ Weights S.nx S.nu Q R P ∧ GoodDomains S ∧ x.n = S.nx ∧
    (∃ m u, (hyb S N Q R P X_N).Feas x.e m u) ∧
    ∀ L G, LibSpec L → GurobiSpec G → ∃ c a, HMPC.init L S N Q R P X_N = .ok c ∧ MiNoTiny c.mpmiqp x.e ∧ c.feedforward G x = .ok (some a) ∧
      ¬ (hyb S N Q R P X_N).EqFeas x.e (fun t => a.modes.getD t 0) (inputsOf a.u) := by
  have hargs : HybArgs hinge 1 one1 one1 one1 endAt1 := ⟨hinge_pwa, one_pos, weights1.symQ, weights1.symP, ⟨rfl, rfl⟩, ⟨rfl, rfl⟩⟩
  refine ⟨hinge, 1, one1, one1, one1, endAt1, ⟨1, fun _ => 0⟩, hargs, weights1, hinge_good, rfl, ⟨fun _ => 0, fun _ _ => 1, ?_⟩, fun L G hL hG => ?_⟩
  · refine ⟨⟨fun t ht => by show 0 < 2; norm_num, fun t ht => ?_, fun i hi => ?_⟩, fun t ht => eqHold_of_noEq rfl _, fun i hi => ?_⟩
    · obtain rfl : t = 0 := by change t < 1 at ht; omega
      exact ((strip_mem (lo := -1) (hi := 0) _).2 (by norm_num [pair, hyb, hinge, HybOcp.x, Spec.traj, Spec.affine])).1
    · have hi : i < 2 := hi
      interval_cases i <;> norm_num [hyb, hinge, endAt1, interval1, Poly.fresh, rowVal, HybOcp.x, Spec.traj, Spec.affine]
    · obtain rfl : i = 0 := by change i < 1 at hi; omega
      norm_num [hyb, hinge, endAt1, Mat.eye, Poly.fresh, rowVal, HybOcp.x, Spec.traj, Spec.affine]
  obtain ⟨c', h1', -, -⟩ := C72 L hL hinge 1 one1 one1 one1 interval1 (hinge_args 1 one_pos) one_pos hinge_good
  have ht := hinge_noTiny hL one_pos h1' 0
  simp only [Int.cast_zero] at ht
  obtain ⟨c, h1, h2, -⟩ := C75_hybrid_partial L hL hinge 1 one1 one1 one1 endAt1 hargs weights1 one_pos hinge_good
  obtain ⟨c'', h3, h4, h5⟩ := h2 interval1 rfl rfl
  obtain rfl : c' = c'' := by rw [h1'] at h3; cases h3; rfl
  obtain ⟨o, k1, k2, k3⟩ := C73_partial L hL G hG _ _ _ _ _ _ (hinge_args 1 one_pos) weights1 one_pos hinge_good c' h1' ⟨1, fun _ => 0⟩ rfl ht
  obtain ⟨k4, k5⟩ := k3 (hinge_noEq 1)
  have hf : (hyb hinge 1 one1 one1 one1 interval1).Feas (fun _ => 0) (fun _ => 0) (fun _ _ => 0) := by
    refine ⟨⟨fun t ht => by show 0 < 2; norm_num, fun t ht => ?_, fun i hi => ?_⟩, fun t ht => eqHold_of_noEq rfl _, eqHold_of_noEq rfl _⟩
    · obtain rfl : t = 0 := by change t < 1 at ht; omega
      exact ((strip_mem (lo := -1) (hi := 0) _).2 (by norm_num [pair, hyb, hinge, HybOcp.x, Spec.traj, Spec.affine])).1
    · have hi : i < 2 := hi
      interval_cases i <;> norm_num [hyb, hinge, interval1, Poly.fresh, rowVal, HybOcp.x, Spec.traj, Spec.affine]
  cases o with
  | none => exact absurd hf (k4.1 rfl _ _)
  | some a =>
    refine ⟨c, a, h1, h4 ▸ ht, ?_, ?_⟩
    · rw [← h5, k1]
    · rintro ⟨-, he⟩
      have e1 := he 0 (by show 0 < 1; norm_num)
      have c1 : (hyb hinge 1 one1 one1 one1 interval1).cost (fun _ => 0) (fun _ => 0) (fun _ _ => 0) = 0 := by
        norm_num [HybOcp.cost, hyb, lqCost, one1_quad, hinge, HybOcp.x, Spec.traj, Spec.affine, Finset.sum_range_succ]
      have c2 := (k2 a rfl).2 _ _ hf
      rw [c1, (k2 a rfl).1.value] at c2
      set m : ℕ → ℕ := fun t => a.modes.getD t 0
      change rowVal (Mat.eye 1) 0 ((hyb hinge 1 one1 one1 one1 interval1).x (fun _ => 0) m (inputsOf a.u) 1) = 1 at e1
      rw [rowVal_eye one_pos] at e1
      change lqCost one1 one1 one1 ((hyb hinge 1 one1 one1 one1 interval1).x (fun _ => 0) m (inputsOf a.u)) (inputsOf a.u) 1 ≤ 0 at c2
      simp only [lqCost, Finset.sum_range_one, one1_quad, e1] at c2
      nlinarith [sq_nonneg ((hyb hinge 1 one1 one1 one1 interval1).x (fun _ => 0) m (inputsOf a.u) 0 0), sq_nonneg (inputsOf a.u 0 0)]

end Verif.Props
