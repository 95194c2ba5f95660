import Verif.Props.MpcExamples

/- Equalities of the constraints of the linear controller (C75). -/
namespace Verif.Props
open Finset Spec Dyn Control

/-- the equalities of the stages and of the terminal set hold along the trajectory -/
def EqAlong (S : LinearSystem) (N : ℕ) (Q R P : Mat ℝ) (D X_N : Poly) (x0 : ℕ → ℝ) (u : ℕ → ℕ → ℝ) : Prop :=
  (∀ t < N, EqHold D.C D.d (pair S.nx ((problem S N Q R P D X_N).x x0 u t) (u t))) ∧
  EqHold X_N.C X_N.d ((problem S N Q R P D X_N).x x0 u N)

/-- C75, what holds for the linear controller: the program is that of the inequalities alone, it is the same for all `D'`, `X_N'` with the same
inequalities; so the answer is a lower bound of the costs of the inputs that satisfy the equalities as well, and it is optimal for the problem with
equalities if it happens to satisfy them.  Missing with respect to C75: the equalities themselves (false, see `C75_false`). -/
theorem C75_partial (L : Lib) (hL : LibSpec L) (S : LinearSystem) (N : ℕ) (Q R P : Mat ℝ) (D X_N : Poly) (h : MpcArgs S N Q R P D X_N) :
    ∃ c, MPC.init S N Q R P D X_N = .ok c ∧
      (∀ D' X' : Poly, D'.A = D.A → D'.b = D.b → X'.A = X_N.A → X'.b = X_N.b → ∃ c', MPC.init S N Q R P D' X' = .ok c' ∧ c'.mpqp = c.mpqp) ∧
      ∀ (x : Vec ℝ) us V, x.n = S.nx → c.feedforward L x = .ok (some us, some V) → (problem S N Q R P D X_N).Feas x.e (inputsOf us) ∧
        (∀ u, (problem S N Q R P D X_N).Feas x.e u → EqAlong S N Q R P D X_N x.e u → V ≤ (problem S N Q R P D X_N).cost x.e u) ∧
        V = (problem S N Q R P D X_N).cost x.e (inputsOf us) := by
  obtain ⟨c, h1, h2⟩ := C64_partial L hL S N Q R P D X_N h
  refine ⟨c, h1, fun D' X' e1 e2 e3 e4 => ?_, fun x us V hx hf => ?_⟩
  · have hkey : MPC.condense_program S N Q R P D' X' = MPC.condense_program S N Q R P D X_N := by
      have hp : ∀ T : AffineSystem, (PWA.init [.aff T] [D'] >>= fun Sp => condense_optimal_control_problem Sp Q R P X' (List.replicate N 0))
          = (PWA.init [.aff T] [D] >>= fun Sp => condense_optimal_control_problem Sp Q R P X_N (List.replicate N 0)) := by
        intro T
        have hq : ∀ (nx nu nm : ℕ) (l : List AffineSystem), condense_optimal_control_problem ⟨nx, nu, l, [D'], nm⟩ Q R P X' (List.replicate N 0)
            = condense_optimal_control_problem ⟨nx, nu, l, [D], nm⟩ Q R P X_N (List.replicate N 0) := by
          intro nx nu nm l
          have m1 : ∀ E : Poly, (List.replicate N 0).mapM (np.listGet [E]) = .ok (List.replicate N E) := fun E => by
            rw [mapM_ok (g := fun _ => E) fun i hi => by rw [List.eq_of_mem_replicate hi]; rfl, List.map_replicate]
          unfold condense_optimal_control_problem
          simp only [m1, Py.ok_bind]
          unfold condenseConstr
          simp only [List.map_replicate, e1, e2, e3, e4]
          rfl
        unfold PWA.init
        simp only [List.map_cons, List.map_nil, List.length_cons, List.length_nil, e1]
        simp only [ne_eq, not_true_eq_false, if_false]
        rcases onlyElement [Sys.nx (.aff T)] with e | nx
        · rfl
        rcases onlyElement [Sys.nu (.aff T)] with e | nu
        · rfl
        rcases onlyElement [D.A.nc] with e | nxu
        · rfl
        by_cases hn : nxu = nx + nu
        · rcases hm : [Sys.aff T].mapM (Sys.toAffine nx) with e | l
          · simp only [Py.ok_bind, hm, hn, not_true_eq_false, if_false]
            rfl
          · simp only [Py.ok_bind, hm, hn, not_true_eq_false, if_false]
            exact hq _ _ _ _
        · simp only [Py.ok_bind, hn, not_false_eq_true, if_true]
          rfl
      unfold MPC.condense_program
      simp only [hp]
    have h1' := h1
    unfold MPC.init at h1'
    obtain ⟨q, k1, k2⟩ := Py.bind_eq_ok h1'
    cases k2
    refine ⟨⟨S, N, Q, R, P, D', X', none, q⟩, ?_, rfl⟩
    unfold MPC.init
    rw [hkey, k1]
    rfl
  · rcases (h2 x hx).1 with k | ⟨us', V', k1, -, -, k4, k5, -⟩
    · rw [hf] at k
      cases Except.ok.inj k
    · rw [hf] at k1
      obtain ⟨e1, e2⟩ := Prod.mk.inj (Except.ok.inj k1)
      cases e1
      cases e2
      exact ⟨k4.1, fun u hu _ => k5 ▸ k4.2 u hu, k5⟩

/-- `|x| ≤ 5`, `|u| ≤ 1`, `u = 1` -/
def pinned : Poly :=
  Poly.fresh boxXU.A boxXU.b ⟨1, 2, fun _ j => if j = 0 then 0 else 1⟩ ⟨1, fun _ => 1⟩

theorem pinned_args : MpcArgs integrator 1 half1 one1 one1 pinned interval1 :=
  ⟨⟨⟨rfl, rfl, rfl, rfl, rfl⟩, one_pos, (integrator_args 1 one_pos).w, ⟨rfl, rfl⟩, ⟨rfl, rfl⟩⟩, .inl (show 0 < 4 by norm_num)⟩

/-- C75 is false: the only input that satisfies the constraints is `u = 1`, the controller answers `0`. -/
theorem C75_false : ∃ (S : LinearSystem) (N : ℕ) (Q R P : Mat ℝ) (D X_N : Poly) (x : Vec ℝ), MpcArgs S N Q R P D X_N ∧ x.n = S.nx ∧
    (∃ u, (problem S N Q R P D X_N).Feas x.e u ∧ EqAlong S N Q R P D X_N x.e u) ∧
    ∀ L, LibSpec L → ∃ c us V, MPC.init S N Q R P D X_N = .ok c ∧ c.feedforward L x = .ok (some us, some V) ∧
      ¬ EqAlong S N Q R P D X_N x.e (inputsOf us) := by
  have hfeas : ∀ a : ℝ, |a| ≤ 1 → (problem integrator 1 half1 one1 one1 pinned interval1).Feas (fun _ => 0) fun _ _ => a := by
    intro a ha
    rw [abs_le] at ha
    refine ⟨fun t ht i hi => ?_, fun i hi => ?_⟩
    · have ht : t < 1 := ht
      have hi : i < 4 := hi
      interval_cases t
      interval_cases i <;> simp [problem, integrator, pinned, boxXU, Poly.fresh, rowVal, pair, LinOcp.x, Spec.traj, Finset.sum_range_succ] <;> linarith
    · have hi : i < 2 := hi
      interval_cases i <;> simp [problem, integrator, interval1, Poly.fresh, rowVal, LinOcp.x, Spec.traj, Spec.affine, one1] <;> linarith
  have hcost : ∀ u, (problem integrator 1 half1 one1 one1 pinned interval1).cost (fun _ => 0) u = u 0 0 ^ 2 := by
    intro u
    show lqCost half1 one1 one1 _ _ 1 = _
    unfold lqCost
    simp only [half1_quad, one1_quad, Finset.sum_range_one]
    simp [problem, integrator, LinOcp.x, Spec.traj, Spec.affine, one1]
    ring
  have heq : ∀ u, EqAlong integrator 1 half1 one1 one1 pinned interval1 (fun _ => 0) u ↔ u 0 0 = 1 := by
    intro u
    constructor
    · intro h
      have := h.1 0 one_pos 0 (by show 0 < 1; norm_num)
      simpa [pinned, Poly.fresh, rowVal, pair, integrator, Finset.sum_range_succ] using this
    · intro h
      refine ⟨fun t ht i hi => ?_, fun i hi => absurd hi (Nat.not_lt_zero i)⟩
      have hi : i < 1 := hi
      interval_cases t
      interval_cases i
      simpa [pinned, Poly.fresh, rowVal, pair, integrator, Finset.sum_range_succ] using h
  refine ⟨_, _, _, _, _, _, _, ⟨1, fun _ => 0⟩, pinned_args, rfl, ⟨fun _ _ => 1, hfeas 1 (by norm_num), (heq _).2 rfl⟩, fun L hL => ?_⟩
  obtain ⟨c, h1, h2⟩ := C64_partial L hL _ _ _ _ _ _ _ pinned_args
  obtain ⟨k1, -, k3⟩ := h2 ⟨1, fun _ => 0⟩ rfl
  obtain ⟨us, V, k4⟩ := k3 ⟨_, hfeas 0 (by norm_num), by rw [hcost]; norm_num⟩
  refine ⟨c, us, V, h1, k4, fun hE => ?_⟩
  rcases k1 with k | ⟨us', V', k5, -, -, k6, -, -⟩
  · rw [k4] at k
    cases Except.ok.inj k
  · rw [k4] at k5
    obtain ⟨e1, -⟩ := Prod.mk.inj (Except.ok.inj k5)
    cases e1
    have := k6.2 _ (hfeas 0 (by norm_num))
    rw [hcost, hcost, (heq _).1 hE] at this
    norm_num at this

/-- C75 on the example: the value is a lower bound of the cost `1` of the input `u = 1` -/
example (L : Lib) (hL : LibSpec L) : ∃ c, MPC.init integrator 1 half1 one1 one1 pinned interval1 = .ok c ∧
    ∃ c', MPC.init integrator 1 half1 one1 one1 boxXU interval1 = .ok c' ∧ c'.mpqp = c.mpqp := by
  obtain ⟨c, h1, h2, -⟩ := C75_partial L hL _ _ _ _ _ _ _ pinned_args
  exact ⟨c, h1, h2 boxXU interval1 rfl rfl rfl rfl⟩

end Verif.Props
