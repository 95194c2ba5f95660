import Verif.Proofs.Ocp

/- The condensed optimal control problem: C62, C63 of properties.jsonl. -/
namespace Verif.Props
open Dyn Spec Finset Control

theorem bil_single {M : Mat ℝ} {i j : ℕ} (hi : i < M.nr) (hj : j < M.nc) :
    bil M (fun k => if k = i then 1 else 0) (fun k => if k = j then 1 else 0) = M.e i j := by
  unfold bil rowVal
  simp only [ite_mul, one_mul, zero_mul, mul_ite, mul_one, mul_zero, Finset.sum_ite_eq', Finset.mem_range, hi, hj, if_true]

/-- for weights that are symmetric and positive (semi)definite the condensed program is a strictly convex program -/
theorem ocp_made {S : PWA} {Q R P : Mat ℝ} {X_N : Poly} {modes : List ℕ} (h : OcpShape S Q R P X_N modes)
    (hw : Weights S.nx S.nu Q R P) :
    ∃ q, condense_optimal_control_problem S Q R P X_N modes = .ok q ∧ q.Made ∧ q.data.Shape (S.nu * modes.length) S.nx ∧
      q.Au.nr = (modes.map fun m => (S.domains.getD m poly0).A.nr).sum + X_N.A.nr := by
  obtain ⟨d, h1, ⟨s1, s2, s3, s4, s5, s6, s7, s8, s9, s10, s11, s12, s13⟩, -, -, Bb, h2⟩ := ocp_run h
  have hshape : d.Shape (S.nu * modes.length) S.nx := by
    refine ⟨⟨s1, s2, fun i hi j hj => ?_, fun x hx => ?_⟩, s3, s4, s5, s6, s7, s8, s9, s10, s11, s12⟩
    · rw [← bil_single (M := d.Huu) (by rw [s1]; exact hi) (by rw [s2]; exact hj),
        ← bil_single (M := d.Huu) (by rw [s1]; exact hj) (by rw [s2]; exact hi), h2, h2, bil_symm hw.symP]
      congr 1
      · exact Finset.sum_congr rfl fun t _ => bil_symm hw.symR _ _
      · congr 1
        exact Finset.sum_congr rfl fun t _ => bil_symm hw.symQ _ _
    · have e : ∑ i ∈ range (S.nu * modes.length), ∑ j ∈ range (S.nu * modes.length), x i * d.Huu.e i j * x j = bil d.Huu x x := by
        rw [← quad_bil]
        unfold quad
        rw [s1, s2]
      rw [e, h2]
      have p1 : 0 < ∑ t ∈ range modes.length, bil R (unflat S.nu x t) (unflat S.nu x t) := by
        obtain ⟨i, hi, hxi⟩ := hx
        have hnu : 0 < S.nu := Nat.pos_of_ne_zero fun h0 => by rw [h0] at hi; simp at hi
        have hnn : ∀ t, 0 ≤ bil R (unflat S.nu x t) (unflat S.nu x t) := by
          intro t
          by_cases hz : ∃ s < S.nu, unflat S.nu x t s ≠ 0
          · rw [← quad_bil]; exact (hw.Rpos _ hz).le
          · push Not at hz
            rw [bil_congr hw.symR.1 hw.symR.2.1 hz hz]
            simp [bil]
        refine Finset.sum_pos' (fun t _ => hnn t) ⟨i / S.nu, mem_range.2 ?_, ?_⟩
        · exact Nat.div_lt_of_lt_mul hi
        · rw [← quad_bil]
          refine hw.Rpos _ ⟨i % S.nu, Nat.mod_lt _ hnu, ?_⟩
          unfold unflat
          rwa [Nat.div_add_mod]
      have p2 : 0 ≤ ∑ t ∈ range modes.length, bil Q (fun i => rowVal Bb (S.nx * t + i) x) (fun i => rowVal Bb (S.nx * t + i) x) :=
        Finset.sum_nonneg fun t _ => by rw [← quad_bil]; exact hw.Q0 _
      have p3 : 0 ≤ bil P (fun i => rowVal Bb (S.nx * modes.length + i) x) (fun i => rowVal Bb (S.nx * modes.length + i) x) := by
        rw [← quad_bil]; exact hw.P0 _
      linarith
  obtain ⟨q, q1, q2, q3⟩ := MpQP.init_made hshape
  exact ⟨q, h1.trans q1, q2, by rw [q3]; exact hshape, (congrArg (fun d : ParamQP => d.Au.nr) q3).trans s13⟩

/-- the constructor stores its arguments or raises `LinAlgError` -/
theorem init_cases {d : ParamQP} (hn : d.Huu.nr = d.Huu.nc) :
    (∀ q, MpQP.init d.Huu d.Hux d.Hxx d.fu d.fx d.g d.Au d.Ax d.b = .ok q → q.data = d) ∧
    ∀ e, MpQP.init d.Huu d.Hux d.Hxx d.fu d.fx d.g d.Au d.Ax d.b = .error e → e = .linAlgError := by
  by_cases hdet : (d.Huu.asM d.Huu.nr d.Huu.nr).det = 0
  · have e : np.inv d.Huu = .error .linAlgError := by
      unfold np.inv
      rw [if_neg (not_not.2 hn), if_pos hdet]
    unfold MpQP.init
    rw [e]
    exact ⟨fun q h => (by cases h), fun e h => (by cases h; rfl)⟩
  · have e := np_inv_ok (A := d.Huu) rfl hn.symm hdet
    unfold MpQP.init
    rw [e, Py.ok_bind]
    refine ⟨fun q h => ?_, fun e h => by cases h⟩
    cases h
    rfl

/-- C62: for every PWA system and mode sequence (of consistent sizes), `condense_optimal_control_problem` returns a program
whose constraints `Au v + Ax x0 ≤ b` hold exactly when the trajectory from `x0` under the inputs in `v` satisfies the
inequalities of the domains at all `t < N` and those of the terminal set at `N`; the only possible exception is the `LinAlgError` of a
singular Hessian, and there is none if the weights are symmetric, `Q` and `P` positive semidefinite and `R` positive definite. -/
theorem C62 (S : PWA) (Q R P : Mat ℝ) (X_N : Poly) (modes : List ℕ) (h : OcpShape S Q R P X_N modes) :
    (Weights S.nx S.nu Q R P → ∃ q, condense_optimal_control_problem S Q R P X_N modes = .ok q) ∧
    (∀ e, condense_optimal_control_problem S Q R P X_N modes = .error e → e = .linAlgError) ∧
    ∀ q, condense_optimal_control_problem S Q R P X_N modes = .ok q → ∀ x0 v : ℕ → ℝ,
      q.data.Feas (S.nu * modes.length) S.nx v x0 ↔
        (∀ t < modes.length, IneqHold (S.domains.getD (modes.getD t 0) poly0).A (S.domains.getD (modes.getD t 0) poly0).b
          (pair S.nx (pwaTraj S modes x0 (unflat S.nu v) t) (unflat S.nu v t))) ∧
        IneqHold X_N.A X_N.b (pwaTraj S modes x0 (unflat S.nu v) modes.length) := by
  obtain ⟨d, h1, ⟨s1, s2, -⟩, h2, -⟩ := ocp_run h
  obtain ⟨i1, i2⟩ := init_cases (d := d) (s1.trans s2.symm)
  refine ⟨fun hw => ?_, fun e he => i2 e (h1 ▸ he), fun q hq => ?_⟩
  · obtain ⟨q, hq, -⟩ := ocp_made h hw
    exact ⟨q, hq⟩
  · rw [i1 q (h1 ▸ hq)]
    exact h2

/-- C63: for symmetric `Q`, `P` the cost of the condensed program is the cost of the trajectory; for weights that are symmetric and
positive (semi)definite the program is strictly convex. -/
theorem C63 (S : PWA) (Q R P : Mat ℝ) (X_N : Poly) (modes : List ℕ) (h : OcpShape S Q R P X_N modes)
    (hQ : SymMat S.nx Q) (hP : SymMat S.nx P) :
    (∀ q, condense_optimal_control_problem S Q R P X_N modes = .ok q → ∀ x0 v : ℕ → ℝ,
      q.data.cost (S.nu * modes.length) S.nx v x0
        = lqCost Q R P (pwaTraj S modes x0 (unflat S.nu v)) (unflat S.nu v) modes.length) ∧
    (Weights S.nx S.nu Q R P → ∃ q, condense_optimal_control_problem S Q R P X_N modes = .ok q ∧
      q.data.Shape (S.nu * modes.length) S.nx) := by
  obtain ⟨d, h1, ⟨s1, s2, -⟩, -, h3, -⟩ := ocp_run h
  obtain ⟨i1, -⟩ := init_cases (d := d) (s1.trans s2.symm)
  refine ⟨fun q hq => ?_, fun hw => ?_⟩
  · rw [i1 q (h1 ▸ hq)]
    exact h3 hQ hP
  · obtain ⟨q, hq, -, hs, -⟩ := ocp_made h hw
    exact ⟨q, hq, hs⟩

/-- the interval `[-1, 1]` -/
noncomputable def interval1 : Poly := Poly.fresh ⟨2, 1, fun i _ => if i = 0 then 1 else -1⟩ ⟨2, fun _ => 1⟩ (Mat.zeros 0 1) (Vec.zeros 0)

/-- `x⁺ = x + u` for `x ≤ 0` and `x⁺ = -x + u + 1` for `x ≥ 0` -/
noncomputable def twoModes : PWA :=
  ⟨1, 1, [⟨⟨1, 1, fun _ _ => 1⟩, ⟨1, 1, fun _ _ => 1⟩, ⟨1, fun _ => 0⟩, 1, 1⟩, ⟨⟨1, 1, fun _ _ => -1⟩, ⟨1, 1, fun _ _ => 1⟩, ⟨1, fun _ => 1⟩, 1, 1⟩],
    [Poly.fresh ⟨1, 2, fun _ j => if j = 0 then 1 else 0⟩ ⟨1, fun _ => 0⟩ (Mat.zeros 0 2) (Vec.zeros 0),
      Poly.fresh ⟨1, 2, fun _ j => if j = 0 then -1 else 0⟩ ⟨1, fun _ => 0⟩ (Mat.zeros 0 2) (Vec.zeros 0)], 2⟩

/-- the identity weight in one dimension -/
def one1 : Mat ℝ := ⟨1, 1, fun _ _ => 1⟩

theorem one1_quad (x : ℕ → ℝ) : quad one1 x = x 0 ^ 2 := by
  simp [quad, one1]; ring

theorem weights1 : Weights 1 1 one1 one1 one1 :=
  ⟨⟨rfl, rfl, fun _ _ _ _ => rfl⟩, ⟨rfl, rfl, fun _ _ _ _ => rfl⟩, ⟨rfl, rfl, fun _ _ _ _ => rfl⟩,
    fun x => by rw [one1_quad]; positivity, fun x => by rw [one1_quad]; positivity,
    fun u ⟨s, hs, h⟩ => by
      obtain rfl : s = 0 := by omega
      rw [one1_quad]; positivity⟩

/-- the hypotheses of C62 and C63 are met by a system with two modes, over three steps -/
theorem twoModes_shape : OcpShape twoModes one1 one1 one1 interval1 [0, 1, 0] :=
  ⟨rfl, fun T hT => by
      simp only [twoModes, List.mem_cons, List.not_mem_nil, or_false] at hT
      rcases hT with rfl | rfl <;> exact ⟨⟨rfl, rfl, rfl, rfl, rfl⟩, rfl, rfl⟩, fun D hD => by
      simp only [twoModes, List.mem_cons, List.not_mem_nil, or_false] at hD
      rcases hD with rfl | rfl <;> exact ⟨rfl, rfl⟩,
    ⟨rfl, rfl⟩, ⟨rfl, rfl⟩, ⟨rfl, rfl⟩, ⟨rfl, rfl⟩, by simp, by simp [twoModes]⟩

/-- from the state `0` with the inputs `0, 0, -1` the states are `0, 0, 1, 0`; the last domain is violated since `1 > 0`; with the
inputs `0, -1, 0` the states are `0, 0, 0, 0` and everything is satisfied -/
example : ∃ q, condense_optimal_control_problem twoModes one1 one1 one1 interval1 [0, 1, 0] = .ok q ∧
    ¬ q.data.Feas 3 1 (fun k => if k = 2 then -1 else 0) (fun _ => 0) ∧ q.data.Feas 3 1 (fun k => if k = 1 then -1 else 0) (fun _ => 0) ∧
    q.data.cost 3 1 (fun k => if k = 1 then -1 else 0) (fun _ => 0) = 1 / 2 := by
  obtain ⟨k1, -, k2⟩ := C62 _ _ _ _ _ _ twoModes_shape
  obtain ⟨q, hq⟩ := k1 weights1
  have k3 := (C63 _ _ _ _ _ _ twoModes_shape weights1.symQ weights1.symP).1 q hq
  refine ⟨q, hq, ?_, ?_, ?_⟩
  · intro hf
    obtain ⟨h1, -⟩ := (k2 q hq _ _).1 hf
    have := h1 2 (by norm_num) 0 (by simp [twoModes, Poly.fresh])
    simp [twoModes, Poly.fresh, rowVal, pair, pwaTraj, traj, affine, unflat, Finset.sum_range_succ] at this
    norm_num at this
  · refine (k2 q hq _ _).2 ⟨fun t ht i hi => ?_, fun i hi => ?_⟩
    · have ht' : t < 3 := ht
      interval_cases t <;>
      · obtain rfl : i = 0 := by simp [twoModes, Poly.fresh] at hi; exact hi
        simp [twoModes, Poly.fresh, rowVal, pair, pwaTraj, traj, affine, unflat, Finset.sum_range_succ]
    · have hi' : i < 2 := hi
      interval_cases i <;>
      simp [twoModes, interval1, Poly.fresh, rowVal, pair, pwaTraj, traj, affine, unflat, Finset.sum_range_succ]
  · refine (k3 _ _).trans ?_
    simp [lqCost, one1_quad, twoModes, pwaTraj, traj, affine, unflat, Finset.sum_range_succ]

end Verif.Props
