import Verif.Model.TestLqr
import Verif.Props.LinearNotebooks

/- The tests of `controllable`: C181 of properties.jsonl. -/
namespace Verif.Props
open Finset Spec Dyn Control Filter Topology TestSuite

/-- the double integrator under a constant input -/
theorem chain_solves (h : ℝ) (x0 u : ℕ → ℝ) : SolvesOde 2 chainA chainB (Vec.zeros 2) u h
    (fun t i => if i = 0 then x0 0 + t * x0 1 + t ^ 2 / 2 * u 0 else x0 1 + t * u 0) := by
  intro t _ i hi
  interval_cases i
  · have := (((hasDerivWithinAt_id t (Set.Icc 0 h)).mul_const (x0 1)).const_add (x0 0)).add
      ((((hasDerivWithinAt_id t (Set.Icc 0 h)).pow 2).div_const 2).mul_const (u 0))
    refine (this.congr_deriv ?_).congr_of_eventuallyEq ?_ ?_
    · simp [Spec.affine, chainA, chainB, Vec.zeros, Finset.sum_range_succ]
      try ring
    · exact Filter.Eventually.of_forall fun s => by simp
    · simp
  · have := ((hasDerivWithinAt_id t (Set.Icc 0 h)).mul_const (u 0)).const_add (x0 1)
    refine (this.congr_deriv ?_).congr_of_eventuallyEq ?_ ?_
    · simp [Spec.affine, chainA, chainB, Vec.zeros, Finset.sum_range_succ]
    · exact Filter.Eventually.of_forall fun s => by simp
    · simp

/-- the uncontrollable system under a constant input -/
theorem stuck_solves (h : ℝ) (x0 u : ℕ → ℝ) : SolvesOde 2 chainA stuckB (Vec.zeros 2) u h
    (fun t i => if i = 0 then x0 0 + t * (x0 1 + u 0) else x0 1) := by
  intro t _ i hi
  interval_cases i
  · have := ((hasDerivWithinAt_id t (Set.Icc 0 h)).mul_const (x0 1 + u 0)).const_add (x0 0)
    refine (this.congr_deriv ?_).congr_of_eventuallyEq ?_ ?_
    · simp [Spec.affine, chainA, stuckB, Vec.zeros, Finset.sum_range_succ]
    · exact Filter.Eventually.of_forall fun s => by simp
    · simp
  · have := hasDerivWithinAt_const t (Set.Icc 0 h) (x0 1)
    refine (this.congr_deriv ?_).congr_of_eventuallyEq ?_ ?_
    · simp [Spec.affine, chainA, stuckB, Vec.zeros, Finset.sum_range_succ]
    · exact Filter.Eventually.of_forall fun s => by simp
    · simp

theorem controllable_value {S : LinearSystem} (hS : SystemShape S.nx S.nu S.A S.B (Vec.zeros S.nx)) (hf : S._controllable = none) (hx : 0 < S.nx) (hu : 0 < S.nu)
    (b : Bool) (hb : b = true ↔ Steerable S.nx S.A S.B S.nx) : (LinearSystem.controllable S).1 = .ok b := by
  obtain ⟨b', h1, -, h2, -⟩ := C52 S.nx S.nu S.A S.B hS.1 hS.2.1 hS.2.2.1 hS.2.2.2.1 hx hu
  have eS : S = ⟨S.A, S.B, S.nx, S.nu, none⟩ := by
    cases S; cases hf; rfl
  have : b' = b := by rw [Bool.eq_iff_iff, h2, hb]
  rw [eS, h1, this]

theorem stuck_ok (h : ℝ) (hh : 0 < h) : ∃ S, LinearSystem.from_continuous chainA stuckB h .zeroOrderHold = .ok S ∧ S._controllable = none ∧
    SystemShape S.nx S.nu S.A S.B (Vec.zeros S.nx) ∧ S.nx = 2 ∧ S.nu = 1 ∧ ¬ Steerable S.nx S.A S.B S.nx := by
  obtain ⟨S, h1, h2, h3, h4, h5, h6⟩ := zoh_lin (nx := 2) (nu := 1) (A := chainA) (B := stuckB) ⟨rfl, rfl, rfl, rfl, rfl⟩ hh.le
  refine ⟨S, h1, h2, h3, h4, h5, fun hs => ?_⟩
  obtain ⟨u, hu⟩ := hs (fun _ => 0) fun _ => 1
  have hlaw : ∀ x0 v : ℕ → ℝ, Spec.affine S.A S.B (Vec.zeros S.nx) x0 v 1 = x0 1 := by
    intro x0 v
    have := h6 x0 v _ (stuck_solves h x0 v) (fun i hi => by interval_cases i <;> simp) 1 (by norm_num)
    simp only [if_neg one_ne_zero] at this
    exact this.symm
  have hz : ∀ t, Spec.traj (fun _ => S.A) (fun _ => S.B) (fun _ => Vec.zeros S.nx) (fun _ => 0) u t 1 = 0 := by
    intro t
    induction t with
    | zero => rfl
    | succ t ih =>
      show Spec.affine S.A S.B (Vec.zeros S.nx) _ _ 1 = 0
      rw [hlaw, ih]
  have := hu 1 (by omega)
  rw [hz] at this
  exact zero_ne_one this

/-- C181: for every step `h > 0`, `test_controllable` and the first part of `test_solve_dare_and_simulate_closed_loop` pass: the double integrator
discretized with `zero_order_hold` is controllable, and without the input of the second state it is not, so `solve_dare` raises `ValueError`, whatever scipy does. -/
theorem C181 (h : ℝ) (hh : 0 < h) : test_controllable h = .ok () ∧ ∀ dare, test_solve_dare_uncontrollable dare h = .ok () := by
  obtain ⟨S', k1, k2, k3, k4, k5, k6⟩ := stuck_ok h hh
  have c' := controllable_value k3 k2 (by omega) (by omega) false (by simp [k6])
  refine ⟨?_, fun dare => ?_⟩
  · obtain ⟨S, h1, h2, h3, h4, h5, h6⟩ := zoh_lin (nx := 2) (nu := 1) (A := chainA) (B := chainB) ⟨rfl, rfl, rfl, rfl, rfl⟩ hh.le
    have hst : Steerable S.nx S.A S.B S.nx := by
      refine steer_pair (p := 1) (q := h) (r := 0) (s := 1) (b := h ^ 2 / 2) (c := h) ?_ h4 fun x u i hi => ?_
      · have : h ^ 2 / 2 * (0 * (h ^ 2 / 2) + 1 * h) - h * (1 * (h ^ 2 / 2) + h * h) = -h ^ 3 := by ring
        rw [this]
        have : 0 < h ^ 3 := by positivity
        linarith
      · have := h6 x u _ (chain_solves h x u) (fun i hi => by interval_cases i <;> simp) i hi
        rw [← this]
        split_ifs <;> ring
    have c := controllable_value h3 h2 (by omega) (by omega) true (by simp [hst])
    unfold test_controllable
    rw [h1, Py.ok_bind, c, Py.ok_bind]
    show (assertTrue true >>= fun _ => _) = _
    rw [show assertTrue true = .ok () from rfl, Py.ok_bind, k1, Py.ok_bind, c', Py.ok_bind]
    rfl
  · have e : (LinearSystem.solve_dare dare (Mat.eye 2) (Mat.eye 1) S').1 = .error .valueError := by
      obtain ⟨b, h1, -, h2, -⟩ := C52 S'.nx S'.nu S'.A S'.B k3.1 k3.2.1 k3.2.2.1 k3.2.2.2.1 (by omega) (by omega)
      have eS : S' = ⟨S'.A, S'.B, S'.nx, S'.nu, none⟩ := by
        cases S'; cases k2; rfl
      have : b = false := by rw [← Bool.not_eq_true, h2]; exact k6
      subst this
      rw [eS]
      unfold LinearSystem.solve_dare
      simp only [PyM.bind_apply, h1]
      rfl
    unfold test_solve_dare_uncontrollable
    rw [k1, Py.ok_bind, e]
    rfl

/-- the step of the tests -/
example : test_controllable 0.1 = .ok () := (C181 0.1 (by norm_num)).1

end Verif.Props
