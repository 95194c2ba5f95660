import Verif.Props.ControllerTest

/- The test of the linear controller: the constraints that it builds leave the last state free. -/
namespace Verif.Props
open Finset Spec Dyn Control TestSuite

/-- `|x| ≤ a` -/
def symInterval (a : ℝ) : Poly := Poly.fresh ⟨2, 1, fun i _ => if i = 0 then 1 else -1⟩ ⟨2, fun _ => a⟩ (Mat.zeros 0 1) (Vec.zeros 0)

theorem symInterval_mem (a : ℝ) (z : ℕ → ℝ) : (symInterval a).Mem z ↔ |z 0| ≤ a := by
  have h : (symInterval a).Mem z ↔ ∀ i < 2, rowVal (symInterval a).A i z ≤ a := mem_noeq rfl z
  rw [h, abs_le]
  constructor
  · intro h
    have h0 := h 0 (by omega)
    have h1 := h 1 (by omega)
    simp [symInterval, Poly.fresh, rowVal] at h0 h1
    constructor <;> linarith
  · rintro ⟨h0, h1⟩ i hi
    interval_cases i <;> simp [symInterval, Poly.fresh, rowVal] <;> linarith

/-- the integrator with the box `|x| ≤ 5`, `|u| ≤ 1` at the state 5: the hypotheses of C161 and C162 are met, no two inputs are feasible, but two inputs
satisfy the constraints of the stages -/
theorem integrator_five (L : Lib) (hL : LibSpec L) : ∃ (dare : Mat ℝ → Mat ℝ → Mat ℝ → Mat ℝ → Py (Mat ℝ)) (K : Mat ℝ),
    (∀ P, dare integrator.A integrator.B half1 one1 = .ok P → DareSpec 1 1 integrator.A integrator.B half1 one1 P) ∧
    (LinearSystem.solve_dare dare half1 one1 integrator).1 = .ok (one1, K) ∧ ∃ T X_N,
    (∀ fuel ≥ T, LinearSystem.mcais L integrator K boxXU fuel = .ok (some X_N)) ∧ X_N.Inv 1 ∧ X_N.C.nr = 0 ∧
    (∀ x, X_N.Mem x ↔ |x 0| ≤ 2) ∧ (problem integrator 2 half1 one1 one1 boxXU X_N).TerminalInvariant K ∧
    X_N.contains ⟨1, fun _ => 5⟩ = .ok false ∧
    (¬ ∃ u, (problem integrator 2 half1 one1 one1 boxXU X_N).Feas (fun _ => 5) u) ∧
    ∃ u, ∀ t < 2, (problem integrator 2 half1 one1 one1 boxXU X_N).Stage ((problem integrator 2 half1 one1 one1 boxXU X_N).x (fun _ => 5) u t) (u t) := by
  obtain ⟨dare, K, hd, k1, T, X_N, c, h1, h2, h3, h4, h5, hK, -⟩ := integrator_pipeline L hL
  obtain ⟨hP, l1, l2, -⟩ := solve_dare_ok integrator_dareArgs hd k1
  have hinv : X_N.Inv 1 := mcais_sizes hL one_pos integrator_dareArgs.sys ⟨l1, l2⟩ ⟨rfl, rfl, rfl, rfl⟩ rfl ((boxXU_mem _).2 (by simp)) boxXU_bounded (h1 T le_rfl)
  obtain ⟨-, hXC, -⟩ := terminalInvariant_of_mcais L hL integrator one_pos K boxXU integrator_dareArgs.sys ⟨l1, l2⟩ ⟨rfl, rfl, rfl, rfl⟩ rfl
    ((boxXU_mem _).2 (by simp)) boxXU_bounded T X_N (h1 T le_rfl) 3 half1 one1 one1
  have hmem : ∀ x, X_N.Mem x ↔ |x 0| ≤ 2 := fun x => (mem_noeq hXC x).trans (h4 x)
  have hrows : 0 < X_N.A.nr := by
    by_contra h0
    have := (hmem fun _ => 5).1 ((mem_noeq hXC _).2 fun i hi => by omega)
    norm_num at this
  refine ⟨dare, K, hd, k1, T, X_N, h1, hinv, hXC, hmem, fun x hx => h3 x hx, ?_, ?_, fun _ _ => 0, ?_⟩
  · obtain ⟨r, r1, -, r2⟩ := C08_partial 1 X_N hinv hrows ⟨1, fun _ => 5⟩ rfl 1e-7
    rw [r1]
    cases r with
    | false => rfl
    | true =>
      exfalso
      obtain ⟨r3, -⟩ := r2 rfl
      have : X_N.Mem fun _ => 5 := by
        refine (mem_noeq hXC _).2 fun i hi => ?_
        have a := r3 i hi
        unfold rowVal
        rw [hinv.1]
        simp only [Finset.sum_range_one] at a ⊢
        obtain ⟨j, j1, j2⟩ := h5 i
        rw [j1, j2] at a ⊢
        rcases Nat.lt_or_ge j 4 with hj | hj
        · interval_cases j <;> first
          | (norm_num [boxXU, Poly.fresh, rowVal, Finset.sum_range_succ, withInput, hK]; done)
          | (exfalso; norm_num [boxXU, Poly.fresh, rowVal, Finset.sum_range_succ, withInput, hK] at a)
        · have e : rowVal boxXU.A j (withInput 1 K fun _ => 1) = 1 / 2 := by
            norm_num [boxXU, Poly.fresh, rowVal, Finset.sum_range_succ, withInput, hK, show j ≠ 0 by omega, show j ≠ 1 by omega, show j ≠ 2 by omega]
          have e' : boxXU.b.e j = 1 := if_neg (by omega)
          rw [e, e'] at a
          norm_num at a
      have := (hmem _).1 this
      norm_num at this
  · rintro ⟨u, hu1, hu2⟩
    have a0 := (boxXU_mem _).1 ((mem_noeq rfl _).2 (hu1 0 (by show 0 < 2; omega)))
    have a1 := (boxXU_mem _).1 ((mem_noeq rfl _).2 (hu1 1 (by show 1 < 2; omega)))
    have a2 := (h4 _).1 hu2
    simp only [problem, integrator, pair, LinOcp.x, Spec.traj, Spec.affine, one1, Finset.sum_range_one] at a0 a1 a2
    rw [abs_le, abs_le] at a0 a1
    rw [abs_le] at a2
    have b0 := a0.2.1
    have b1 := a1.2.1
    have b2 := a2.2
    norm_num at b0 b1 b2
    linarith
  · intro t ht
    refine ((mem_noeq (p := boxXU) rfl _).1 ((boxXU_mem _).2 ?_) : IneqHold boxXU.A boxXU.b _)
    interval_cases t <;> norm_num [problem, integrator, pair, LinOcp.x, Spec.traj, Spec.affine, one1]

/-- C161 is false: the equality of the last step is missing.  For the integrator with `|x| ≤ 5`, `|u| ≤ 1`, the terminal set `|x| ≤ 2` of `mcais` and `N = 2` no
inputs are feasible from the state 5, and `feedforward` answers `None`, but the set of the test is not empty and `empty` is `False`. -/
theorem C161_false (L : Lib) (hL : LibSpec L) : ∃ (K : Mat ℝ) (T : ℕ) (X_N p q : Poly) (c : MPC),
    (∀ fuel ≥ T, LinearSystem.mcais L integrator K boxXU fuel = .ok (some X_N)) ∧ (∀ x, X_N.Mem x ↔ |x 0| ≤ 2) ∧
    MPC.init integrator 2 half1 one1 one1 boxXU X_N = .ok c ∧
    (¬ ∃ u, (problem integrator 2 half1 one1 one1 boxXU X_N).Feas (fun _ => 5) u) ∧ c.feedforward L ⟨1, fun _ => 5⟩ = .ok (none, none) ∧
    uncondensed integrator 2 boxXU X_N ⟨1, fun _ => 5⟩ = .ok p ∧ (∃ z, p.Mem z) ∧ Poly.empty L p = (.ok false, q) := by
  obtain ⟨dare, K, hd, k1, T, X_N, h1, h2, h3, h4, h5, h6, h7, h8⟩ := integrator_five L hL
  obtain ⟨hP, l1, l2, -⟩ := solve_dare_ok integrator_dareArgs hd k1
  have hargs : MpcArgs integrator 2 half1 one1 one1 boxXU X_N :=
    ⟨⟨integrator_dareArgs.sys, by norm_num, weights_of_dare integrator_dareArgs hP, ⟨rfl, rfl⟩, ⟨h2.1, h2.2.1⟩⟩, .inl (by norm_num [boxXU, Poly.fresh])⟩
  obtain ⟨mq, g1, g2⟩ := feedforward_run hL hargs
  obtain ⟨p, p1, p2, p3, -, -, p4⟩ := C161_partial integrator 2 half1 one1 one1 boxXU X_N integrator_dareArgs.sys (by norm_num) ⟨rfl, rfl, rfl, rfl⟩ rfl h2 h3
    ⟨1, fun _ => 5⟩ rfl
  have hne : ∃ z, p.Mem z := p3.2 ⟨h8, fun _ => 0, (h4 _).2 (by simp)⟩
  obtain ⟨e, q, p5, p6⟩ := p4 L hL (by norm_num [boxXU, Poly.fresh]) ⟨5, fun y hy j hj => by
      have hj : j < 2 := hj
      obtain ⟨y0, y1⟩ := (boxXU_mem y).1 hy
      interval_cases j
      · exact y0
      · linarith, fun y hy j hj => by
      have hj : j < 1 := hj
      obtain rfl : j = 0 := by omega
      linarith [(h4 y).1 hy], by
      show ((2 * (1 + 1) + 1 : ℕ) : ℝ) * 5 ^ 2 < _
      norm_num⟩
  refine ⟨K, T, X_N, p, q, _, h1, h4, g1, h7, ((g2 none ⟨1, fun _ => 5⟩ rfl).2.2 (.inl fun u hu => h7 ⟨u, hu⟩)), p1, hne, ?_⟩
  cases e with
  | false => exact p5
  | true => exact absurd hne (p6.1 rfl)

/-- C162 is false: in the situation of `C161_false` all hypotheses of `C162_partial` are met, and the test fails on its last assertion. -/
theorem C162_false (L : Lib) (hL : LibSpec L) : ∃ (dare : Mat ℝ → Mat ℝ → Mat ℝ → Mat ℝ → Py (Mat ℝ)) (K : Mat ℝ) (T : ℕ) (X_N : Poly) (c : MPC),
    DareArgs integrator half1 one1 ∧
    (∀ P, dare integrator.A integrator.B half1 one1 = .ok P → DareSpec 1 1 integrator.A integrator.B half1 one1 P) ∧
    (LinearSystem.solve_dare dare half1 one1 integrator).1 = .ok (one1, K) ∧
    (∀ z, boxXU.Mem z ↔ (symInterval 5).Mem z ∧ (symInterval 1).Mem fun j => z (1 + j)) ∧
    (∀ fuel ≥ T, LinearSystem.mcais L integrator K boxXU fuel = .ok (some X_N)) ∧
    MPC.init integrator 2 half1 one1 one1 boxXU X_N = .ok c ∧ (problem integrator 2 half1 one1 one1 boxXU X_N).TerminalInvariant K ∧
    X_N.contains ⟨1, fun _ => 5⟩ = .ok false ∧
    checkState L integrator 2 one1 K (symInterval 5) (symInterval 1) boxXU X_N c ⟨1, fun _ => 5⟩ = .error .assertionError := by
  obtain ⟨dare, K, hd, k1, T, X_N, h1, h2, h3, h4, h5, h6, h7, h8⟩ := integrator_five L hL
  have hXU : ∀ z, boxXU.Mem z ↔ (symInterval 5).Mem z ∧ (symInterval 1).Mem fun j => z (1 + j) := fun z => by
    rw [boxXU_mem, symInterval_mem, symInterval_mem]
  obtain ⟨T', X', c, t1, t2, t3⟩ := C162_partial L hL integrator half1 one1 one1 K integrator_dareArgs dare hd k1 (symInterval 5) (symInterval 1) boxXU
    ⟨rfl, rfl, rfl, rfl⟩ ⟨rfl, rfl, rfl, rfl⟩ (by norm_num [symInterval, Poly.fresh]) (by norm_num [symInterval, Poly.fresh]) ⟨rfl, rfl, rfl, rfl⟩
    (by norm_num [boxXU, Poly.fresh]) hXU rfl boxXU_inside 2 (by norm_num) 5 (fun y hy j hj => by
      have hj : j < 2 := hj
      obtain ⟨y0, y1⟩ := (boxXU_mem y).1 hy
      interval_cases j
      · exact y0
      · linarith) (by
      show ((2 * (1 + 1) + 1 : ℕ) : ℝ) * 5 ^ 2 < _
      norm_num)
  obtain rfl : X' = X_N := by
    have a := t1 (max T T') (le_max_right _ _)
    rw [h1 (max T T') (le_max_left _ _)] at a
    cases a; rfl
  refine ⟨dare, K, T, X', c, integrator_dareArgs, hd, k1, hXU, h1, t2, h5, h6, ?_⟩
  rw [(t3 h5 ⟨1, fun _ => 5⟩ rfl (by rw [h6]; intro h; cases h)).2 h7]
  exact if_pos h8

/-- the first part of `C162_partial` applies: at the states 3 and 1 the test passes with `N = 3` -/
example (L : Lib) (hL : LibSpec L) : ∃ (K : Mat ℝ) (X_N : Poly) (c : MPC), MPC.init integrator 3 half1 one1 one1 boxXU X_N = .ok c ∧
    (∀ x, X_N.Mem x ↔ |x 0| ≤ 2) ∧
    checkState L integrator 3 one1 K (symInterval 5) (symInterval 1) boxXU X_N c ⟨1, fun _ => 1⟩ = .ok () := by
  obtain ⟨dare, K, hd, k1, T, X_N, h1, h2, h3, h4, h5, h6, h7, h8⟩ := integrator_five L hL
  have hXU : ∀ z, boxXU.Mem z ↔ (symInterval 5).Mem z ∧ (symInterval 1).Mem fun j => z (1 + j) := fun z => by
    rw [boxXU_mem, symInterval_mem, symInterval_mem]
  obtain ⟨T', X', c, t1, t2, t3⟩ := C162_partial L hL integrator half1 one1 one1 K integrator_dareArgs dare hd k1 (symInterval 5) (symInterval 1) boxXU
    ⟨rfl, rfl, rfl, rfl⟩ ⟨rfl, rfl, rfl, rfl⟩ (by norm_num [symInterval, Poly.fresh]) (by norm_num [symInterval, Poly.fresh]) ⟨rfl, rfl, rfl, rfl⟩
    (by norm_num [boxXU, Poly.fresh]) hXU rfl boxXU_inside 3 (by norm_num) 5 (fun y hy j hj => by
      have hj : j < 2 := hj
      obtain ⟨y0, y1⟩ := (boxXU_mem y).1 hy
      interval_cases j
      · exact y0
      · linarith) (by
      show ((3 * (1 + 1) + 1 : ℕ) : ℝ) * 5 ^ 2 < _
      norm_num)
  obtain rfl : X' = X_N := by
    have a := t1 (max T T') (le_max_right _ _)
    rw [h1 (max T T') (le_max_left _ _)] at a
    cases a; rfl
  refine ⟨K, X', c, t2, h4, (t3 (fun x hx => h5 x hx) ⟨1, fun _ => 1⟩ rfl fun _ => (h4 _).2 (by norm_num)).1 ⟨fun t _ => if t = 0 then -1 else 0, ⟨fun t ht => ?_, ?_⟩, ?_⟩⟩
  · have ht : t < 3 := ht
    refine ((mem_noeq (p := boxXU) rfl _).1 ((boxXU_mem _).2 ?_) : IneqHold boxXU.A boxXU.b _)
    interval_cases t <;> norm_num [problem, integrator, pair, LinOcp.x, Spec.traj, Spec.affine, one1]
  · refine ((mem_noeq h3 _).1 ((h4 _).2 ?_) : IneqHold X'.A X'.b _)
    norm_num [problem, integrator, pair, LinOcp.x, Spec.traj, Spec.affine, one1]
  · rw [LinOcp.cost_eq]
    simp only [LinOcp.stageCost, problem, half1_quad, one1_quad]
    norm_num [integrator, LinOcp.x, Spec.traj, Spec.affine, one1, Finset.sum_range_succ]

end Verif.Props
