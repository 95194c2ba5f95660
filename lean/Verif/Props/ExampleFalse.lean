import Verif.Props.Example

/- Examples and counterexamples for the controller of the drake example. -/
namespace Verif.Props
open Finset Spec Dyn Control
open Example (Solver SolverSpec GoodIneqs NoCut NotCut nextOf)

open Classical in
/-- the contract of the solver can be met -/
theorem exists_solver : ∃ D, SolverSpec D := by
  refine ⟨⟨fun p => if h : ∃ v, p.Optimal v then some h.choose else none⟩, fun p v hv => ?_, fun p _ h => ?_⟩
  · by_cases h : ∃ v, p.Optimal v
    · have hv : (if h : ∃ v, p.Optimal v then some h.choose else none) = some v := hv
      rw [dif_pos h] at hv
      rw [← Option.some.inj hv]
      exact h.choose_spec
    · have hv : (if h : ∃ v, p.Optimal v then some h.choose else none) = some v := hv
      rw [dif_neg h] at hv
      cases hv
  · exact ⟨h.choose, dif_pos h⟩

theorem goodIneqs_of {S : PWA} (hg : GoodDomains S) (hC : ∀ j < S.nm, (domAt S j).C.nr = 0) : GoodIneqs S := by
  refine ⟨hg.rows, fun j hj => ?_, fun j hj => ?_⟩
  · obtain ⟨w, hw⟩ := hg.ne j hj
    exact ⟨w, hw.1⟩
  · obtain ⟨R, hR⟩ := hg.bounded j hj
    exact ⟨R, fun w hw => hR w ⟨hw, eqHold_of_noEq (hC j hj) _⟩⟩

theorem notCut_le {S : PWA} {j : ℕ} {g : (ℕ → ℝ) → ℝ} (h : ∀ w, IneqHold (domAt S j).A (domAt S j).b w → g w ≤ 0) : NotCut S j g := by
  rintro M ⟨⟨w, hw, rfl⟩, -⟩
  exact Or.inl (h w hw)

theorem notCut_ge {S : PWA} {j : ℕ} {g : (ℕ → ℝ) → ℝ} (w : ℕ → ℝ) (hw : IneqHold (domAt S j).A (domAt S j).b w) (h : 1e-6 ≤ g w) : NotCut S j g := by
  rintro M ⟨-, hM⟩
  exact Or.inr (h.trans (hM ⟨w, hw, rfl⟩))

theorem strip_ineq {lo hi : ℝ} (w : ℕ → ℝ) : IneqHold (strip lo hi).A (strip lo hi).b w ↔ w 0 ≤ hi ∧ lo ≤ w 0 ∧ w 1 ≤ 1 ∧ -1 ≤ w 1 := by
  rw [← strip_mem]
  exact ⟨fun h => ⟨h, eqHold_of_noEq rfl _⟩, fun h => h.1⟩

theorem strip_row {lo hi : ℝ} (w : ℕ → ℝ) : (rowVal (strip lo hi).A 0 w - (strip lo hi).b.e 0 = w 0 - hi) ∧ (rowVal (strip lo hi).A 1 w - (strip lo hi).b.e 1 = lo - w 0) ∧
    (rowVal (strip lo hi).A 2 w - (strip lo hi).b.e 2 = w 1 - 1) ∧ (rowVal (strip lo hi).A 3 w - (strip lo hi).b.e 3 = - w 1 - 1) := by
  refine ⟨?_, ?_, ?_, ?_⟩ <;> simp [strip, Poly.fresh, rowVal, Finset.sum_range_succ]
  ring

theorem hinge_next0 (w : ℕ → ℝ) (k : ℕ) : nextOf hinge 0 w k = w 0 + w 1 := by
  simp [nextOf, hinge, Spec.affine]

theorem hinge_next1 (w : ℕ → ℝ) (k : ℕ) : nextOf hinge 1 w k = - w 0 + w 1 + 1 := by
  simp [nextOf, hinge, Spec.affine]

/-- the constants of the example are not rounded -/
theorem hinge_noCut : NoCut hinge := by
  have two : ∀ {p : ℕ → ℕ → Prop}, p 0 1 → p 1 0 → ∀ i < hinge.nm, ∀ j < hinge.nm, i ≠ j → p i j := by
    intro p h01 h10 i hi j hj hij
    have hi : i < 2 := hi
    have hj : j < 2 := hj
    interval_cases i <;> interval_cases j
    · exact absurd rfl hij
    · exact h01
    · exact h10
    · exact absurd rfl hij
  have d0 : domAt hinge 0 = strip (-1) 0 := rfl
  have d1 : domAt hinge 1 = strip 0 1 := rfl
  refine ⟨two (fun k hk => ?_) (fun k hk => ?_), two (fun k _ => ?_) (fun k _ => ?_), two (fun k _ => ?_) (fun k _ => ?_)⟩
  · have hk : k < 4 := hk
    rw [d0]
    interval_cases k
    · refine notCut_ge (fun _ => 1) (by rw [d1, strip_ineq]; norm_num) ?_
      rw [(strip_row _).1]
      norm_num
    · refine notCut_le fun w hw => ?_
      rw [d1, strip_ineq] at hw
      rw [(strip_row _).2.1]
      linarith
    · refine notCut_le fun w hw => ?_
      rw [d1, strip_ineq] at hw
      rw [(strip_row _).2.2.1]
      linarith
    · refine notCut_le fun w hw => ?_
      rw [d1, strip_ineq] at hw
      rw [(strip_row _).2.2.2]
      linarith
  · have hk : k < 4 := hk
    rw [d1]
    interval_cases k
    · refine notCut_le fun w hw => ?_
      rw [d0, strip_ineq] at hw
      rw [(strip_row _).1]
      linarith
    · refine notCut_ge (fun _ => -1) (by rw [d0, strip_ineq]; norm_num) ?_
      rw [(strip_row _).2.1]
      norm_num
    · refine notCut_le fun w hw => ?_
      rw [d0, strip_ineq] at hw
      rw [(strip_row _).2.2.1]
      linarith
    · refine notCut_le fun w hw => ?_
      rw [d0, strip_ineq] at hw
      rw [(strip_row _).2.2.2]
      linarith
  · refine notCut_ge (fun _ => 1) (by rw [d1, strip_ineq]; norm_num) ?_
    simp only [hinge_next0, hinge_next1]
    norm_num
  · refine notCut_ge (fun _ => 0) (by rw [d0, strip_ineq]; norm_num) ?_
    simp only [hinge_next0, hinge_next1]
    norm_num
  · refine notCut_ge (fun _ => 0) (by rw [d1, strip_ineq]; norm_num) ?_
    simp only [hinge_next0, hinge_next1]
    norm_num
  · refine notCut_le fun w hw => ?_
    rw [d0, strip_ineq] at hw
    simp only [hinge_next0, hinge_next1]
    linarith

theorem hinge_ineqs : GoodIneqs hinge := goodIneqs_of hinge_good fun j hj => (hinge_noEq 1).1 j hj

/-- C93 on the example: from `-1` the controller with horizon two answers, with the value of the cheapest trajectory, which is at most `5/4`; and from `2`
there is no answer -/
example (L : Lib) (hL : LibSpec L) (D : Solver) (hD : SolverSpec D) : ∃ c0, Example.init L hinge 2 one1 one1 one1 interval1 = .ok c0 ∧
    (∃ a, (Example.feedforward D ⟨1, fun _ => -1⟩ c0).1 = .ok (some a) ∧ a.V ≤ 5 / 4 ∧
      (hyb hinge 2 one1 one1 one1 interval1).Opt (fun _ => -1) (fun t => a.modes.getD t 0) (inputsOf a.u)) ∧
    (Example.feedforward D ⟨1, fun _ => 2⟩ c0).1 = .ok none := by
  obtain ⟨c0, e0, h⟩ := C93 L hL D hD hinge 2 one1 one1 one1 interval1 (hinge_args 2 (by norm_num)) weights1 hinge_ineqs (by show 2 ≤ 2; norm_num) hinge_noCut
  refine ⟨c0, e0, ?_, ?_⟩
  · obtain ⟨o, h1, h2, h3, h4⟩ := h ⟨1, fun _ => -1⟩ le_rfl
    cases o with
    | none => exact absurd hinge_feas.1 (h2.1 rfl _ _)
    | some a =>
      refine ⟨a, h1, ((h3 a rfl).2 _ _ hinge_feas.1).trans (le_of_eq ?_), (h4 (hinge_noEq 2)).2 a rfl⟩
      norm_num [HybOcp.cost, hyb, lqCost, one1_quad, hinge, HybOcp.x, Spec.traj, Spec.affine, Finset.sum_range_succ]
  · obtain ⟨o, h1, h2, -⟩ := h ⟨1, fun _ => 2⟩ le_rfl
    rw [h1, h2.2]
    intro μ u hf
    obtain ⟨lo, hi, -, -, k1, e⟩ := hinge_dom (hf.1 0 (by show 0 < 2; norm_num))
    have k2 := hf.2.1 0 (by show 0 < 2; norm_num)
    replace k2 : IneqHold (domAt hinge (μ 0)).A (domAt hinge (μ 0)).b (pair 1 (fun _ => 2) (u 0)) := k2
    rw [e, strip_ineq] at k2
    rw [abs_le] at k1
    norm_num [pair] at k2
    linarith

/-- C94 on the example: after an answer from `-1` and a call that raised, the answer from `0` is the one of a new controller -/
example (L : Lib) (D : Solver) (c0 : Example.Ctrl) (h0 : Example.init L hinge 2 one1 one1 one1 interval1 = .ok c0) :
    Example.feedforward D ⟨1, fun _ => 0⟩ (Example.feedback D ⟨0, fun _ => 0⟩ (Example.feedforward D ⟨1, fun _ => -1⟩ c0).2).2
      = Example.feedforward D ⟨1, fun _ => 0⟩ c0 :=
  ((C94 L D hinge 2 one1 one1 one1 interval1 c0 h0 _ (.feedback _ (.feedforward _ .start)) ⟨1, fun _ => 0⟩).1 le_rfl).1

/-! ### one mode -/

/-- `x⁺ = x + u` for `|x| ≤ 1`, `|u| ≤ 1` -/
noncomputable def alone : PWA := ⟨1, 1, [⟨⟨1, 1, fun _ _ => 1⟩, ⟨1, 1, fun _ _ => 1⟩, ⟨1, fun _ => 0⟩, 1, 1⟩], [strip (-1) 1], 1⟩

/-- C96 on the example -/
example (L : Lib) (hL : LibSpec L) : Example.init L alone 2 one1 one1 one1 interval1 = .error .indexError := by
  refine C96 L hL alone 2 one1 one1 one1 interval1 ⟨⟨rfl, rfl, by show 0 < 1; norm_num, fun T hT => ?_, fun E hE => ?_⟩, by norm_num, weights1.symQ, weights1.symP,
    ⟨rfl, rfl⟩, ⟨rfl, rfl⟩⟩ ⟨fun j hj => ?_, fun j hj => ?_, fun j hj => ?_⟩ rfl (Or.inr (by show 0 < 1; norm_num))
  · simp only [alone, List.mem_cons, List.not_mem_nil, or_false] at hT
    rw [hT]
    exact ⟨⟨rfl, rfl, rfl, rfl, rfl⟩, rfl, rfl⟩
  · simp only [alone, List.mem_cons, List.not_mem_nil, or_false] at hE
    rw [hE]
    exact ⟨rfl, rfl⟩
  · have hj : j < 1 := hj
    interval_cases j
    show 0 < 4
    norm_num
  · have hj : j < 1 := hj
    interval_cases j
    exact ⟨fun _ => 0, (strip_ineq (lo := -1) (hi := 1) _).2 (by norm_num)⟩
  · have hj : j < 1 := hj
    interval_cases j
    refine ⟨1, fun w hw k hk => ?_⟩
    obtain ⟨a, b, c, d⟩ := (strip_ineq (lo := -1) (hi := 1) w).1 hw
    have hk : k < 2 := hk
    interval_cases k
    · exact abs_le.2 ⟨by linarith, by linarith⟩
    · exact abs_le.2 ⟨by linarith, by linarith⟩

/-! ### constants that are rounded -/

/-- `x⁺ = x + u` for `-1 ≤ x ≤ 1` and for `1 ≤ x ≤ 1 + 5e-7` -/
noncomputable def sliver : PWA :=
  ⟨1, 1, [⟨⟨1, 1, fun _ _ => 1⟩, ⟨1, 1, fun _ _ => 1⟩, ⟨1, fun _ => 0⟩, 1, 1⟩, ⟨⟨1, 1, fun _ _ => 1⟩, ⟨1, 1, fun _ _ => 1⟩, ⟨1, fun _ => 0⟩, 1, 1⟩],
    [strip (-1) 1, strip 1 (1 + 5e-7)], 2⟩

theorem sliver_args : HybArgs sliver 1 one1 one1 one1 interval1 :=
  ⟨⟨rfl, rfl, by show 0 < 2; norm_num, fun T hT => by
      simp only [sliver, List.mem_cons, List.not_mem_nil, or_false] at hT
      rcases hT with rfl | rfl <;> exact ⟨⟨rfl, rfl, rfl, rfl, rfl⟩, rfl, rfl⟩, fun D hD => by
      simp only [sliver, List.mem_cons, List.not_mem_nil, or_false] at hD
      rcases hD with rfl | rfl <;> exact ⟨rfl, rfl⟩⟩, by norm_num, weights1.symQ, weights1.symP, ⟨rfl, rfl⟩, ⟨rfl, rfl⟩⟩

theorem sliver_dom {j : ℕ} (hj : j < sliver.nm) : ∃ lo hi : ℝ, lo ≤ hi ∧ -1 ≤ lo ∧ hi ≤ 2 ∧ domAt sliver j = strip lo hi := by
  have hj : j < 2 := hj
  interval_cases j
  · exact ⟨-1, 1, by norm_num, by norm_num, by norm_num, rfl⟩
  · exact ⟨1, 1 + 5e-7, by norm_num, by norm_num, by norm_num, rfl⟩

theorem sliver_good : GoodDomains sliver := by
  refine ⟨fun j hj => ?_, fun j hj => ?_, fun j hj => ?_, fun j hj => ?_⟩
  all_goals obtain ⟨lo, hi, h1, h2, h3, e⟩ := sliver_dom hj
  all_goals rw [e]
  · exact ⟨rfl, rfl, rfl, rfl⟩
  · show 0 < 4
    norm_num
  · exact ⟨fun i => if i = 0 then lo else 0, (strip_mem _).2 ⟨by simpa using h1, by simp, by norm_num, by norm_num⟩⟩
  · refine ⟨2, fun w hw k hk => ?_⟩
    obtain ⟨a, b, c, d⟩ := (strip_mem w).1 hw
    have hk : k < 2 := hk
    interval_cases k
    · exact abs_le.2 ⟨by linarith, by linarith⟩
    · exact abs_le.2 ⟨by linarith, by linarith⟩

theorem sliver_noEq : (hyb sliver 1 one1 one1 one1 interval1).NoEq := by
  refine ⟨fun i hi => ?_, rfl⟩
  obtain ⟨lo, hi, -, -, -, e⟩ := sliver_dom hi
  show (domAt sliver i).C.nr = 0
  rw [e]
  rfl

/-- C76 is false of the code (and C93 without its last hypothesis): the domains are satisfiable and bounded and there are no equalities; from `1 + 5e-7` the
input `-1` in the second mode is feasible, but the violation `5e-7` of `x ≤ 1` is rounded to zero: the program has no feasible point and the controller
returns four `None`. -/
theorem C76_false : ∃ (S : PWA) (N : ℕ) (Q R P : Mat ℝ) (X_N : Poly) (x0 : Vec ℝ), HybArgs S N Q R P X_N ∧ Weights S.nx S.nu Q R P ∧ GoodDomains S ∧
    (hyb S N Q R P X_N).NoEq ∧ 2 ≤ S.nm ∧ x0.n = S.nx ∧ (∃ μ u, (hyb S N Q R P X_N).Feas x0.e μ u) ∧
    ∀ (L : Lib) (D : Solver), LibSpec L → SolverSpec D → ∃ c0 c, Example.init L S N Q R P X_N = .ok c0 ∧ Example.set_initial_condition x0 c0 = (.ok (), c) ∧
      (∀ v, ¬ c.prog.Feasible v) ∧ (Example.feedforward D x0 c0).1 = .ok none := by
  have gi : GoodIneqs sliver := goodIneqs_of sliver_good fun j hj => sliver_noEq.1 j hj
  refine ⟨sliver, 1, one1, one1, one1, interval1, ⟨1, fun _ => 1 + 5e-7⟩, sliver_args, weights1, sliver_good, sliver_noEq, by show 2 ≤ 2; norm_num, rfl,
    ⟨fun _ => 1, fun _ _ => -1, (feas_iff_ineq sliver_noEq _ _ _).2 ⟨fun t _ => by show 1 < 2; norm_num, fun t ht => ?_, fun i hi => ?_⟩⟩,
    fun L D hL hD => ?_⟩
  · have ht : t < 1 := ht
    interval_cases t
    exact (strip_ineq (lo := 1) (hi := 1 + 5e-7) _).2 (by norm_num [pair, hyb, sliver, HybOcp.x, Spec.traj])
  · have hi : i < 2 := hi
    interval_cases i <;> norm_num [hyb, sliver, interval1, Poly.fresh, rowVal, HybOcp.x, Spec.traj, Spec.affine]
  · obtain ⟨Gs, m, c0, rest, hGi, hm, e0, hc0, hi0⟩ := Example.init_ok hL sliver_args gi (by show 2 ≤ 2; norm_num)
    obtain ⟨c, e, hc, hi⟩ := set_ok hc0 hi0 (x0 := ⟨1, fun _ => 1 + 5e-7⟩) (by show 1 ≤ 1; norm_num)
    have hno : ∀ v, ¬ c.prog.Feasible v := by
      intro v hv
      obtain ⟨v0, vB, vR, vT⟩ := (hc.feas hi v).1 hv
      have hx : v 0 = 1 + 5e-7 := v0 0 (by show 0 < 1; norm_num)
      obtain ⟨i, hi', hd, hg⟩ := Example.stage_sound hGi (vB 0 (by norm_num)) (vR 0 (by norm_num))
      have hw0 : v ((Example.wi sliver.nx sliver.nu sliver.nm 0).e 0) = v 0 := (Example.wi_val sliver 0 v).1 0 (by show 0 < 1; norm_num)
      -- the selected mode is the second one
      have hi1 : i = 1 := by
        have hi2 : i < 2 := hi'
        interval_cases i
        · have := ((strip_ineq (lo := -1) (hi := 1) _).1 hg.1).1
          rw [hw0, hx] at this
          norm_num at this
        · rfl
      subst hi1
      have hG0 := hGi 0 (by show 0 < 2; norm_num)
      have hk : 0 < (Gs.getD 0 poly0).A.nr := by
        rw [hG0.nr]
        show 0 < 4 + (1 + 1)
        norm_num
      have hrow0 : ∀ w, rowVal (Gs.getD 0 poly0).A 0 w - (Gs.getD 0 poly0).b.e 0 = w 0 - 1 := fun w => by
        rw [hG0.dom 0 (by show 0 < 4; norm_num) w]
        exact (strip_row w).1
      obtain ⟨M, hM, hex⟩ := hm.val 0 (by show 0 < 2; norm_num) 1 (by show 1 < 2; norm_num) 0 hk
      have hM0 : 0 ≤ M := by
        have := hM.2 ⟨_, hg, rfl⟩
        rw [hrow0, hw0, hx] at this
        norm_num at this
        linarith
      have hM1 : M ≤ 5e-7 := by
        obtain ⟨w, hw, hMw⟩ := hM.1
        rw [hMw, hrow0]
        have := ((strip_ineq (lo := 1) (hi := 1 + 5e-7) _).1 hw.1).1
        linarith
      rw [if_pos (by rw [abs_of_nonneg hM0]; norm_num at hM1 ⊢; linarith)] at hex
      have hrow := (vR 0 (by norm_num)).1 0 (by show 0 < 2; norm_num) 0 hk
      unfold Example.RowHolds at hrow
      rw [sum_erase_delta hi' (fun j => Example.ex m 0 j 0) (fun j => v ((Example.di sliver.nx sliver.nu sliver.nm 0).e j)) hd, if_neg (by norm_num), hex] at hrow
      have := hrow0 fun j => v ((Example.wi sliver.nx sliver.nu sliver.nm 0).e j)
      rw [hw0, hx] at this
      have h5 : (0 : ℝ) < 5e-7 := by norm_num
      linarith
    refine ⟨c0, c, e0, e, hno, ?_⟩
    rw [feedforward_eq D e]
    unfold answer
    cases hs : D.solve c.prog with
    | none => rfl
    | some v => exact absurd (hD.sound _ _ hs).1 (hno v)

/-! ### the terminal cost of the `Controller` -/

/-- C78, what holds: whatever `P` is, the answers of the controller built by `Controller(S, N, Q, R, P, X_N)` are optimal for the terminal cost `Q` (under the
hypotheses of C93, without equalities).  Missing with respect to C78: `P` different from `Q` (false, see `C78_false`). -/
theorem C78_partial (L : Lib) (hL : LibSpec L) (D : Solver) (hD : SolverSpec D) (S : PWA) (N : ℕ) (Q R P : Mat ℝ) (X_N : Poly) (h : HybArgs S N Q R Q X_N)
    (hw : Weights S.nx S.nu Q R Q) (hg : GoodIneqs S) (h2 : 2 ≤ S.nm) (hcut : NoCut S) (hno : (hyb S N Q R Q X_N).NoEq) :
    ∃ c0, Example.Controller.init L S N Q R P X_N = .ok c0 ∧ ∀ x0 : Vec ℝ, S.nx ≤ x0.n → ∃ o, (Example.feedforward D x0 c0).1 = .ok o ∧
      (o = none ↔ ∀ μ u, ¬ (hyb S N Q R Q X_N).Feas x0.e μ u) ∧
      ∀ a, o = some a → (hyb S N Q R Q X_N).Opt x0.e (fun t => a.modes.getD t 0) (inputsOf a.u) := by
  obtain ⟨c0, e0, k⟩ := C93 L hL D hD S N Q R Q X_N h hw hg h2 hcut
  refine ⟨c0, e0, fun x0 hx => ?_⟩
  obtain ⟨o, h1, -, -, h4⟩ := k x0 hx
  exact ⟨o, h1, h4 hno⟩

theorem zero_weights : Weights 1 1 (Mat.zeros 1 1) one1 (Mat.zeros 1 1) :=
  ⟨⟨rfl, rfl, fun _ _ _ _ => rfl⟩, ⟨rfl, rfl, fun _ _ _ _ => rfl⟩, weights1.symR, fun x => by simp [quad, Mat.zeros], fun x => by simp [quad, Mat.zeros], weights1.Rpos⟩

/-- C78 is false of the code: from `-1` in the example with `Q = 0`, `R = 1`, `P = 1` and horizon one the controller answers the input `0`, of cost `1/2`,
while the input `1/2` costs `1/4`. -/
theorem C78_false : ∃ (S : PWA) (N : ℕ) (Q R P : Mat ℝ) (X_N : Poly) (x0 : Vec ℝ), HybArgs S N Q R P X_N ∧ Weights S.nx S.nu Q R P ∧ GoodDomains S ∧
    (hyb S N Q R P X_N).NoEq ∧ 2 ≤ S.nm ∧ NoCut S ∧ x0.n = S.nx ∧
    ∀ (L : Lib) (D : Solver), LibSpec L → SolverSpec D → ∃ c0 a, Example.Controller.init L S N Q R P X_N = .ok c0 ∧
      (Example.feedforward D x0 c0).1 = .ok (some a) ∧ ¬ (hyb S N Q R P X_N).Opt x0.e (fun t => a.modes.getD t 0) (inputsOf a.u) := by
  have hQ := zero_weights
  have hno : ∀ P, (hyb hinge 1 (Mat.zeros 1 1) one1 P interval1).NoEq := fun P => (hinge_noEq 1)
  have hfe : ∀ P u0, 0 ≤ u0 → u0 ≤ 1 → (hyb hinge 1 (Mat.zeros 1 1) one1 P interval1).IneqFeas (fun _ => -1) (fun _ => 0) (fun _ _ => u0) := by
    intro P u0 hu hu'
    refine ⟨fun t _ => by show 0 < 2; norm_num, fun t ht => ?_, fun i hi => ?_⟩
    · have ht : t < 1 := ht
      interval_cases t
      refine (strip_ineq (lo := -1) (hi := 0) _).2 ?_
      simp [pair, hyb, hinge, HybOcp.x, Spec.traj]
      exact ⟨hu', by linarith⟩
    · have hi : i < 2 := hi
      interval_cases i <;> simp [hyb, hinge, interval1, Poly.fresh, rowVal, HybOcp.x, Spec.traj, Spec.affine] <;> linarith
  have hco : ∀ P μ u, (hyb hinge 1 (Mat.zeros 1 1) one1 P interval1).cost (fun _ => -1) μ u
      = 1 / 2 * u 0 0 ^ 2 + 1 / 2 * quad P ((hyb hinge 1 (Mat.zeros 1 1) one1 P interval1).x (fun _ => -1) μ u 1) := by
    intro P μ u
    have h0 : ∀ x, quad (Mat.zeros 1 1 : Mat ℝ) x = 0 := fun x => by simp [quad, Mat.zeros]
    unfold HybOcp.cost lqCost
    show 1 / 2 * ∑ t ∈ range 1, (quad (Mat.zeros 1 1) _ + quad one1 (u t)) + 1 / 2 * quad P _ = _
    rw [Finset.sum_range_one, h0, one1_quad, zero_add]
    rfl
  have hq0 : ∀ x, quad (Mat.zeros 1 1 : Mat ℝ) x = 0 := fun x => by simp [quad, Mat.zeros]
  refine ⟨hinge, 1, Mat.zeros 1 1, one1, one1, interval1, ⟨1, fun _ => -1⟩, ⟨hinge_pwa, by norm_num, hQ.symQ, weights1.symP, ⟨rfl, rfl⟩, ⟨rfl, rfl⟩⟩,
    ⟨hQ.symQ, weights1.symP, hQ.symR, hQ.Q0, weights1.P0, hQ.Rpos⟩, hinge_good, hno _, by show 2 ≤ 2; norm_num, hinge_noCut, rfl, fun L D hL hD => ?_⟩
  obtain ⟨c0, e0, k⟩ := C78_partial L hL D hD hinge 1 (Mat.zeros 1 1) one1 one1 interval1 ⟨hinge_pwa, by norm_num, hQ.symQ, hQ.symP, ⟨rfl, rfl⟩, ⟨rfl, rfl⟩⟩ hQ
    hinge_ineqs (by show 2 ≤ 2; norm_num) hinge_noCut (hno _)
  obtain ⟨o, h1, h2, h3⟩ := k ⟨1, fun _ => -1⟩ le_rfl
  have hf0 := (feas_iff_ineq (hno (Mat.zeros 1 1)) _ _ _).2 (hfe (Mat.zeros 1 1) 0 le_rfl (by norm_num))
  cases o with
  | none => exact absurd hf0 (h2.1 rfl _ _)
  | some a =>
    refine ⟨c0, a, e0, h1, fun hopt => ?_⟩
    obtain ⟨hfa, hle⟩ := h3 a rfl
    have hu : inputsOf a.u 0 0 = 0 := by
      have := hle _ _ hf0
      show inputsOf a.u 0 0 = 0
      rw [hco, hco, hq0, hq0] at this
      norm_num at this
      nlinarith [sq_nonneg (inputsOf a.u 0 0)]
    -- the first mode is the mode of `-1`
    have hm : (fun t => a.modes.getD t 0) 0 = 0 := by
      have k1 := hfa.1.1 0 (by show 0 < 1; norm_num)
      have k2 := hfa.1.2.1 0 (by show 0 < 1; norm_num)
      generalize hμ : (fun t => a.modes.getD t 0) 0 = μ0 at k1 k2
      have k1 : μ0 < 2 := k1
      interval_cases μ0
      · rfl
      · have := ((strip_ineq (lo := 0) (hi := 1) _).1 k2).2.1
        norm_num [pair, hyb, hinge, HybOcp.x, Spec.traj] at this
    have := hopt.2 (fun _ => 0) (fun _ _ => 1 / 2) ((feas_iff_ineq (hno one1) _ _ _).2 (hfe one1 (1 / 2) (by norm_num) (by norm_num)))
    rw [hco, hco, one1_quad, one1_quad, hu] at this
    have e1 : (hyb hinge 1 (Mat.zeros 1 1) one1 one1 interval1).x (fun _ => -1) (fun t => a.modes.getD t 0) (inputsOf a.u) 1 0 = -1 := by
      show Spec.affine (sysAt hinge ((fun t => a.modes.getD t 0) 0)).A (sysAt hinge ((fun t => a.modes.getD t 0) 0)).B (sysAt hinge ((fun t => a.modes.getD t 0) 0)).c
        (fun _ => -1) (inputsOf a.u 0) 0 = -1
      rw [hm]
      simp [Spec.affine, hinge, hu]
    have e2 : (hyb hinge 1 (Mat.zeros 1 1) one1 one1 interval1).x (fun _ => -1) (fun _ => 0) (fun _ _ => 1 / 2) 1 0 = -1 / 2 := by
      show Spec.affine (sysAt hinge 0).A (sysAt hinge 0).B (sysAt hinge 0).c (fun _ => -1) (fun _ => 1 / 2) 0 = -1 / 2
      norm_num [Spec.affine, hinge]
    rw [e1, e2] at this
    norm_num at this

end Verif.Props
