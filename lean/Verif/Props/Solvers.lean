import Verif.Proofs.LibExists
import Verif.Proofs.QPMain

/-
Properties of `/repo/pympc/optimization/solvers/pnnls.py` (C29 - C35).
`L` ranges over all routines (nnls, pinv, cholesky ...) that meet the contract `LibSpec`;
`exists_lib` shows that there are such routines.
-/
namespace Verif.Props
open Finset

/-- C29: `pnnls` solves the partial nonnegative least squares problem if it has nonnegative unknowns, and raises `RuntimeError` otherwise. -/
theorem C29 (L : Lib) (hL : LibSpec L) (A B : Mat ℝ) (c : Vec ℝ)
    (hA : A.nr = c.n) (hB : B.nr = c.n) :
    (0 < A.nc → ∃ v u r, Pnnls.pnnls L A B c = .ok (v, u, r) ∧ v.n = A.nc ∧ u.n = B.nc ∧
      (∀ i < A.nc, 0 ≤ v.e i) ∧ r = Real.sqrt (Spec.lsResidual A B c v u) ∧
      ∀ v' u' : Vec ℝ, (∀ i < A.nc, 0 ≤ v'.e i) →
        Spec.lsResidual A B c v u ≤ Spec.lsResidual A B c v' u') ∧
    (A.nc = 0 → Pnnls.pnnls L A B c = .error .runtimeError) := by
  refine ⟨fun h0 => ?_, pnnls_none hL A B c hA hB⟩
  obtain ⟨v, u, r, h1, h2⟩ := pnnls_spec hL A B c hA hB
  exact ⟨v, u, r, h1 h0, h2⟩

/-- the contract of the routines is satisfiable and there are data of compatible sizes -/
example : ∃ L : Lib, LibSpec L ∧ ∃ (A B : Mat ℝ) (c : Vec ℝ), A.nr = c.n ∧ B.nr = c.n ∧ c.n = 2 ∧ 0 < A.nc :=
  let ⟨L, hL⟩ := exists_lib
  ⟨L, hL, ⟨2, 1, fun _ _ => 1⟩, ⟨2, 1, fun i _ => i⟩, ⟨2, fun _ => -1⟩, rfl, rfl, rfl, Nat.one_pos⟩

/-- C30: if the LP has constraints and an optimal solution, `linear_program` returns one, with its value and
multipliers that satisfy the KKT conditions.  (Without constraints `RuntimeError` is raised, see C31.) -/
theorem C30 (L : Lib) (hL : LibSpec L) (n : ℕ) (f : Vec ℝ) (A : Mat ℝ) (b : Vec ℝ)
    (C : Option (Mat ℝ)) (d : Option (Vec ℝ)) (hf : f.n = n) (hs : Spec.ConstrShape n A b C d)
    (hc : Spec.HasConstr A C) (tol : ℝ) (htol : 0 < tol) (hopt : ∃ x, Spec.IsLpOpt f A b C d x) :
    ∃ s x lam, Pnnls.linear_program L f A b C d tol = .ok s ∧
      s.argmin = some x ∧ x.n = n ∧ Spec.IsLpOpt f A b C d x ∧
      s.min = some (Spec.lpCost f x) ∧
      s.multiplier_inequality = some lam ∧
      Spec.KKT f.e A b C x lam s.multiplier_equality := by
  obtain ⟨x, lam, mu, h1, h2, h3, h4⟩ := lp_finds hL hf hs hc htol hopt
  exact ⟨_, x, lam, h1, rfl, h2, h3, rfl, rfl, h4⟩

/-- min x s.t. x ≥ 0 has an optimal solution -/
example : ∃ (f : Vec ℝ) (A : Mat ℝ) (b : Vec ℝ), f.n = 1 ∧ Spec.ConstrShape 1 A b none none ∧
    ∃ x, Spec.IsLpOpt f A b none none x := by
  refine ⟨⟨1, fun _ => 1⟩, ⟨1, 1, fun _ _ => -1⟩, ⟨1, fun _ => 0⟩, rfl, ⟨rfl, rfl⟩, ⟨1, fun _ => 0⟩,
    ⟨by simp [Spec.Ineqs], trivial⟩, ?_⟩
  intro x' hx'
  have := hx'.1 0 (by norm_num)
  simp at this
  simpa [Spec.lpCost] using this

/-- C31: on data of compatible sizes `linear_program` does not raise if there is a constraint, and answers `None` only if the
LP is infeasible or unbounded.  Without constraints it raises `RuntimeError`. -/
theorem C31 (L : Lib) (hL : LibSpec L) (n : ℕ) (f : Vec ℝ) (A : Mat ℝ) (b : Vec ℝ)
    (C : Option (Mat ℝ)) (d : Option (Vec ℝ)) (hf : f.n = n) (hs : Spec.ConstrShape n A b C d)
    (tol : ℝ) (htol : 0 < tol) :
    (Spec.HasConstr A C → ∃ s, Pnnls.linear_program L f A b C d tol = .ok s ∧
      (s.min = none → (∀ x, ¬ Spec.Feasible A b C d x) ∨
        ∀ M : ℝ, ∃ x, Spec.Feasible A b C d x ∧ Spec.lpCost f x < M) ∧
      (s.min = none ↔ s = Sol.none)) ∧
    (¬ Spec.HasConstr A C → Pnnls.linear_program L f A b C d tol = .error .runtimeError) := by
  refine ⟨fun hc => ?_, fun hc => ?_⟩
  rotate_left
  · obtain ⟨q, AC, bd, ys, x, r, -, -, -, -, -, -, -, -, h⟩ := lp_run hL hf hs tol
    exact h hc
  rcases lp_total hL hf hs hc tol with h | ⟨x, lam, mu, h, -⟩
  · refine ⟨_, h, fun _ => ?_, by simp [Sol.none]⟩
    refine no_lpOpt hf hs fun hopt => ?_
    obtain ⟨x, lam, mu, h1, -⟩ := lp_finds hL hf hs hc htol hopt
    rw [h] at h1
    simp [Sol.none] at h1
  · exact ⟨_, h, fun h => by simp at h, by simp [Sol.none]⟩

/-- `None` is answered for some program: min x s.t. -1 ≤ 0 is unbounded -/
example (L : Lib) (hL : LibSpec L) : ∃ s, Pnnls.linear_program L ⟨1, fun _ => 1⟩
    ⟨1, 1, fun _ _ => 0⟩ ⟨1, fun _ => 1⟩ none none = .ok s ∧ s.min = none := by
  have hs : Spec.ConstrShape 1 (⟨1, 1, fun _ _ => 0⟩ : Mat ℝ) ⟨1, fun _ => 1⟩ none none := ⟨rfl, rfl⟩
  obtain ⟨q, AC, bd, ys, x, r, hS, h1, h2, h3, h4, h5, h6, h7, -⟩ :=
    lp_run hL (n := 1) (f := ⟨1, fun _ => 1⟩) rfl hs 1e-7
  refine ⟨_, h7 (.inl Nat.one_pos), ?_⟩
  have hr : ¬ r < 1e-7 := by
    have hb := (lpRes_bounds h5).2.2 0 (by rw [hS.nc]; norm_num)
    have hz : ∑ i ∈ range AC.nr, AC.e i 0 * ys.e i = 0 := by
      have g := hS.grad ys.e 0
      rw [← hS.nr] at g
      have e : ∑ i ∈ range AC.nr, AC.e i 0 * ys.e i = ∑ i ∈ range AC.nr, ys.e i * AC.e i 0 :=
        Finset.sum_congr rfl fun i _ => mul_comm _ _
      rw [e, g]
      simp [Spec.eqGrad]
    rw [hz] at hb
    norm_num at hb ⊢
    linarith
  rw [if_neg hr]; rfl

/-- C32 is false of the code (with the default tolerance): the constraints `x ≤ 0`, `x ≥ 1e-9` have
no feasible point, but `linear_program` answers. -/
theorem C32_false : ∃ (f : Vec ℝ) (A : Mat ℝ) (b : Vec ℝ), f.n = 1 ∧
    Spec.ConstrShape 1 A b none none ∧ (∀ x, ¬ Spec.Feasible A b none none x) ∧
    ∀ L : Lib, LibSpec L → ∃ s m, Pnnls.linear_program L f A b none none = .ok s ∧ s.min = some m := by
  have hs : Spec.ConstrShape 1 (⟨2, 1, fun i _ => if i = 0 then 1 else -1⟩ : Mat ℝ)
      ⟨2, fun i => if i = 0 then 0 else -1e-9⟩ none none := ⟨rfl, rfl⟩
  refine ⟨⟨1, fun _ => 0⟩, ⟨2, 1, fun i _ => if i = 0 then 1 else -1⟩,
    ⟨2, fun i => if i = 0 then 0 else -1e-9⟩, rfl, hs, ?_, ?_⟩
  · rintro x ⟨h, -⟩
    have h0 := h 0 (by norm_num)
    have h1 := h 1 (by norm_num)
    simp at h0 h1
    norm_num at h1
    linarith
  · intro L hL
    -- without equalities nothing is stacked
    obtain ⟨q, AC, bd, ys, x, r, hS, h1, h2, h3, h4, h5, h6, h7, -⟩ :=
      lp_run hL (n := 1) (f := ⟨1, fun _ => 0⟩) rfl hs 1e-7
    have h7 := h7 (.inl Nat.two_pos)
    have hq : q = 0 := by
      by_contra hq
      obtain ⟨C', hC'⟩ := hS.qpos (Nat.pos_of_ne_zero hq)
      cases hC'
    subst hq
    have hnr : AC.nr = 2 := hS.nr
    have hnc : AC.nc = 1 := hS.nc
    have hres := h6 (fun _ => 0) (fun _ => 0) (fun _ => 0) (fun _ _ => le_rfl) (fun _ _ => le_rfl)
    have hb0 : bd.e 0 = 0 := by rw [hS.rowb 0 (by norm_num)]; rfl
    have hb1 : bd.e 1 = -1e-9 := by rw [hS.rowb 1 (by norm_num)]; rfl
    have hval : lpRes ⟨1, fun _ => 0⟩ AC bd (fun _ => 0) (fun _ => 0) (fun _ => 0) = (1e-9) ^ 2 := by
      simp [lpRes, hnr, Finset.sum_range_succ, hb0, hb1]
    rw [hval] at hres
    have hr : r < 1e-7 := by
      rw [h5]
      calc Real.sqrt _ ≤ Real.sqrt ((1e-9) ^ 2) := Real.sqrt_le_sqrt hres
        _ = 1e-9 := Real.sqrt_sq (by norm_num)
        _ < 1e-7 := by norm_num
    rw [if_pos hr] at h7
    exact ⟨_, _, h7, rfl⟩

/-- C32, what holds: an answer satisfies the KKT conditions within `tol`: constraints, stationarity
and duality gap are violated by less than `tol`, and the inequality multipliers are nonnegative.
Missing with respect to C32: existence of an exact optimum (false, see `C32_false`). -/
theorem C32_partial (L : Lib) (hL : LibSpec L) (n : ℕ) (f : Vec ℝ) (A : Mat ℝ) (b : Vec ℝ)
    (C : Option (Mat ℝ)) (d : Option (Vec ℝ)) (hf : f.n = n) (hs : Spec.ConstrShape n A b C d)
    (tol : ℝ) (s : Sol) (m : ℝ) (hrun : Pnnls.linear_program L f A b C d tol = .ok s)
    (hm : s.min = some m) :
    ∃ x lam ε, ε < tol ∧ s.argmin = some x ∧ m = Spec.lpCost f x ∧
      s.multiplier_inequality = some lam ∧ (∀ i < A.nr, 0 ≤ lam.e i) ∧
      Spec.FeasibleTol ε A b C d x ∧
      (∀ j < n, |f.e j + ∑ i ∈ range A.nr, lam.e i * A.e i j
        + Spec.eqGrad C s.multiplier_equality j| ≤ ε) ∧
      |∑ i ∈ range A.nr, b.e i * lam.e i + Spec.eqValue d s.multiplier_equality
        + Spec.lpCost f x| ≤ ε := by
  obtain ⟨q, AC, bd, ys, x, r, hS, h1, h2, h3, h4, h5, h6, h7, h8⟩ := lp_run hL hf hs tol
  rw [h7 (by by_contra hc; rw [h8 hc] at hrun; cases hrun)] at hrun
  by_cases hr : r < tol
  · rw [if_pos hr] at hrun
    obtain ⟨k1, k2, k3⟩ := lpRes_bounds h5
    cases hrun
    refine ⟨x, mulIneq A ys, r, hr, rfl, by simpa using hm.symm, rfl,
      fun i hi => h3 i (by rw [hS.nr]; omega), ?_, ?_, ?_⟩
    · rw [← hS.feasTol]
      intro i hi
      have := abs_le.1 (k2 i hi)
      have := h4 i hi
      linarith
    · intro j hj
      have := k3 j (by rw [hS.nc]; exact hj)
      have g := hS.grad ys.e j
      rw [← hS.nr] at g
      have e : ∑ i ∈ range AC.nr, AC.e i j * ys.e i = ∑ i ∈ range AC.nr, ys.e i * AC.e i j :=
        Finset.sum_congr rfl fun i _ => mul_comm _ _
      rw [e, g] at this
      simp only [mulIneq, mulEq]
      rw [add_assoc, add_comm]
      exact this
    · have g := hS.value ys.e
      rw [← hS.nr] at g
      rw [g] at k1
      simp only [mulIneq, mulEq, Spec.lpCost]
      rw [show f.n = AC.nc by rw [hf, hS.nc]]
      exact k1
  · rw [if_neg hr] at hrun
    cases hrun
    simp [Sol.none] at hm

/-- C33, second part, is false of the code: in min -1e-8 x s.t. x ≤ 0 the constraint is tight at the
(unique) optimum, but the active set is empty. -/
theorem C33_false : ∃ (f : Vec ℝ) (A : Mat ℝ) (b : Vec ℝ), f.n = 1 ∧
    Spec.ConstrShape 1 A b none none ∧
    ∀ L : Lib, LibSpec L → ∃ s x, Pnnls.linear_program L f A b none none = .ok s ∧
      s.argmin = some x ∧ (0 < A.nr ∧ ∑ j ∈ range A.nc, A.e 0 j * x.e j = b.e 0) ∧
      s.active_set = some [] := by
  have hs : Spec.ConstrShape 1 (⟨1, 1, fun _ _ => 1⟩ : Mat ℝ) ⟨1, fun _ => 0⟩ none none := ⟨rfl, rfl⟩
  refine ⟨⟨1, fun _ => -1e-8⟩, ⟨1, 1, fun _ _ => 1⟩, ⟨1, fun _ => 0⟩, rfl, hs, fun L hL => ?_⟩
  obtain ⟨x, lam, mu, h1, h2, h3, h4⟩ := lp_finds (f := ⟨1, fun _ => -1e-8⟩) hL rfl hs (.inl Nat.one_pos)
    (tol := 1e-7) (by norm_num) ⟨⟨1, fun _ => 0⟩, ⟨by simp [Spec.Ineqs], trivial⟩, fun x' hx' => by
      have := hx'.1 0 (by norm_num)
      simp at this
      simp [Spec.lpCost]
      exact mul_nonpos_of_nonneg_of_nonpos (by norm_num) this⟩
  have hstat := h4.stat 0 (by norm_num)
  simp [Spec.eqGrad] at hstat
  have hlam : lam.e 0 = 1e-8 := by linarith
  have hc := h4.compl 0 (by norm_num)
  simp [hlam] at hc
  norm_num at hc
  refine ⟨_, x, h1, rfl, ⟨by norm_num, by simpa using hc⟩, ?_⟩
  have hn : lam.n = 1 := h4.size
  simp [whereGt, hn, hlam]
  norm_num

/-- C33, what holds: the active set lists (in increasing order) the inequalities whose multiplier
exceeds `tol`; they are tight at `argmin`.  Missing with respect to C33: it need not contain all the
tight inequalities (see `C33_false`). -/
theorem C33_partial (L : Lib) (hL : LibSpec L) (n : ℕ) (f : Vec ℝ) (A : Mat ℝ) (b : Vec ℝ)
    (C : Option (Mat ℝ)) (d : Option (Vec ℝ)) (hf : f.n = n) (hs : Spec.ConstrShape n A b C d)
    (hc : Spec.HasConstr A C) (tol : ℝ) (htol : 0 < tol) (hopt : ∃ x, Spec.IsLpOpt f A b C d x) :
    ∃ s x lam act, Pnnls.linear_program L f A b C d tol = .ok s ∧
      s.argmin = some x ∧ s.multiplier_inequality = some lam ∧ s.active_set = some act ∧
      act.Pairwise (· < ·) ∧
      (∀ i, i ∈ act ↔ i < A.nr ∧ tol < lam.e i) ∧
      ∀ i ∈ act, ∑ j ∈ range A.nc, A.e i j * x.e j = b.e i := by
  obtain ⟨x, lam, mu, h1, h2, h3, h4⟩ := lp_finds hL hf hs hc htol hopt
  have hmem : ∀ i, i ∈ whereGt lam tol ↔ i < A.nr ∧ tol < lam.e i := by
    intro i; simp [whereGt, h4.size]
  refine ⟨_, x, lam, whereGt lam tol, h1, rfl, rfl, rfl, ?_, hmem, ?_⟩
  · exact List.Pairwise.filter _ List.pairwise_lt_range
  · intro i hi
    obtain ⟨hi1, hi2⟩ := (hmem i).1 hi
    have := h4.compl i hi1
    rcases mul_eq_zero.1 this with h | h
    · linarith
    · linarith

/-- C34: if `quadratic_program` answers, the answer is the unique minimizer, with its value and
multipliers that satisfy the KKT conditions. -/
theorem C34 (L : Lib) (hL : LibSpec L) (n : ℕ) (H : Mat ℝ) (f : Vec ℝ) (A : Mat ℝ) (b : Vec ℝ)
    (C : Option (Mat ℝ)) (d : Option (Vec ℝ)) (hH : Spec.SymPosDef n H) (hf : f.n = n)
    (hs : Spec.ConstrShape n A b C d) (tol : ℝ) (htol : 0 ≤ tol) (s : Sol)
    (hrun : Pnnls.quadratic_program L H f A b C d tol = .ok s) (m : ℝ) (hm : s.min = some m) :
    ∃ x lam act, s.argmin = some x ∧ x.n = n ∧ Spec.IsQpOpt H f A b C d x ∧
      (∀ x', Spec.IsQpOpt H f A b C d x' → ∀ j < n, x'.e j = x.e j) ∧
      m = Spec.qpCost H f x ∧
      s.multiplier_inequality = some lam ∧
      Spec.KKT (Spec.qpGrad H f x) A b C x lam s.multiplier_equality ∧
      s.active_set = some act ∧ act.Pairwise (· < ·) ∧
      (∀ i, i ∈ act ↔ i < A.nr ∧ tol < lam.e i) := by
  have hc : Spec.HasConstr A C := by
    by_contra hc
    obtain ⟨q, AC, bd, lam, x, t, r, -, -, -, -, -, -, -, -, h⟩ := qp_run hL hH hf hs tol
    rw [h hc] at hrun
    cases hrun
  rcases qp_answer hL hH hf hs hc htol with h | ⟨x, lam, mu, h1, h2, h3, h4, h5⟩
  · rw [h] at hrun; cases hrun; simp [Sol.none] at hm
  · rw [h1] at hrun; cases hrun
    refine ⟨x, lam, whereGt lam tol, rfl, h2, h3, fun x' hx' => h4 x' hx'.1 (hx'.2 x h3.1),
      by simpa using hm.symm, rfl, h5, rfl, ?_, ?_⟩
    · exact List.Pairwise.filter _ List.pairwise_lt_range
    · intro i; simp [whereGt, h5.size]

/-- C35: on data of compatible sizes `quadratic_program` does not raise if there is a constraint, and answers `None` exactly
when the QP is infeasible or its optimum is at least `sqrt (1 / tol^2 - 1)` away, in the norm of
`H`, from the unconstrained optimum `x0`.  Without constraints it raises `RuntimeError`. -/
theorem C35 (L : Lib) (hL : LibSpec L) (n : ℕ) (H : Mat ℝ) (f : Vec ℝ) (A : Mat ℝ) (b : Vec ℝ)
    (C : Option (Mat ℝ)) (d : Option (Vec ℝ)) (hH : Spec.SymPosDef n H) (hf : f.n = n)
    (hs : Spec.ConstrShape n A b C d) (tol : ℝ) (htol : 0 < tol) (x0 : ℕ → ℝ)
    (hx0 : ∀ j < n, ∑ k ∈ range n, H.e j k * x0 k + f.e j = 0) :
    (Spec.HasConstr A C → ∃ s, Pnnls.quadratic_program L H f A b C d tol = .ok s ∧
      (s.min = none ↔ (∀ x, ¬ Spec.Feasible A b C d x) ∨ ∃ x, Spec.IsQpOpt H f A b C d x ∧
        1 / tol ^ 2 - 1
          ≤ ∑ i ∈ range n, ∑ j ∈ range n, (x.e i - x0 i) * H.e i j * (x.e j - x0 j)) ∧
      (s.min = none ↔ s = Sol.none)) ∧
    (¬ Spec.HasConstr A C → Pnnls.quadratic_program L H f A b C d tol = .error .runtimeError) := by
  refine ⟨fun hc => ?_, fun hc => ?_⟩
  rotate_left
  · obtain ⟨q, AC, bd, lam, x, t, r, -, -, -, -, -, -, -, -, h⟩ := qp_run hL hH hf hs tol
    exact h hc
  have hiff := qp_none_iff hL hH hf hs hc htol hx0
  rcases qp_answer hL hH hf hs hc htol.le with h | ⟨x, lam, mu, h1, h2, h3, h4, h5⟩
  · refine ⟨_, h, ?_, by simp [Sol.none]⟩
    rw [← hiff, h]; simp [Sol.none]
  · refine ⟨_, h1, ?_, by simp [Sol.none]⟩
    rw [← hiff, h1]; simp [Sol.none]

/-- min x² s.t. x ≥ 1: the hypotheses of C34 and C35 are met and the solver answers -/
example (L : Lib) (hL : LibSpec L) : Spec.SymPosDef 1 ⟨1, 1, fun _ _ => 2⟩ ∧
    Spec.ConstrShape 1 (⟨1, 1, fun _ _ => -1⟩ : Mat ℝ) ⟨1, fun _ => -1⟩ none none ∧
    ∃ s m, Pnnls.quadratic_program L ⟨1, 1, fun _ _ => 2⟩ ⟨1, fun _ => 0⟩
      ⟨1, 1, fun _ _ => -1⟩ ⟨1, fun _ => -1⟩ none none = .ok s ∧ s.min = some m := by
  have hH : Spec.SymPosDef 1 (⟨1, 1, fun _ _ => 2⟩ : Mat ℝ) := by
    refine ⟨rfl, rfl, fun _ _ _ _ => rfl, ?_⟩
    rintro x ⟨i, hi, hx⟩
    have : i = 0 := by omega
    subst this
    have := mul_self_pos.2 hx
    simp
    nlinarith
  have hs : Spec.ConstrShape 1 (⟨1, 1, fun _ _ => -1⟩ : Mat ℝ) ⟨1, fun _ => -1⟩ none none := ⟨rfl, rfl⟩
  refine ⟨hH, hs, ?_⟩
  obtain ⟨s, h1, h2, -⟩ := (C35 L hL 1 _ ⟨1, fun _ => 0⟩ _ _ _ _ hH rfl hs 1e-7 (by norm_num)
    (fun _ => 0) (by simp)).1 (.inl Nat.one_pos)
  have hopt : Spec.IsQpOpt ⟨1, 1, fun _ _ => 2⟩ ⟨1, fun _ => 0⟩ ⟨1, 1, fun _ _ => -1⟩
      ⟨1, fun _ => -1⟩ none none ⟨1, fun _ => 1⟩ := by
    refine ⟨⟨by simp [Spec.Ineqs], trivial⟩, fun x' hx' => ?_⟩
    have := hx'.1 0 (by norm_num)
    simp at this
    simp [Spec.qpCost]
    nlinarith
  have hne : s.min ≠ none := by
    rw [Ne, h2]
    rintro (h | ⟨x, hx, hd⟩)
    · exact h _ hopt.1
    · have hx1 : x.e 0 = 1 := by
        have h3 := hx.2 _ hopt.1
        have h4 := hx.1.1 0 (by norm_num)
        simp at h4
        simp [Spec.qpCost] at h3
        nlinarith
      simp [hx1] at hd
      norm_num at hd
  cases hm : s.min with
  | none => exact absurd hm hne
  | some m => exact ⟨s, m, h1, hm⟩

end Verif.Props
