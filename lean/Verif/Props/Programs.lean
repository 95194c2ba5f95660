import Verif.Model.Programs
import Verif.Proofs.Drake
import Verif.Proofs.GurobiAnswer
import Verif.Proofs.GurobiExists
import Verif.Props.Solvers

/-
Properties of `/repo/pympc/optimization/programs.py`, `solvers/gurobi.py` and `solvers/drake.py`
(C36 - C39, C79, C80).  `G` ranges over all optimizers that meet the contract `GurobiSpec`;
`exists_gurobi` shows that there are such optimizers.
-/
namespace Verif.Props
open Finset

/-- C36: dispatch, for every argument list and every solver name. -/
theorem C36 (L : Lib) (G : Gurobi) (nc : ℕ) (H : Mat ℝ) (f : Vec ℝ) (A : Mat ℝ) (b : Vec ℝ)
    (C : Option (Mat ℝ)) (d : Option (Vec ℝ)) :
    (∀ solver : String,
      (solver = "pnnls" →
        Programs.linear_program L G f A b C d solver = Pnnls.linear_program L f A b C d 1e-7 ∧
        Programs.quadratic_program L G H f A b C d solver = Pnnls.quadratic_program L H f A b C d 1e-7 ∧
        Programs.mixed_integer_quadratic_program G nc H f A b C d solver = .error .valueError) ∧
      (solver = "gurobi" →
        Programs.linear_program L G f A b C d solver = Grb.linear_program G f A b C d ∧
        Programs.quadratic_program L G H f A b C d solver = Grb.quadratic_program G H f A b C d 1e-5 ∧
        Programs.mixed_integer_quadratic_program G nc H f A b C d solver
          = Grb.mixed_integer_quadratic_program G nc H f A b C d) ∧
      (solver = "drake" →
        Programs.linear_program L G f A b C d solver = .error .nameError ∧
        Programs.quadratic_program L G H f A b C d solver = .error .nameError ∧
        Programs.mixed_integer_quadratic_program G nc H f A b C d solver = .error .nameError) ∧
      (solver ∉ ["pnnls", "gurobi", "drake"] →
        Programs.linear_program L G f A b C d solver = .error .valueError ∧
        Programs.quadratic_program L G H f A b C d solver = .error .valueError ∧
        Programs.mixed_integer_quadratic_program G nc H f A b C d solver = .error .valueError)) ∧
    -- default solvers
    Programs.linear_program L G f A b C d = Pnnls.linear_program L f A b C d 1e-7 ∧
    Programs.quadratic_program L G H f A b C d = Pnnls.quadratic_program L H f A b C d 1e-7 ∧
    Programs.mixed_integer_quadratic_program G nc H f A b C d
      = Grb.mixed_integer_quadratic_program G nc H f A b C d := by
  refine ⟨fun solver => ⟨?_, ?_, ?_, ?_⟩, rfl, rfl, rfl⟩
  · rintro rfl
    exact ⟨rfl, rfl, rfl⟩
  · rintro rfl
    exact ⟨rfl, rfl, rfl⟩
  · rintro rfl
    exact ⟨rfl, rfl, rfl⟩
  · intro h
    simp only [List.mem_cons, List.not_mem_nil, or_false, not_or] at h
    obtain ⟨h1, h2, h3⟩ := h
    simp [Programs.linear_program, Programs.quadratic_program,
      Programs.mixed_integer_quadratic_program, h1, h2, h3]

/-- there is a name of every kind -/
example : "cplex" ∉ ["pnnls", "gurobi", "drake"] := by decide

/-- the data contain no nonzero entry of magnitude at most `1e-9` -/
structure NoTiny (f : Vec ℝ) (A : Mat ℝ) (b : Vec ℝ) (C : Option (Mat ℝ)) (d : Option (Vec ℝ)) :
    Prop where
  f : Spec.NoTinyV 1e-9 f
  A : Spec.NoTinyM 1e-9 A
  b : Spec.NoTinyV 1e-9 b
  C : ∀ C', C = some C' → Spec.NoTinyM 1e-9 C'
  d : ∀ d', d = some d' → Spec.NoTinyV 1e-9 d'

/-- what the program given to Gurobi is, for every data: the stated program with the entries of
magnitude at most `1e-9` replaced by zero. -/
theorem C37_dropped (n : ℕ) (H : Mat ℝ) (f : Vec ℝ) (A : Mat ℝ) (b : Vec ℝ) (C : Option (Mat ℝ))
    (d : Option (Vec ℝ)) (hr : H.nr = n) (hc : H.nc = n) (hf : f.n = n)
    (hs : Spec.ConstrShape n A b C d) :
    ∃ M, Grb.build_model (some H) f A b C d = .ok M ∧ ∀ x,
      (M.Feas x ↔ Spec.Feasible (Spec.dropM 1e-9 A) (Spec.dropV 1e-9 b) (C.map (Spec.dropM 1e-9))
        (d.map (Spec.dropV 1e-9)) x) ∧
      M.obj x = Spec.qpCost (Spec.dropM 1e-9 H) (Spec.dropV 1e-9 f) x := by
  obtain ⟨M, hM, hB⟩ := build_model_ok hf (fun H' h => by cases h; exact ⟨hr, hc⟩) hs (H := some H)
  exact ⟨M, hM, fun x => ⟨hB.feas x, hB.obj_qp x⟩⟩

/-- C37 is false of the code: the constraint `1e-9 x ≤ 1` is dropped, the point `2e9` is feasible for
Gurobi but not for the stated program. -/
theorem C37_false : ∃ (H : Mat ℝ) (f : Vec ℝ) (A : Mat ℝ) (b : Vec ℝ), Spec.SymPosDef 1 H ∧ f.n = 1 ∧
    Spec.ConstrShape 1 A b none none ∧
    ∃ M x, Grb.build_model (some H) f A b none none = .ok M ∧ M.Feas x ∧
      ¬ Spec.Feasible A b none none x := by
  have hs : Spec.ConstrShape 1 (⟨1, 1, fun _ _ => 1e-9⟩ : Mat ℝ) ⟨1, fun _ => 1⟩ none none := ⟨rfl, rfl⟩
  refine ⟨⟨1, 1, fun _ _ => 1⟩, ⟨1, fun _ => 0⟩, ⟨1, 1, fun _ _ => 1e-9⟩, ⟨1, fun _ => 1⟩, ?_, rfl,
    hs, ?_⟩
  · exact ⟨rfl, rfl, fun _ _ _ _ => rfl, fun v => by simpa using mul_self_pos.2⟩
  · obtain ⟨M, hM, h⟩ := C37_dropped 1 ⟨1, 1, fun _ _ => 1⟩ ⟨1, fun _ => 0⟩ ⟨1, 1, fun _ _ => 1e-9⟩
      ⟨1, fun _ => 1⟩ none none rfl rfl rfl hs
    refine ⟨M, ⟨1, fun _ => 2e9⟩, hM, ((h _).1).2 ⟨?_, trivial⟩, ?_⟩
    · intro i hi
      simp [Spec.dropM, Spec.dropV, Spec.drop]
      norm_num
    · rintro ⟨h, -⟩
      have := h 0 (by norm_num)
      norm_num at this

/-- C37, what holds: without tiny entries the program given to Gurobi has exactly the feasible points
and the cost of the stated program.  Missing with respect to C37: data with tiny entries (false, see
`C37_false`; see `C37_dropped` for what is built then). -/
theorem C37_partial (n : ℕ) (H : Mat ℝ) (f : Vec ℝ) (A : Mat ℝ) (b : Vec ℝ) (C : Option (Mat ℝ))
    (d : Option (Vec ℝ)) (hr : H.nr = n) (hc : H.nc = n) (hf : f.n = n)
    (hs : Spec.ConstrShape n A b C d) (hH : Spec.NoTinyM 1e-9 H) (ht : NoTiny f A b C d) :
    (∃ M, Grb.build_model (some H) f A b C d = .ok M ∧ ∀ x,
      (M.Feas x ↔ Spec.Feasible A b C d x) ∧ M.obj x = Spec.qpCost H f x) ∧
    ∃ M, Grb.build_model none f A b C d = .ok M ∧ ∀ x,
      (M.Feas x ↔ Spec.Feasible A b C d x) ∧ M.obj x = Spec.lpCost f x := by
  constructor
  · obtain ⟨M, hM, hB⟩ := build_model_ok hf (fun H' h => by cases h; exact ⟨hr, hc⟩) hs (H := some H)
    refine ⟨M, hM, fun x => ⟨?_, ?_⟩⟩
    · rw [hB.feas, feasible_drop hs ht.A ht.b ht.C ht.d]
    · rw [hB.obj_qp, qpCost_drop hH ht.f]
  · obtain ⟨M, hM, hB⟩ := build_model_ok hf (fun H' h => by cases h) hs (H := none)
    refine ⟨M, hM, fun x => ⟨?_, ?_⟩⟩
    · rw [hB.feas, feasible_drop hs ht.A ht.b ht.C ht.d]
    · rw [hB.obj_lp, lpCost_drop ht.f]

/-- data without tiny entries, with an equality -/
example : Spec.NoTinyM 1e-9 (Mat.eye 2) ∧ NoTiny (Vec.zeros 2) ⟨1, 2, fun _ _ => -3⟩ (Vec.ones 1)
    (some ⟨1, 2, fun _ j => if j = 0 then 1 else 0⟩) (some (Vec.zeros 1)) := by
  refine ⟨?_, ?_, ?_, ?_, ?_, ?_⟩
  · intro i _ j _; simp only [Mat.eye_e]; split_ifs <;> norm_num
  · intro i _; simp
  · intro i _ j _; norm_num
  · intro i _; norm_num
  · rintro _ ⟨⟩ i _ j _; simp only []; split_ifs <;> norm_num
  · rintro _ ⟨⟩ i _; simp

/-- C79: the Gurobi backend, without tiny entries.  `quadratic_program` answers exactly when there is
an optimal solution (for a positive definite `H`: when there is a feasible point), and the answer is the
optimum with its value and multipliers that satisfy the KKT conditions. -/
theorem C79 (G : Gurobi) (hG : GurobiSpec G) (n : ℕ) (H : Mat ℝ) (f : Vec ℝ) (A : Mat ℝ)
    (b : Vec ℝ) (C : Option (Mat ℝ)) (d : Option (Vec ℝ)) (hr : H.nr = n) (hc : H.nc = n)
    (hsym : ∀ i < n, ∀ j < n, H.e i j = H.e j i) (hf : f.n = n)
    (hs : Spec.ConstrShape n A b C d) (hH : Spec.NoTinyM 1e-9 H) (ht : NoTiny f A b C d) (tol : ℝ) :
    (∃ s, Grb.quadratic_program G H f A b C d tol = .ok s ∧
      (s.min = none ↔ ¬ ∃ x, Spec.IsQpOpt H f A b C d x) ∧ (s.min = none ↔ s = Sol.none) ∧
      ∀ m, s.min = some m → ∃ x lam, s.argmin = some x ∧ x.n = n ∧ Spec.IsQpOpt H f A b C d x ∧
        m = Spec.qpCost H f x ∧ s.multiplier_inequality = some lam ∧
        Spec.KKT (Spec.qpGrad H f x) A b C x lam s.multiplier_equality ∧
        ∃ act, s.active_set = some act ∧ ∀ i, i ∈ act ↔ i < A.nr ∧ tol < lam.e i) ∧
    ∃ s, Grb.linear_program G f A b C d = .ok s ∧
      (s.min = none ↔ ¬ ∃ x, Spec.IsLpOpt f A b C d x) ∧ (s.min = none ↔ s = Sol.none) ∧
      ∀ m, s.min = some m → ∃ x lam, s.argmin = some x ∧ x.n = n ∧ Spec.IsLpOpt f A b C d x ∧
        m = Spec.lpCost f x ∧ s.multiplier_inequality = some lam ∧
        Spec.KKT f.e A b C x lam s.multiplier_equality := by
  constructor
  · obtain ⟨M, hM, hB, h⟩ := grb_qp_run (G := G) hr hc hf hs tol
    have hfe : ∀ x, M.Feas x ↔ Spec.Feasible A b C d x := fun x => by
      rw [hB.feas, feasible_drop hs ht.A ht.b ht.C ht.d]
    have hob : ∀ x, M.obj x = Spec.qpCost H f x := fun x => by rw [hB.obj_qp, qpCost_drop hH ht.f]
    have hop : ∀ x, M.IsOpt x ↔ Spec.IsQpOpt H f A b C d x := fun x => by
      simp only [GModel.IsOpt, Spec.IsQpOpt, hfe, hob]
    rcases h with ⟨h1, h2⟩ | ⟨r, mu, h1, h2, h3⟩
    · refine ⟨_, h2, ?_, by simp [Sol.none], by simp [Sol.none]⟩
      simp only [Sol.none, true_iff]
      rintro ⟨x, hx⟩
      obtain ⟨r, hr⟩ := hG.complete M hB.wf ⟨x, (hop x).2 hx⟩
      rw [h1] at hr; cases hr
    · obtain ⟨k1, k2, k3⟩ := hG.sound M r hB.wf h1
      obtain ⟨d1, d2⟩ := hG.dual M r hB.wf h1 (fun j _ => hB.bin j)
      refine ⟨_, h3, ?_, by simp [Sol.none], ?_⟩
      · simp only [reduceCtorEq, false_iff, not_not]
        exact ⟨r.x, (hop _).1 k2⟩
      · intro m hm
        refine ⟨r.x, _, rfl, k1.trans hB.n_eq, (hop _).1 k2, ?_, rfl, ?_, _, rfl, ?_⟩
        · rw [← hob, ← k3]; simpa using hm.symm
        · refine kkt_drop hs ht.A ht.b ht.C (fun j hj => ?_) (hB.kkt hs d1 d2 h2)
          rw [hB.grad_qp hf hr hc hsym _ hj]
          refine congrArg₂ (· + ·) (Finset.sum_congr rfl fun k hk => ?_) (drop_eq (ht.f j (hf ▸ hj)))
          rw [show (Spec.dropM 1e-9 H).e j k = H.e j k from
            drop_eq (hH j (hr ▸ hj) k (mem_range.1 hk))]
        · intro i; simp [whereGt]
  · obtain ⟨M, hM, hB, h⟩ := grb_lp_run (G := G) hf hs
    have hfe : ∀ x, M.Feas x ↔ Spec.Feasible A b C d x := fun x => by
      rw [hB.feas, feasible_drop hs ht.A ht.b ht.C ht.d]
    have hob : ∀ x, M.obj x = Spec.lpCost f x := fun x => by rw [hB.obj_lp, lpCost_drop ht.f]
    have hop : ∀ x, M.IsOpt x ↔ Spec.IsLpOpt f A b C d x := fun x => by
      simp only [GModel.IsOpt, Spec.IsLpOpt, hfe, hob]
    rcases h with ⟨h1, h2⟩ | ⟨r, mu, h1, h2, h3⟩
    · refine ⟨_, h2, ?_, by simp [Sol.none], by simp [Sol.none]⟩
      simp only [Sol.none, true_iff]
      rintro ⟨x, hx⟩
      obtain ⟨r, hr⟩ := hG.complete M hB.wf ⟨x, (hop x).2 hx⟩
      rw [h1] at hr; cases hr
    · obtain ⟨k1, k2, k3⟩ := hG.sound M r hB.wf h1
      obtain ⟨d1, d2⟩ := hG.dual M r hB.wf h1 (fun j _ => hB.bin j)
      refine ⟨_, h3, ?_, by simp [Sol.none], ?_⟩
      · simp only [reduceCtorEq, false_iff, not_not]
        exact ⟨r.x, (hop _).1 k2⟩
      · intro m hm
        refine ⟨r.x, _, rfl, k1.trans hB.n_eq, (hop _).1 k2, ?_, rfl, ?_⟩
        · rw [← hob, ← k3]; simpa using hm.symm
        · refine kkt_drop hs ht.A ht.b ht.C (fun j hj => ?_) (hB.kkt hs d1 d2 h2)
          rw [hB.grad_lp hf _ hj]
          exact drop_eq (ht.f j (hf ▸ hj))

/-- C80: `mixed_integer_quadratic_program`, without tiny entries: it answers exactly when there is an
optimum among the points whose coordinates from `nc` on are binary, and returns such an optimum. -/
theorem C80 (G : Gurobi) (hG : GurobiSpec G) (nc n : ℕ) (H : Mat ℝ) (f : Vec ℝ) (A : Mat ℝ)
    (b : Vec ℝ) (C : Option (Mat ℝ)) (d : Option (Vec ℝ)) (hr : H.nr = n) (hc : H.nc = n)
    (hf : f.n = n) (hs : Spec.ConstrShape n A b C d) (hH : Spec.NoTinyM 1e-9 H)
    (ht : NoTiny f A b C d) :
    ∃ s, Grb.mixed_integer_quadratic_program G nc H f A b C d = .ok s ∧
      (s.min = none ↔ ¬ ∃ x, (Spec.Feasible A b C d x ∧ Spec.BinaryFrom nc n x) ∧
        ∀ x', Spec.Feasible A b C d x' → Spec.BinaryFrom nc n x' →
          Spec.qpCost H f x ≤ Spec.qpCost H f x') ∧
      (s.min = none ↔ s.argmin = none) ∧
      ∀ m, s.min = some m → ∃ x, s.argmin = some x ∧ x.n = n ∧ Spec.Feasible A b C d x ∧
        Spec.BinaryFrom nc n x ∧ m = Spec.qpCost H f x ∧
        ∀ x', Spec.Feasible A b C d x' → Spec.BinaryFrom nc n x' →
          Spec.qpCost H f x ≤ Spec.qpCost H f x' := by
  obtain ⟨M, hM, hB⟩ := build_model_ok hf (fun H' h => by cases h; exact ⟨hr, hc⟩) hs (H := some H)
  obtain ⟨M', hM'⟩ : ∃ M' : GModel, M' = { M with bin := fun j => open Classical in decide (nc ≤ j) } := ⟨_, rfl⟩
  have hwf : M'.Wf := by rw [hM']; exact hB.wf
  have hfe : ∀ x, M'.Feas x ↔ Spec.Feasible A b C d x ∧ Spec.BinaryFrom nc n x := fun x => by
    rw [← feasible_drop hs ht.A ht.b ht.C ht.d, ← hB.feas, hM']
    simp only [GModel.Feas, Spec.BinaryFrom, decide_eq_true_eq, hB.n_eq, hB.bin]
    simp
    tauto
  have hob : ∀ x, M'.obj x = Spec.qpCost H f x := fun x => by
    rw [← qpCost_drop hH ht.f, ← hB.obj_qp, hM']; rfl
  have hop : ∀ x, M'.IsOpt x ↔ (Spec.Feasible A b C d x ∧ Spec.BinaryFrom nc n x) ∧
        ∀ x', Spec.Feasible A b C d x' → Spec.BinaryFrom nc n x' →
          Spec.qpCost H f x ≤ Spec.qpCost H f x' := fun x => by
    simp only [GModel.IsOpt, hfe, hob, and_imp]
  have hrun : Grb.mixed_integer_quadratic_program G nc H f A b C d = (match G.optimize M' with
      | none => .ok ⟨none, none⟩
      | some r => .ok ⟨some r.objVal, some r.x⟩) := by
    unfold Grb.mixed_integer_quadratic_program
    rw [hM, Py.ok_bind, hM']
    rfl
  rw [hrun]
  cases h1 : G.optimize M' with
  | none =>
    refine ⟨_, rfl, ?_, by simp, by simp⟩
    simp only [true_iff]
    rintro ⟨x, hx⟩
    obtain ⟨r, hr⟩ := hG.complete M' hwf ⟨x, (hop x).2 hx⟩
    rw [h1] at hr; cases hr
  | some r =>
    obtain ⟨k1, k2, k3⟩ := hG.sound M' r hwf h1
    refine ⟨_, rfl, ?_, by simp, ?_⟩
    · simp only [reduceCtorEq, false_iff, not_not]
      exact ⟨r.x, (hop _).1 k2⟩
    · intro m hm
      obtain ⟨⟨j1, j2⟩, j3⟩ := (hop _).1 k2
      refine ⟨r.x, rfl, ?_, j1, j2, ?_, j3⟩
      · rw [k1, hM']; exact hB.n_eq
      · rw [← hob, ← k3]; simpa using hm.symm

/-- an optimizer that meets the contract, and a program with a binary variable and an optimum -/
example : ∃ G : Gurobi, GurobiSpec G := exists_gurobi

/-- C38 is false of the code: min 1/2 x² + 1e-9 x s.t. 0 ≤ 1 has its minimum in -1e-9, which the pnnls
backend returns, but Gurobi does not see the linear term and returns 0. -/
theorem C38_false : ∃ (H : Mat ℝ) (f : Vec ℝ) (A : Mat ℝ) (b : Vec ℝ), Spec.SymPosDef 1 H ∧ f.n = 1 ∧
    Spec.ConstrShape 1 A b none none ∧
    ∀ L G, LibSpec L → GurobiSpec G → ∃ s s' x x',
      Programs.quadratic_program L G H f A b none none "pnnls" = .ok s ∧
      Programs.quadratic_program L G H f A b none none "gurobi" = .ok s' ∧
      s.argmin = some x ∧ s'.argmin = some x' ∧ x.e 0 ≠ x'.e 0 ∧ s.min ≠ s'.min := by
  have hs : Spec.ConstrShape 1 (⟨1, 1, fun _ _ => 0⟩ : Mat ℝ) ⟨1, fun _ => 1⟩ none none := ⟨rfl, rfl⟩
  have hH : Spec.SymPosDef 1 ⟨1, 1, fun _ _ => 1⟩ :=
    ⟨rfl, rfl, fun _ _ _ _ => rfl, fun v => by simpa using mul_self_pos.2⟩
  refine ⟨⟨1, 1, fun _ _ => 1⟩, ⟨1, fun _ => 1e-9⟩, ⟨1, 1, fun _ _ => 0⟩, ⟨1, fun _ => 1⟩, hH, rfl, hs,
    fun L G hL hG => ?_⟩
  obtain ⟨s, h1, h2, -⟩ := (C35 L hL 1 _ ⟨1, fun _ => 1e-9⟩ _ _ none none hH rfl hs 1e-7 (by norm_num)
    (fun _ => -1e-9) (by intro j hj; simp)).1 (.inl Nat.zero_lt_one)
  have hopt : Spec.IsQpOpt ⟨1, 1, fun _ _ => 1⟩ ⟨1, fun _ => 1e-9⟩ (⟨1, 1, fun _ _ => 0⟩ : Mat ℝ)
      ⟨1, fun _ => 1⟩ none none ⟨1, fun _ => -1e-9⟩ := by
    refine ⟨⟨by simp [Spec.Ineqs], trivial⟩, fun x' _ => ?_⟩
    simp [Spec.qpCost]
    nlinarith [sq_nonneg (x'.e 0 + 1e-9)]
  have hm : ∃ m, s.min = some m := by
    rw [← Option.isSome_iff_exists, Option.isSome_iff_ne_none, Ne, h2]
    rintro (h | ⟨x, hx, h⟩)
    · exact h _ hopt.1
    · have hx1 := hx.2 _ hopt.1
      simp [Spec.qpCost] at hx1 h
      have : (x.e 0 + 1e-9) ^ 2 ≤ 0 := by nlinarith
      nlinarith
  obtain ⟨m, hm⟩ := hm
  obtain ⟨x, lam, act, k1, k2, k3, k4, k5, -⟩ := C34 L hL 1 _ _ _ _ none none hH rfl hs 1e-7 (by norm_num) s h1 m hm
  have hx0 : (-1e-9 : ℝ) = x.e 0 := k4 _ hopt 0 (by norm_num)
  obtain ⟨M, hM, hB, h⟩ := grb_qp_run (G := G) (f := ⟨1, fun _ => 1e-9⟩) hH.nr hH.nc rfl hs 1e-5
  have hob : ∀ y, M.obj y = 1 / 2 * (y.e 0 * y.e 0) := fun y => by
    rw [hB.obj_qp]; simp [Spec.qpCost, Spec.dropM, Spec.dropV, Spec.drop, abs_of_pos (show (0:ℝ) < 1e-9 by norm_num)]
    intro h; norm_num at h
  have hfe : ∀ y, M.Feas y := fun y => by
    rw [hB.feas]; exact ⟨by intro i hi; simp [Spec.dropM, Spec.dropV, Spec.drop]; norm_num, trivial⟩
  have hMo : M.IsOpt ⟨1, fun _ => 0⟩ := ⟨hfe _, fun y _ => by
    rw [hob, hob]; have := mul_self_nonneg (y.e 0); simp; linarith⟩
  rcases h with ⟨h3, -⟩ | ⟨r, mu, h3, -, h4⟩
  · obtain ⟨r, hr⟩ := hG.complete M hB.wf ⟨_, hMo⟩
    rw [h3] at hr; cases hr
  · obtain ⟨-, j2, j3⟩ := hG.sound M r hB.wf h3
    have hr0 := j2.2 _ hMo.1
    rw [hob, hob] at hr0
    have hr1 : r.x.e 0 = 0 := by
      simp at hr0
      nlinarith
    refine ⟨s, _, x, r.x, h1, h4, k1, rfl, ?_, ?_⟩
    · rw [← hx0, hr1]; norm_num
    · rw [hm, k5, j3, hob, hr1]
      simp [Spec.qpCost, ← hx0]
      norm_num

/-- C38, what holds: without tiny entries, when both backends answer they return the same `min` and
`argmin`.  Missing with respect to C38: data with tiny entries (false, see `C38_false`). -/
theorem C38_partial (L : Lib) (G : Gurobi) (hL : LibSpec L) (hG : GurobiSpec G) (n : ℕ) (H : Mat ℝ)
    (f : Vec ℝ) (A : Mat ℝ) (b : Vec ℝ) (C : Option (Mat ℝ)) (d : Option (Vec ℝ))
    (hPD : Spec.SymPosDef n H) (hf : f.n = n) (hs : Spec.ConstrShape n A b C d)
    (hH : Spec.NoTinyM 1e-9 H) (ht : NoTiny f A b C d) (s s' : Sol) (m m' : ℝ)
    (h : Programs.quadratic_program L G H f A b C d "pnnls" = .ok s)
    (h' : Programs.quadratic_program L G H f A b C d "gurobi" = .ok s')
    (hm : s.min = some m) (hm' : s'.min = some m') :
    m = m' ∧ ∃ x x', s.argmin = some x ∧ s'.argmin = some x' ∧ x.Same x' := by
  obtain ⟨x, lam, act, k1, k2, k3, k4, k5, -⟩ := C34 L hL n H f A b C d hPD hf hs 1e-7 (by norm_num) s h m hm
  obtain ⟨⟨s2, j1, -, -, j2⟩, -⟩ := C79 G hG n H f A b C d hPD.nr hPD.nc hPD.symm hf hs hH ht 1e-5
  have hss : s2 = s' := by
    have : Except.ok s2 = (Except.ok s' : Py Sol) := j1.symm.trans h'
    cases this; rfl
  subst hss
  obtain ⟨x', lam', i1, i2, i3, i4, -⟩ := j2 m' hm'
  refine ⟨?_, x, x', k1, i1, k2.trans i2.symm, fun j hj => (k4 x' i3 j (k2 ▸ hj)).symm⟩
  rw [k5, i4]
  exact le_antisymm (k3.2 _ i3.1) (i3.2 _ k3.1)

/-- C39 is false of the code: min 1/2 x² s.t. x ≤ 1e-6 has its minimum in 0, where no constraint is
active, but the constraint is treated as active and its multiplier is negative. -/
theorem C39_false : ∃ (H : Mat ℝ) (f : Vec ℝ) (A : Mat ℝ) (b x : Vec ℝ), Spec.SymPosDef 1 H ∧ f.n = 1 ∧
    Spec.ConstrShape 1 A b none none ∧ x.n = 1 ∧ Spec.IsQpOpt H f A b none none x ∧
    Spec.ActiveIndep 1 A b none x ∧
    ∃ s lam, Drake.quadratic_program (some x) H f A b none none = .ok s ∧
      s.multiplier_inequality = some lam ∧ lam.e 0 < 0 ∧ 0 < A.nr := by
  have hs : Spec.ConstrShape 1 (⟨1, 1, fun _ _ => 1⟩ : Mat ℝ) ⟨1, fun _ => 1e-6⟩ none none := ⟨rfl, rfl⟩
  have hH : Spec.SymPosDef 1 ⟨1, 1, fun _ _ => 1⟩ :=
    ⟨rfl, rfl, fun _ _ _ _ => rfl, fun v => by simpa using mul_self_pos.2⟩
  refine ⟨⟨1, 1, fun _ _ => 1⟩, ⟨1, fun _ => 0⟩, ⟨1, 1, fun _ _ => 1⟩, ⟨1, fun _ => 1e-6⟩,
    ⟨1, fun _ => 0⟩, hH, rfl, hs, rfl, ?_, ?_, ?_⟩
  · refine ⟨⟨by intro i hi; norm_num, trivial⟩, fun x' _ => ?_⟩
    have := mul_self_nonneg (x'.e 0)
    simp [Spec.qpCost]; linarith
  · intro lam mu h _
    refine ⟨fun i hi => ?_, by simp⟩
    by_contra hne
    have := h i hi hne
    norm_num at this
  · have hact : Drake.nearActive ⟨1, 1, fun _ _ => 1⟩ ⟨1, fun _ => 1e-6⟩ ⟨1, fun _ => 0⟩ 1e-5 = [0] := by
      simp [Drake.nearActive, Mat.mulVec]; norm_num
    obtain ⟨E, hE⟩ : ∃ E, E = Mat.ofM (1 : Matrix (Fin 1) (Fin 1) ℝ) := ⟨_, rfl⟩
    have hinv : ∀ (M : Mat ℝ), M.nr = 1 → M.nc = 1 → M.e 0 0 = 1 → np.inv M = .ok E := by
      intro M h1 h2 h3
      have h4 : M.asM 1 1 = 1 := by
        ext i j; fin_cases i; fin_cases j; simpa using h3
      rw [np_inv_ok h1 h2 (by rw [h4]; simp), h4, inv_one, hE]
    have hEr : E.nr = 1 := by rw [hE]; rfl
    have hEc : E.nc = 1 := by rw [hE]; rfl
    have hE0 : E.e 0 0 = 1 := by rw [hE]; simp [Mat.ofM]
    set H : Mat ℝ := ⟨1, 1, fun _ _ => 1⟩ with hHd
    set f : Vec ℝ := ⟨1, fun _ => 0⟩ with hfd
    set b : Vec ℝ := ⟨1, fun _ => 1e-6⟩ with hbd
    set l := H.rows [0] with hl
    have e1 : np.inv H = .ok E := hinv H rfl rfl rfl
    have e2 : np.inv ((l.mul E).mul l.T) = .ok E := by
      refine hinv _ rfl rfl ?_
      simp [Mat.mul_e, hEc, hl, Mat.rows, hHd, hE0]
    have e3 : np.dotMM l E = .ok (l.mul E) := if_pos hEr.symm
    have e4 : np.dotMM (l.mul E) l.T = .ok ((l.mul E).mul l.T) := if_pos hEc
    have e5 : np.dotMV (l.mul E) f = .ok ((l.mul E).mulVec f) := if_pos hEc
    have e6 : np.dotMV E (((l.mul E).mulVec f).add (b.take [0]))
        = .ok (E.mulVec (((l.mul E).mulVec f).add (b.take [0]))) := if_pos hEc
    have e7 : np.rows H [0] = .ok l := if_pos (by simp [hHd])
    have e8 : np.take b [0] = .ok (b.take [0]) := if_pos (by simp [hbd])
    set m := (E.mulVec (((l.mul E).mulVec f).add (b.take [0]))).neg with hm
    have e9 : np.dotVM f H = .ok (Mat.vecMul f H) := rfl
    have e10 : np.dotVV (Mat.vecMul f H) f = .ok ((Mat.vecMul f H).dot f) := rfl
    have e11 : np.dotVV f f = .ok (f.dot f) := rfl
    have e12 : np.dotMV H f = .ok (H.mulVec f) := rfl
    have e13 : np.subV (H.mulVec f) b = .ok ((H.mulVec f).sub b) := rfl
    have e14 : Drake.stackActive l (b.take [0]) none none 0 = .ok (l, b.take [0]) := rfl
    have e15 : np.addV ((l.mul E).mulVec f) (b.take [0]) = .ok (((l.mul E).mulVec f).add (b.take [0])) := rfl
    have hrun : Drake.quadratic_program (some f) H f H b none none = .ok
        ⟨some (1 / 2 * (Mat.vecMul f H).dot f + f.dot f), some f, some [0],
          some (Drake.scatter 1 [0] m), none⟩ := by
      unfold Drake.quadratic_program
      rw [if_neg (by simp)]
      show Drake.qpFill H f H b none none 0 f 1e-5 = _
      unfold Drake.qpFill
      simp only [e9, e10, e11, e12, e13, Py.ok_bind, Drake.nearWhere_sub, hact, e7, e8, e14, e1, e3, e4, e2, e5, e15, e6]
      rfl
    refine ⟨_, Drake.scatter 1 [0] m, hrun, rfl, ?_, by simp [hHd]⟩
    simp [Drake.scatter, hm, Mat.mulVec_e, hEc, hE0, hfd, hbd, Vec.take]
    norm_num

/-- C39, what holds: if the solution found is optimal, the gradients of the active constraints are
independent, and every constraint within `tol` of being active is active, then the multipliers returned
satisfy the KKT conditions.  Missing with respect to C39: nearly active constraints (false, see
`C39_false`). -/
theorem C39_partial (n : ℕ) (H : Mat ℝ) (f : Vec ℝ) (A : Mat ℝ) (b : Vec ℝ) (C : Option (Mat ℝ))
    (d : Option (Vec ℝ)) (hH : Spec.SymPosDef n H) (hf : f.n = n) (hs : Spec.ConstrShape n A b C d)
    (x : Vec ℝ) (hxn : x.n = n) (hopt : Spec.IsQpOpt H f A b C d x)
    (hind : Spec.ActiveIndep n A b C x) (tol : ℝ) (htol : 0 < tol)
    (hsep : ∀ i < A.nr, -tol < ∑ j ∈ range A.nc, A.e i j * x.e j - b.e i →
      ∑ j ∈ range A.nc, A.e i j * x.e j = b.e i) :
    ∃ s act lam, Drake.quadratic_program (some x) H f A b C d tol = .ok s ∧ s.argmin = some x ∧
      s.min = some (Spec.qpCost H f x) ∧ s.active_set = some act ∧
      (∀ i, i ∈ act ↔ i < A.nr ∧ ∑ j ∈ range A.nc, A.e i j * x.e j = b.e i) ∧
      s.multiplier_inequality = some lam ∧
      Spec.KKT (Spec.qpGrad H f x) A b C x lam s.multiplier_equality := by
  obtain ⟨lam, mu, h1, h2⟩ := drake_qp hH hf hs hxn hopt hind htol hsep
  exact ⟨_, _, lam, h1, rfl, rfl, rfl, mem_nearActive htol hsep, rfl, h2⟩

/-- C81: the multipliers of the linear programs of the drake backend, under the same hypotheses. -/
theorem C81 (L : Lib) (hL : LibSpec L) (n : ℕ) (f : Vec ℝ) (A : Mat ℝ) (b : Vec ℝ) (C : Option (Mat ℝ))
    (d : Option (Vec ℝ)) (hf : f.n = n) (hs : Spec.ConstrShape n A b C d)
    (x : Vec ℝ) (hxn : x.n = n) (hopt : Spec.IsLpOpt f A b C d x)
    (hind : Spec.ActiveIndep n A b C x) (tol : ℝ) (htol : 0 < tol)
    (hsep : ∀ i < A.nr, -tol < ∑ j ∈ range A.nc, A.e i j * x.e j - b.e i →
      ∑ j ∈ range A.nc, A.e i j * x.e j = b.e i) :
    ∃ s act lam, Drake.linear_program L (some x) f A b C d tol = .ok s ∧ s.argmin = some x ∧
      s.min = some (Spec.lpCost f x) ∧ s.active_set = some act ∧
      (∀ i, i ∈ act ↔ i < A.nr ∧ ∑ j ∈ range A.nc, A.e i j * x.e j = b.e i) ∧
      s.multiplier_inequality = some lam ∧ Spec.KKT f.e A b C x lam s.multiplier_equality := by
  obtain ⟨lam, mu, h1, h2⟩ := drake_lp hL hf hs hxn hopt hind htol hsep
  exact ⟨_, _, lam, h1, rfl, rfl, rfl, mem_nearActive htol hsep, rfl, h2⟩

/-- min 1/2 x² - 2 x s.t. x ≤ 1, x ≤ 5 (and min -x): the optimum is 1, the first constraint is active,
the second is far from being active -/
example : ∃ (H : Mat ℝ) (f g : Vec ℝ) (A : Mat ℝ) (b x : Vec ℝ), Spec.SymPosDef 1 H ∧ f.n = 1 ∧
    Spec.ConstrShape 1 A b none none ∧ x.n = 1 ∧ Spec.IsQpOpt H f A b none none x ∧
    Spec.IsLpOpt g A b none none x ∧
    Spec.ActiveIndep 1 A b none x ∧ (∀ i < A.nr, -1e-5 < ∑ j ∈ range A.nc, A.e i j * x.e j - b.e i →
      ∑ j ∈ range A.nc, A.e i j * x.e j = b.e i) ∧ A.nr = 2 := by
  refine ⟨⟨1, 1, fun _ _ => 1⟩, ⟨1, fun _ => -2⟩, ⟨1, fun _ => -1⟩, ⟨2, 1, fun _ _ => 1⟩,
    ⟨2, fun i => if i = 0 then 1 else 5⟩, ⟨1, fun _ => 1⟩, ⟨rfl, rfl, fun _ _ _ _ => rfl, fun v => by simp⟩,
    rfl, ⟨rfl, rfl⟩, rfl, ⟨⟨?_, trivial⟩, ?_⟩, ⟨⟨?_, trivial⟩, ?_⟩, ?_, ?_, rfl⟩
  · intro i hi; simp; split_ifs <;> norm_num
  · intro x' hx'
    have := hx'.1 0 (by norm_num)
    simp at this
    simp [Spec.qpCost]
    nlinarith
  · intro i hi; simp; split_ifs <;> norm_num
  · intro x' hx'
    have := hx'.1 0 (by norm_num)
    simp at this
    simpa [Spec.lpCost] using this
  · intro lam mu h1 h2
    have h3 : lam.e 1 = 0 := by
      by_contra hne
      have := h1 1 (by norm_num) hne
      norm_num at this
    have h4 := h2 0 (by norm_num)
    simp [Spec.eqGrad, Finset.sum_range_succ, h3] at h4
    refine ⟨fun i hi => ?_, by simp⟩
    simp only at hi
    interval_cases i
    · exact h4
    · exact h3
  · intro i hi h
    simp only at hi
    interval_cases i
    · simp
    · norm_num at h

end Verif.Props
