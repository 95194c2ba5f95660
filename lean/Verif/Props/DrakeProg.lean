import Verif.Proofs.DrakeFill
import Verif.Proofs.QPMain
import Verif.Proofs.LibExists

/- The programs of `/repo/pympc/optimization/solvers/drake.py` from the data to the answer. -/
namespace Verif.Props
open Finset Verif.Drake

/-- C104: `linear_program` of the drake backend raises `ValueError` if one of `C`, `d` is missing.  For data of matching sizes it answers: with an optimal point, its
cost and the constraints that hold with less than `tol` to spare, or with five `None` if the program has no optimal point. -/
theorem C104 (L : Lib) (hL : LibSpec L) (D : MathSolver) (hD : MathSolverSpec D) (f : Vec ℝ) (A : Mat ℝ) (b : Vec ℝ) (tol : ℝ) :
    (∀ C, linearProgram L D f A b (some C) none tol = .error .valueError) ∧ (∀ d, linearProgram L D f A b none (some d) tol = .error .valueError) ∧
    ∀ (n : ℕ) (C : Option (Mat ℝ)) (d : Option (Vec ℝ)), f.n = n → Spec.ConstrShape n A b C d →
      ∃ s, linearProgram L D f A b C d tol = .ok s ∧
        (∀ x, s.argmin = some x → x.n = n ∧ Spec.IsLpOpt f A b C d x ∧ s.min = some (Spec.lpCost f x) ∧
          ∃ act, s.active_set = some act ∧ ∀ i, i ∈ act ↔ i < A.nr ∧ b.e i - tol < ∑ j ∈ range A.nc, A.e i j * x.e j) ∧
        (s.argmin = none → s = Sol.none ∧ ¬ ∃ x, Spec.IsLpOpt f A b C d x) := by
  refine ⟨fun C => rfl, fun d => rfl, fun n C d hf hs => ?_⟩
  have hAn := shape_nc hs
  have hCd : ¬ (C.isNone ≠ d.isNone) := by
    rcases shape_cases hs with ⟨hC, hd⟩ | ⟨C', d', hC, hd, _, _⟩ <;> rw [hC, hd] <;> simp
  obtain ⟨p, hp, p1, p2, pf⟩ := addConstraints_ok (nc := n) (nb := 0) (n := n) rfl hs
  obtain ⟨p', hp', q1, q2, q3⟩ := addLinearCost_ok hf p1 p2
  have hfeas : ∀ x : Vec ℝ, Spec.Feasible A b C d x ↔ p'.Feasible x.e := by
    intro x
    rw [q1, pf]
    have : Spec.BinaryFrom n n ⟨n, x.e⟩ := fun j hj hj' => by omega
    constructor
    · intro h
      exact ⟨by cases C <;> cases d <;> exact h, this⟩
    · intro h
      have h := h.1
      cases C <;> cases d <;> exact h
  have hopt : ∀ x : Vec ℝ, Spec.IsLpOpt f A b C d x ↔ p'.Optimal x.e := by
    intro x
    constructor
    · intro h
      refine ⟨(hfeas x).1 h.1, fun w hw => ?_⟩
      rw [q3, q3]
      exact h.2 ⟨n, w⟩ ((hfeas ⟨n, w⟩).2 hw)
    · intro h
      refine ⟨(hfeas x).2 h.1, fun x' hx' => ?_⟩
      have := h.2 x'.e ((hfeas x').1 hx')
      rw [q3, q3] at this
      exact this
  have hrun : linearProgram L D f A b C d tol = linear_program L (D.found (newVariables n 0).1 p') f A b C d tol := by
    unfold linearProgram
    rw [if_neg hCd, hAn, hp, Py.ok_bind, hp', Py.ok_bind]
  rw [hrun]
  unfold MathSolver.found
  cases hsol : D.solve p' with
  | none =>
    refine ⟨Sol.none, ?_, fun x hx => (by cases hx), fun _ => ⟨rfl, ?_⟩⟩
    · unfold linear_program
      rw [if_neg hCd]
      rfl
    · rintro ⟨x, hx⟩
      obtain ⟨v, hv⟩ := hD.complete p' (fun v => (q2 v).ge) ⟨_, (hopt x).1 hx⟩
      rw [hsol] at hv
      cases hv
  | some v =>
    rw [Option.map_some, getSolution_e]
    obtain ⟨lam, mu, h1, -⟩ := lp_fill hL hf hs (x := ⟨n + 0, v⟩) rfl tol
    refine ⟨_, h1, fun x hx => ?_, fun hx => by cases hx⟩
    cases hx
    exact ⟨rfl, (hopt _).2 (hD.sound _ _ hsol), rfl, _, rfl, mem_near⟩

/-- C105, what holds: on a strictly convex program `quadratic_program` of the drake backend answers five `None` if no point is feasible; otherwise it returns the optimal
point with its cost and the constraints with less than `tol` to spare if these are linearly independent.  Missing: if they are dependent it raises `LinAlgError`
(`C105_false`). -/
theorem C105_partial (D : MathSolver) (hD : MathSolverSpec D) (n : ℕ) (H : Mat ℝ) (f : Vec ℝ) (A : Mat ℝ) (b : Vec ℝ) (C : Option (Mat ℝ)) (d : Option (Vec ℝ))
    (hH : Spec.SymPosDef n H) (hf : f.n = n) (hs : Spec.ConstrShape n A b C d) (tol : ℝ) :
    ((¬ ∃ x, Spec.Feasible A b C d x) → quadraticProgram D H f A b C d tol = .ok Sol.none) ∧
    ((∃ x, Spec.Feasible A b C d x) → ∃ x, x.n = n ∧ Spec.IsQpOpt H f A b C d x ∧
      (Spec.NearIndep tol n A b C x → ∃ s, quadraticProgram D H f A b C d tol = .ok s ∧ s.argmin = some x ∧ s.min = some (Spec.qpCost H f x) ∧
        ∃ act, s.active_set = some act ∧ ∀ i, i ∈ act ↔ i < A.nr ∧ b.e i - tol < ∑ j ∈ range A.nc, A.e i j * x.e j) ∧
      (¬ Spec.NearIndep tol n A b C x → quadraticProgram D H f A b C d tol = .error .linAlgError)) := by
  obtain ⟨L, hL⟩ := exists_lib
  have hAn := shape_nc hs
  have hCd : ¬ (C.isNone ≠ d.isNone) := by
    rcases shape_cases hs with ⟨hC, hd⟩ | ⟨C', d', hC, hd, _, _⟩ <;> rw [hC, hd] <;> simp
  obtain ⟨p, hp, p1, p2, pf⟩ := addConstraints_ok (nc := n) (nb := 0) (n := n) rfl hs
  obtain ⟨p', hp', q1, q2, q3⟩ := addQuadraticCost_ok (nc := n) (nb := 0) (n := n) rfl hf hH.nr hH.nc p1 p2
  have hfeas : ∀ x : Vec ℝ, Spec.Feasible A b C d x ↔ p'.Feasible x.e := by
    intro x
    rw [q1, pf]
    have : Spec.BinaryFrom n n ⟨n, x.e⟩ := fun j hj hj' => by omega
    constructor
    · intro h
      exact ⟨by cases C <;> cases d <;> exact h, this⟩
    · intro h
      have h := h.1
      cases C <;> cases d <;> exact h
  have hopt : ∀ x : Vec ℝ, Spec.IsQpOpt H f A b C d x ↔ p'.Optimal x.e := by
    intro x
    constructor
    · intro h
      refine ⟨(hfeas x).1 h.1, fun w hw => ?_⟩
      rw [q3, q3]
      exact h.2 ⟨n, w⟩ ((hfeas ⟨n, w⟩).2 hw)
    · intro h
      refine ⟨(hfeas x).2 h.1, fun x' hx' => ?_⟩
      have := h.2 x'.e ((hfeas x').1 hx')
      rw [q3, q3] at this
      exact this
  have hpsd : ∀ v, 0 ≤ p'.quadPart v := by
    intro v
    rw [q2]
    by_cases hv : ∃ i < n, v i ≠ 0
    · have := hH.pos v hv
      linarith
    · push Not at hv
      have : ∑ i ∈ range n, ∑ j ∈ range n, v i * H.e i j * v j = 0 :=
        Finset.sum_eq_zero fun i hi => Finset.sum_eq_zero fun j _ => by rw [hv i (mem_range.1 hi)]; ring
      rw [this, mul_zero]
  have hrun : quadraticProgram D H f A b C d tol = quadratic_program (D.found (newVariables n 0).1 p') H f A b C d tol := by
    unfold quadraticProgram
    rw [if_neg hCd, hAn, hp, Py.ok_bind, hp', Py.ok_bind]
  rw [hrun]
  unfold MathSolver.found
  constructor
  · intro hno
    have hnone : D.solve p' = none := by
      cases hsol : D.solve p' with
      | none => rfl
      | some v => exact absurd ⟨⟨n, v⟩, (hfeas ⟨n, v⟩).2 (hD.sound _ _ hsol).1⟩ hno
    rw [hnone]
    unfold quadratic_program
    rw [if_neg hCd]
    rfl
  · intro hex
    obtain ⟨x0, hx0⟩ := qp_exists_opt hL hH hf hs hex
    obtain ⟨v, hv⟩ := hD.complete p' hpsd ⟨_, (hopt x0).1 hx0⟩
    rw [hv, Option.map_some, getSolution_e]
    obtain ⟨h1, h2⟩ := qp_fill hH hf hs (x := ⟨n + 0, v⟩) rfl tol
    refine ⟨⟨n + 0, v⟩, rfl, (hopt _).2 (hD.sound _ _ hv), fun hi => ?_, h2⟩
    obtain ⟨lam, mu, h1⟩ := h1 hi
    exact ⟨_, h1, rfl, rfl, _, rfl, mem_near⟩

/-- C105 is false: min 1/2 x² - x s.t. x ≤ 0, x ≤ 0 has the optimum 0, and `quadratic_program` of the drake backend raises `LinAlgError`. -/
theorem C105_false (D : MathSolver) (hD : MathSolverSpec D) : ∃ (H : Mat ℝ) (f : Vec ℝ) (A : Mat ℝ) (b x : Vec ℝ), Spec.SymPosDef 1 H ∧ f.n = 1 ∧
    Spec.ConstrShape 1 A b none none ∧ Spec.IsQpOpt H f A b none none x ∧ quadraticProgram D H f A b none none = .error .linAlgError := by
  have hH : Spec.SymPosDef 1 (⟨1, 1, fun _ _ => 1⟩ : Mat ℝ) := ⟨rfl, rfl, fun _ _ _ _ => rfl, fun v => by simp⟩
  have hs : Spec.ConstrShape 1 (⟨2, 1, fun _ _ => 1⟩ : Mat ℝ) ⟨2, fun _ => 0⟩ none none := ⟨rfl, rfl⟩
  have hfeas : Spec.Feasible (⟨2, 1, fun _ _ => 1⟩ : Mat ℝ) ⟨2, fun _ => 0⟩ none none ⟨1, fun _ => 0⟩ := ⟨fun i hi => by simp, trivial⟩
  obtain ⟨x, -, hx, -, herr⟩ := (C105_partial D hD 1 ⟨1, 1, fun _ _ => 1⟩ ⟨1, fun _ => -1⟩ ⟨2, 1, fun _ _ => 1⟩ ⟨2, fun _ => 0⟩ none none hH rfl hs 1e-5).2
    ⟨_, hfeas⟩
  refine ⟨_, _, _, _, x, hH, rfl, hs, hx, herr fun hi => ?_⟩
  have h1 : x.e 0 ≤ 0 := by simpa using hx.1.1 0 (by norm_num)
  have h2 := hx.2 _ hfeas
  simp [Spec.qpCost] at h2
  have h3 : x.e 0 = 0 := by nlinarith
  have := (hi ⟨2, fun i => if i = 0 then 1 else -1⟩ ⟨0, fun _ => 0⟩ (fun i _ _ => by simp [h3]; norm_num)
    (fun j _ => by simp [Finset.sum_range_succ, Spec.eqGrad])).1 0 (by norm_num)
  simp at this

/-- C106: `mixed_integer_quadratic_program` of the drake backend raises `ValueError` if one of `C`, `d` is missing.  For data of matching sizes and a positive
semidefinite `H` it answers: with an optimal point, binary from coordinate `nc` on, and its cost, or with two `None` if there is no optimal point. -/
theorem C106 (D : MathSolver) (hD : MathSolverSpec D) (nc : ℕ) (H : Mat ℝ) (f : Vec ℝ) (A : Mat ℝ) (b : Vec ℝ) :
    (∀ C, mixedIntegerQuadraticProgram D nc H f A b (some C) none = .error .valueError) ∧
    (∀ d, mixedIntegerQuadraticProgram D nc H f A b none (some d) = .error .valueError) ∧
    ∀ (n : ℕ) (C : Option (Mat ℝ)) (d : Option (Vec ℝ)), nc ≤ n → f.n = n → H.nr = n → H.nc = n → Spec.ConstrShape n A b C d →
      (∀ v : ℕ → ℝ, 0 ≤ ∑ i ∈ range n, ∑ j ∈ range n, v i * H.e i j * v j) →
      ∃ s, mixedIntegerQuadraticProgram D nc H f A b C d = .ok s ∧
        (∀ x, s.argmin = some x → x.n = n ∧ Spec.Feasible A b C d x ∧ Spec.BinaryFrom nc n x ∧ s.min = some (Spec.qpCost H f x) ∧
          ∀ x', Spec.Feasible A b C d x' → Spec.BinaryFrom nc n x' → Spec.qpCost H f x ≤ Spec.qpCost H f x') ∧
        (s.argmin = none → s.min = none ∧ ¬ ∃ x, Spec.Feasible A b C d x ∧ Spec.BinaryFrom nc n x ∧
          ∀ x', Spec.Feasible A b C d x' → Spec.BinaryFrom nc n x' → Spec.qpCost H f x ≤ Spec.qpCost H f x') := by
  refine ⟨fun C => rfl, fun d => rfl, fun n C d hnc hf hr hc hs hpsd => ?_⟩
  have hAn := shape_nc hs
  have hCd : ¬ (C.isNone ≠ d.isNone) := by
    rcases shape_cases hs with ⟨hC, hd⟩ | ⟨C', d', hC, hd, _, _⟩ <;> rw [hC, hd] <;> simp
  obtain ⟨p, hp, p1, p2, pf⟩ := addConstraints_ok (nc := nc) (nb := n - nc) (by omega) hs
  obtain ⟨p', hp', q1, q2, q3⟩ := addQuadraticCost_ok (nc := nc) (nb := n - nc) (by omega) hf hr hc p1 p2
  have hfeas : ∀ x : Vec ℝ, Spec.Feasible A b C d x ∧ Spec.BinaryFrom nc n x ↔ p'.Feasible x.e := by
    intro x
    rw [q1, pf]
    constructor
    · intro h
      exact ⟨by have h := h.1; cases C <;> cases d <;> exact h, h.2⟩
    · intro h
      exact ⟨by have h := h.1; cases C <;> cases d <;> exact h, h.2⟩
  have hrun : mixedIntegerQuadraticProgram D nc H f A b C d = match D.found (newVariables nc (n - nc)).1 p' with
      | none => .ok ⟨none, none⟩
      | some x => miFill H f x := by
    unfold mixedIntegerQuadraticProgram
    rw [if_neg hCd, hAn, if_neg (by omega), hp, Py.ok_bind, hp', Py.ok_bind]
    rfl
  rw [hrun]
  unfold MathSolver.found
  cases hsol : D.solve p' with
  | none =>
    refine ⟨⟨none, none⟩, rfl, fun x hx => (by cases hx), fun _ => ⟨rfl, ?_⟩⟩
    rintro ⟨x, hx, hxb, hxo⟩
    obtain ⟨v, hv⟩ := hD.complete p' (fun v => by rw [q2]; exact mul_nonneg (by norm_num) (hpsd v)) ⟨x.e, (hfeas x).1 ⟨hx, hxb⟩, fun w hw => by
      obtain ⟨h1, h2⟩ := (hfeas ⟨n, w⟩).2 hw
      rw [q3, q3]
      exact hxo ⟨n, w⟩ h1 h2⟩
    rw [hsol] at hv
    cases hv
  | some v =>
    rw [Option.map_some, getSolution_e, show nc + (n - nc) = n by omega]
    have e1 : np.dotVM (⟨n, v⟩ : Vec ℝ) H = .ok (Mat.vecMul ⟨n, v⟩ H) := if_pos hr.symm
    have e2 : np.dotVV (Mat.vecMul ⟨n, v⟩ H) ⟨n, v⟩ = .ok ((Mat.vecMul ⟨n, v⟩ H).dot ⟨n, v⟩) := if_pos hc
    have e3 : np.dotVV f ⟨n, v⟩ = .ok (f.dot ⟨n, v⟩) := if_pos hf
    have hcost : 1 / 2 * (Mat.vecMul ⟨n, v⟩ H).dot ⟨n, v⟩ + f.dot ⟨n, v⟩ = Spec.qpCost H f ⟨n, v⟩ := by
      have h1 : (Mat.vecMul ⟨n, v⟩ H).dot ⟨n, v⟩ = ∑ i ∈ range H.nr, ∑ j ∈ range H.nc, v i * H.e i j * v j := by
        show ∑ j ∈ range H.nc, (∑ i ∈ range n, v i * H.e i j) * v j = _
        rw [hr]
        simp only [Finset.sum_mul]
        exact Finset.sum_comm
      rw [h1]; rfl
    refine ⟨⟨some (Spec.qpCost H f ⟨n, v⟩), some ⟨n, v⟩⟩, ?_, fun x hx => ?_, fun hx => by cases hx⟩
    · show miFill H f ⟨n, v⟩ = _
      unfold miFill
      rw [e1, Py.ok_bind, e2, Py.ok_bind, e3, Py.ok_bind, hcost]
      rfl
    · cases hx
      have ho := hD.sound _ _ hsol
      obtain ⟨h1, h2⟩ := (hfeas ⟨n, v⟩).2 ho.1
      refine ⟨rfl, h1, h2, rfl, fun x' hx' hb' => ?_⟩
      have := ho.2 x'.e ((hfeas x').1 ⟨hx', hb'⟩)
      rw [q3, q3] at this
      exact this

/-- C107, what holds: at an optimal point the multipliers returned by `linear_program` of the drake backend satisfy the stationarity condition, and those of constraints
that hold with `tol` to spare are zero.  Missing: they are nonnegative (false, `C107_false`; true if the nearly active constraints are active and independent, C81). -/
theorem C107_partial (L : Lib) (hL : LibSpec L) (n : ℕ) (f : Vec ℝ) (A : Mat ℝ) (b : Vec ℝ) (C : Option (Mat ℝ)) (d : Option (Vec ℝ)) (hf : f.n = n)
    (hs : Spec.ConstrShape n A b C d) (x : Vec ℝ) (hxn : x.n = n) (hopt : Spec.IsLpOpt f A b C d x) (tol : ℝ) (htol : 0 < tol) :
    ∃ s lam, Drake.linear_program L (some x) f A b C d tol = .ok s ∧ s.multiplier_inequality = some lam ∧ lam.n = A.nr ∧
      (∀ i < A.nr, ∑ j ∈ range A.nc, A.e i j * x.e j ≤ b.e i - tol → lam.e i = 0) ∧
      (∀ C', C = some C' → 0 < C'.nr → ∃ mu, s.multiplier_equality = some mu ∧ mu.n = C'.nr) ∧
      ∀ j < n, f.e j + ∑ i ∈ range A.nr, lam.e i * A.e i j + Spec.eqGrad C s.multiplier_equality j = 0 := by
  obtain ⟨lam, mu, h1, h2, h3, h4, h5, h6⟩ := lp_fill hL hf hs hxn tol
  refine ⟨_, lam, h1, rfl, h2, fun i hi hle => h3 i fun hmem => ?_, fun C' hC hpos => ?_, h6 hopt htol⟩
  · have := ((mem_near i).1 hmem).2
    linarith
  · have hq : nEq C = C'.nr := by rw [hC]; rfl
    obtain ⟨m, hm⟩ := Option.isSome_iff_exists.1 (h4.2 (by omega))
    exact ⟨m, hm, (h5 m hm).trans hq⟩

/-- C107 is false: for min -x s.t. x ≤ 0, -x ≤ 0 the multipliers are 1/2 and -1/2. -/
theorem C107_false (L : Lib) (hL : LibSpec L) : ∃ (f : Vec ℝ) (A : Mat ℝ) (b x : Vec ℝ) (s : Sol) (lam : Vec ℝ), f.n = 1 ∧ Spec.ConstrShape 1 A b none none ∧
    x.n = 1 ∧ Spec.IsLpOpt f A b none none x ∧ Drake.linear_program L (some x) f A b none none = .ok s ∧ s.multiplier_inequality = some lam ∧
    lam.e 0 = 1 / 2 ∧ lam.e 1 = -1 / 2 := by
  set A : Mat ℝ := ⟨2, 1, fun i _ => if i = 0 then 1 else -1⟩ with hA
  have hact : nearActive A ⟨2, fun _ => 0⟩ ⟨1, fun _ => 0⟩ 1e-5 = [0, 1] := by
    simp [nearActive, Mat.mulVec, hA]; norm_num
    rfl
  set M := (A.rows [0, 1]).T with hM
  set P := L.pinv M with hP
  have pr : P.nr = 2 := hL.pinv_nr M
  have pc : P.nc = 1 := hL.pinv_nc M
  have m0 : M.e 0 0 = 1 := by simp [hM, hA, Mat.T, Mat.rows]
  have m1 : M.e 0 1 = -1 := by simp [hM, hA, Mat.T, Mat.rows]
  have p1 : M.asM 1 2 * P.asM 2 1 * M.asM 1 2 = M.asM 1 2 := hL.pinv_1 M
  have p4 : (P.asM 2 1 * M.asM 1 2).transpose = P.asM 2 1 * M.asM 1 2 := hL.pinv_4 M
  have h1 : P.e 0 0 - P.e 1 0 = 1 := by
    have h := congrFun (congrFun p1 0) 0
    simp only [Matrix.mul_apply, Fin.sum_univ_two, Mat.asM, Fin.sum_univ_one] at h
    have h' : (M.e 0 0 * P.e 0 0 + M.e 0 1 * P.e 1 0) * M.e 0 0 = M.e 0 0 := h
    rw [m0, m1] at h'
    linarith
  have h2 : P.e 1 0 = - P.e 0 0 := by
    have h := congrFun (congrFun p4 0) 1
    simp only [Matrix.transpose_apply, Matrix.mul_apply, Fin.sum_univ_one, Mat.asM] at h
    have h' : P.e 1 0 * M.e 0 0 = P.e 0 0 * M.e 0 1 := h
    rw [m0, m1] at h'
    linarith
  have h3 : P.e 0 0 = 1 / 2 := by linarith
  have h4 : P.e 1 0 = -1 / 2 := by linarith
  have e3 : np.dotVV (⟨1, fun _ => -1⟩ : Vec ℝ) ⟨1, fun _ => 0⟩ = .ok _ := if_pos rfl
  have e4 : np.dotMV A (⟨1, fun _ => 0⟩ : Vec ℝ) = .ok _ := if_pos rfl
  have e5 : np.subV (A.mulVec (⟨1, fun _ => 0⟩ : Vec ℝ)) ⟨2, fun _ => 0⟩ = .ok _ := if_pos rfl
  have e6 : np.rows A [0, 1] = .ok (A.rows [0, 1]) := if_pos fun i hi => by
    have : A.nr = 2 := rfl
    simp at hi
    omega
  have e7 : np.dotMV P (⟨1, fun _ => -1⟩ : Vec ℝ) = .ok _ := if_pos pc
  refine ⟨⟨1, fun _ => -1⟩, A, ⟨2, fun _ => 0⟩, ⟨1, fun _ => 0⟩,
    ⟨some ((⟨1, fun _ => -1⟩ : Vec ℝ).dot ⟨1, fun _ => 0⟩), some ⟨1, fun _ => 0⟩, some [0, 1], some (scatter 2 [0, 1] (P.mulVec ⟨1, fun _ => -1⟩).neg), none⟩,
    scatter 2 [0, 1] (P.mulVec ⟨1, fun _ => -1⟩).neg, rfl, ⟨rfl, rfl⟩, rfl, ⟨⟨fun i _ => by simp,
    trivial⟩, fun x' hx' => ?_⟩, ?_, rfl, ?_, ?_⟩
  rotate_left
  · unfold Drake.linear_program
    rw [if_neg (by simp)]
    show lpFill L _ A _ none 0 _ 1e-5 = _
    unfold lpFill
    rw [e3, Py.ok_bind, e4, Py.ok_bind, e5, Py.ok_bind]
    simp only [nearWhere_sub, hact]
    rw [e6, Py.ok_bind]
    show (hstackActive M none 0 >>= _) = _
    show (np.dotMV P _ >>= _) = _
    rw [e7, Py.ok_bind]
    rfl
  · simp [scatter, Mat.mulVec_e, Vec.neg, pc, h3]
  · simp [scatter, Mat.mulVec_e, Vec.neg, pc, h4]
  · have hx0 : x'.e 0 ≤ 0 := by simpa [hA] using hx'.1 0 (by norm_num)
    simp [Spec.lpCost]
    linarith

/-- min -x (and min 1/2 x² - x) s.t. x ≤ 3, x ≤ 1 with a solver and a library that meet their contracts: the hypotheses of C104, C105_partial, C106, C107_partial -/
example : ∃ (L : Lib) (D : MathSolver) (H : Mat ℝ) (f : Vec ℝ) (A : Mat ℝ) (b x : Vec ℝ), LibSpec L ∧ MathSolverSpec D ∧ Spec.SymPosDef 1 H ∧ f.n = 1 ∧
    Spec.ConstrShape 1 A b none none ∧ A.nr = 2 ∧ x.n = 1 ∧ Spec.IsLpOpt f A b none none x ∧ Spec.NearIndep 1e-5 1 A b none x ∧
    (∀ v : ℕ → ℝ, 0 ≤ ∑ i ∈ range 1, ∑ j ∈ range 1, v i * H.e i j * v j) := by
  obtain ⟨L, hL⟩ := exists_lib
  obtain ⟨D, hD⟩ := exists_mathSolver
  refine ⟨L, D, ⟨1, 1, fun _ _ => 1⟩, ⟨1, fun _ => -1⟩, ⟨2, 1, fun _ _ => 1⟩, ⟨2, fun i => if i = 0 then 3 else 1⟩, ⟨1, fun _ => 1⟩, hL, hD,
    ⟨rfl, rfl, fun _ _ _ _ => rfl, fun v => by simp⟩, rfl, ⟨rfl, rfl⟩, rfl, rfl, ⟨⟨fun i _ => ?_, trivial⟩, fun x' hx' => ?_⟩, ?_,
    fun v => by simp; exact mul_self_nonneg _⟩
  · simp; split_ifs <;> norm_num
  · have : x'.e 0 ≤ 1 := by simpa using hx'.1 1 (by norm_num)
    simp [Spec.lpCost]
    linarith
  · intro lam mu h1 h2
    have h0 : lam.e 0 = 0 := by
      by_contra hne
      have := h1 0 (by norm_num) hne
      norm_num at this
    have h3 := h2 0 one_pos
    simp [Finset.sum_range_succ, Spec.eqGrad, h0] at h3
    refine ⟨fun i hi => ?_, fun C' hC => by cases hC⟩
    have hi : i < 2 := hi
    interval_cases i
    · exact h0
    · exact h3

end Verif.Props
