import Verif.Model.DrakeProg
import Verif.Proofs.Drake
import Verif.Proofs.ExampleBuild

/- What the programs built by the drake backend are. -/
namespace Verif.Drake
open Finset Example

/-- a contract that is met by some solver -/
theorem exists_mathSolver : ∃ D, MathSolverSpec D := by
  classical
  refine ⟨⟨fun p => if h : ∃ v, p.Optimal v then some h.choose else none⟩, fun p v h => ?_, fun p _ h => ⟨_, dif_pos h⟩⟩
  dsimp only at h
  split_ifs at h with h'
  rw [← Option.some.inj h]
  exact h'.choose_spec

/-- adding rows one after the other -/
theorem addRows_ok (f : MathProg → ℕ → Py MathProg) (c : ℕ → LinCon) (N : ℕ) (h : ∀ p, ∀ i < N, f p i = .ok { p with cons := p.cons ++ [c i] })
    (p : MathProg) : (List.range N).foldlM f p = .ok { p with cons := p.cons ++ (List.range N).map c } := by
  induction N with
  | zero => simp; rfl
  | succ N ih =>
    rw [List.range_succ, List.foldlM_append, ih fun p i hi => h p i (by omega)]
    show (List.foldlM f _ [N] : Py MathProg) = _
    rw [List.foldlM_cons, h _ N (by omega)]
    show (pure _ : Py MathProg) = _
    simp [List.map_append]
    rfl

theorem newVariables_size (nc nb : ℕ) : (newVariables nc nb).1.n = nc + nb := rfl

theorem newVariables_e (nc nb i : ℕ) : (newVariables nc nb).1.e i = i := by
  show (if i < nc then i else nc + (i - nc)) = i
  split_ifs <;> omega

theorem getSolution_e (v : ℕ → ℝ) (nc nb : ℕ) : getSolution v (newVariables nc nb).1 = ⟨nc + nb, v⟩ := by
  unfold getSolution
  simp only [newVariables_e, newVariables_size]

/-- the constraints of the program are those stated -/
theorem addConstraints_ok {n nc nb : ℕ} {A : Mat ℝ} {b : Vec ℝ} {C : Option (Mat ℝ)} {d : Option (Vec ℝ)} (hn : nc + nb = n)
    (hs : Spec.ConstrShape n A b C d) : ∃ p, addConstraints nc nb A b C d = .ok p ∧ p.lin = [] ∧ p.quad = [] ∧
      ∀ v, p.Feasible v ↔ Spec.Feasible A b C d ⟨n, v⟩ ∧ Spec.BinaryFrom nc n ⟨n, v⟩ := by
  have hAn := shape_nc hs
  have hbn := shape_bn hs
  have hle : ∀ p, ∀ i < A.nr, addLeRow (newVariables nc nb).1 A b p i = .ok { p with cons := p.cons ++ [(⟨(List.range A.nc).map fun j =>
      ((newVariables nc nb).1.e j, A.e i j), none, some (b.e i)⟩ : LinCon)] } := by
    intro p i hi
    have k1 : dotVars (A.row i) (newVariables nc nb).1 = .ok _ := if_pos (show A.nc = nc + nb by omega)
    have k2 : item b i = .ok _ := if_pos (show i < b.n by omega)
    unfold addLeRow
    rw [k1, Py.ok_bind, k2, Py.ok_bind]
    rfl
  have hbin : ∀ v : ℕ → ℝ, (∀ i ∈ (List.range nb).map (nc + ·), v i = 0 ∨ v i = 1) ↔ Spec.BinaryFrom nc n ⟨n, v⟩ := by
    intro v
    constructor
    · intro h j hj hc
      exact h j (List.mem_map.2 ⟨j - nc, List.mem_range.2 (by omega), by omega⟩)
    · intro h i hi
      obtain ⟨k, hk, rfl⟩ := List.mem_map.1 hi
      have := List.mem_range.1 hk
      exact h (nc + k) (by omega) (by omega)
  have hval : ∀ (M : Mat ℝ) (i : ℕ) (v : ℕ → ℝ), valTerms ((List.range M.nc).map fun j => ((newVariables nc nb).1.e j, M.e i j)) v =
      ∑ j ∈ range M.nc, M.e i j * v j := by
    intro M i v
    rw [valTerms_range]
    simp only [newVariables_e]
  have hineq : ∀ v : ℕ → ℝ, (∀ c ∈ (List.range A.nr).map (fun i => (⟨(List.range A.nc).map fun j =>
      ((newVariables nc nb).1.e j, A.e i j), none, some (b.e i)⟩ : LinCon)), c.Holds v) ↔ Spec.Ineqs A b ⟨n, v⟩ := by
    intro v
    simp only [List.mem_map, List.mem_range, forall_exists_index, and_imp, forall_apply_eq_imp_iff₂]
    refine forall_congr' fun i => forall_congr' fun hi => ?_
    unfold LinCon.Holds
    simp only [hval]
    simp
  have h1 := addRows_ok _ _ A.nr hle (newVariables nc nb).2
  unfold addConstraints
  rw [h1, Py.ok_bind]
  rcases shape_cases hs with ⟨hC, hd⟩ | ⟨C', d', hC, hd, hCn, hdn⟩
  · subst hC; subst hd
    refine ⟨_, rfl, rfl, rfl, fun v => ?_⟩
    have : Spec.Feasible A b none none ⟨n, v⟩ ↔ Spec.Ineqs A b ⟨n, v⟩ := ⟨fun h => h.1, fun h => ⟨h, trivial⟩⟩
    rw [this, ← hineq, ← hbin]
    rfl
  · subst hC; subst hd
    have heq : ∀ p, ∀ i < C'.nr, addEqRow (newVariables nc nb).1 C' d' p i = .ok { p with cons := p.cons ++ [(⟨(List.range C'.nc).map fun j =>
        ((newVariables nc nb).1.e j, C'.e i j), some (d'.e i), some (d'.e i)⟩ : LinCon)] } := by
      intro p i hi
      have k1 : dotVars (C'.row i) (newVariables nc nb).1 = .ok _ := if_pos (show C'.nc = nc + nb by omega)
      have k2 : item d' i = .ok _ := if_pos (show i < d'.n by omega)
      unfold addEqRow
      rw [k1, Py.ok_bind, k2, Py.ok_bind]
      rfl
    refine ⟨_, addRows_ok _ _ C'.nr heq _, rfl, rfl, fun v => ?_⟩
    have he : (∀ c ∈ (List.range C'.nr).map (fun i => (⟨(List.range C'.nc).map fun j =>
        ((newVariables nc nb).1.e j, C'.e i j), some (d'.e i), some (d'.e i)⟩ : LinCon)), c.Holds v) ↔ Spec.Eqs (some C') (some d') ⟨n, v⟩ := by
      simp only [List.mem_map, List.mem_range, forall_exists_index, and_imp, forall_apply_eq_imp_iff₂]
      refine forall_congr' fun i => forall_congr' fun hi => ?_
      unfold LinCon.Holds
      simp only [hval]
      constructor
      · rintro ⟨h, h'⟩
        exact le_antisymm (h' _ rfl) (h _ rfl)
      · intro h
        exact ⟨fun a ha => by cases ha; exact h.ge, fun a ha => by cases ha; exact h.le⟩
    unfold MathProg.Feasible Spec.Feasible
    rw [← hineq, ← he, ← hbin]
    simp only [newVariables, List.nil_append, List.mem_append, or_imp, forall_and]

theorem addLinearCost_ok {n : ℕ} {f : Vec ℝ} (hf : f.n = n) {p : MathProg} (h1 : p.lin = []) (h2 : p.quad = []) : ∃ p',
    addLinearCost (newVariables n 0).1 f p = .ok p' ∧ (∀ v, p'.Feasible v ↔ p.Feasible v) ∧ (∀ v, p'.quadPart v = 0) ∧
      ∀ v, p'.cost v = Spec.lpCost f ⟨n, v⟩ := by
  have k1 : dotVars f (newVariables n 0).1 = .ok _ := if_pos hf
  refine ⟨{ p with lin := p.lin ++ (List.range f.n).map fun j => ((newVariables n 0).1.e j, f.e j) }, by unfold addLinearCost; rw [k1, Py.ok_bind]; rfl, fun v => Iff.rfl, fun v => by simp [MathProg.quadPart, h2], fun v => ?_⟩
  simp only [MathProg.cost, MathProg.quadPart, h1, h2, List.nil_append, valTerms_range, newVariables_e]
  simp [Spec.lpCost]

theorem addQuadraticCost_ok {n nc nb : ℕ} (hn : nc + nb = n) {H : Mat ℝ} {f : Vec ℝ} (hf : f.n = n) (hr : H.nr = n) (hc : H.nc = n) {p : MathProg}
    (h1 : p.lin = []) (h2 : p.quad = []) : ∃ p', addQuadraticCost (newVariables nc nb).1 H f p = .ok p' ∧ (∀ v, p'.Feasible v ↔ p.Feasible v) ∧
      (∀ v, p'.quadPart v = 1 / 2 * ∑ i ∈ range n, ∑ j ∈ range n, v i * H.e i j * v j) ∧ ∀ v, p'.cost v = Spec.qpCost H f ⟨n, v⟩ := by
  have k1 : dotVars f (newVariables nc nb).1 = .ok _ := if_pos (hf.trans hn.symm)
  obtain ⟨l, k2, k3⟩ := quadVars_ok (M := H) (w := (newVariables nc nb).1) (hr.trans hn.symm) (hc.trans hn.symm)
  have hq : ∀ v : ℕ → ℝ, (l.map fun q => q.2.2 * v q.1 * v q.2.1).sum = 1 / 2 * ∑ i ∈ range n, ∑ j ∈ range n, v i * H.e i j * v j := by
    intro v
    rw [k3]
    unfold Spec.quad
    simp only [newVariables_e, hr, hc]
  refine ⟨{ p with quad := p.quad ++ l, lin := p.lin ++ (List.range f.n).map fun j => ((newVariables nc nb).1.e j, f.e j) },
    by unfold addQuadraticCost; rw [k2, Py.ok_bind, k1, Py.ok_bind]; rfl, fun v => Iff.rfl, fun v => ?_, fun v => ?_⟩
  · simp only [MathProg.quadPart, h2, List.nil_append, hq]
  · simp only [MathProg.cost, MathProg.quadPart, h1, h2, List.nil_append, hq, valTerms_range, newVariables_e]
    simp [Spec.qpCost, hr, hc]

end Verif.Drake
