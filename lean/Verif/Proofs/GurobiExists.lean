import Verif.Proofs.Gurobi

/- The contract of the optimizer (`GurobiSpec`) can be met. -/
namespace Verif
open Finset Matrix Verif.Math Classical

theorem LinExpr.eval_eq {n : ℕ} (e : LinExpr) (he : ∀ t ∈ e.terms, t.2 < n) (x : Vec ℝ) :
    e.eval x = ∑ j ∈ range n, e.coef j * x.e j + e.const := by
  obtain ⟨l, c⟩ := e
  simp only [LinExpr.eval, LinExpr.coef] at he ⊢
  congr 1
  induction l with
  | nil => simp
  | cons t l ih =>
    simp only [List.map_cons, List.sum_cons]
    rw [ih fun t' ht' => he t' (by simp [ht'])]
    simp only [add_mul, Finset.sum_add_distrib]
    congr 1
    rw [Finset.sum_eq_single t.2]
    · simp
    · intro j _ hj; simp [Ne.symm hj]
    · intro h; exact absurd (mem_range.2 (he t (by simp))) h

/-- symmetric matrix of a list of quadratic terms -/
noncomputable def quadMat (l : List (ℕ × ℝ × ℕ)) (i j : ℕ) : ℝ :=
  (l.map fun t => (if t.1 = i ∧ t.2.2 = j then t.2.1 else 0)
    + (if t.1 = j ∧ t.2.2 = i then t.2.1 else 0)).sum

theorem quadMat_symm (l : List (ℕ × ℝ × ℕ)) (i j : ℕ) : quadMat l i j = quadMat l j i := by
  unfold quadMat; congr 1; apply List.map_congr_left; intro t _; rw [add_comm]

theorem sum_single_pair {n a c : ℕ} (ha : a < n) (hc : c < n) (g : ℕ → ℕ → ℝ) (v : ℝ) :
    ∑ i ∈ range n, ∑ j ∈ range n, (if a = i ∧ c = j then v else 0) * g i j = v * g a c := by
  rw [Finset.sum_eq_single a, Finset.sum_eq_single c]
  · simp
  · intro j _ hj; simp [Ne.symm hj]
  · intro h; exact absurd (mem_range.2 hc) h
  · intro i _ hi; simp [Ne.symm hi]
  · intro h; exact absurd (mem_range.2 ha) h

theorem quad_eval {n : ℕ} (l : List (ℕ × ℝ × ℕ)) (hl : ∀ t ∈ l, t.1 < n ∧ t.2.2 < n) (x : Vec ℝ) :
    (l.map fun t => x.e t.1 * t.2.1 * x.e t.2.2).sum
      = 1 / 2 * ∑ i ∈ range n, ∑ j ∈ range n, x.e i * quadMat l i j * x.e j := by
  induction l with
  | nil => simp [quadMat]
  | cons t l ih =>
    obtain ⟨a, v, c⟩ := t
    obtain ⟨ha, hc⟩ := hl (a, v, c) (by simp)
    rw [List.map_cons, List.sum_cons, ih fun t' ht' => hl t' (by simp [ht'])]
    have e : ∀ i j, x.e i * quadMat ((a, v, c) :: l) i j * x.e j
        = (if a = i ∧ c = j then v else 0) * (x.e i * x.e j)
        + (if c = i ∧ a = j then v else 0) * (x.e i * x.e j)
        + x.e i * quadMat l i j * x.e j := by
      intro i j
      simp only [quadMat, List.map_cons, List.sum_cons]
      have : (if a = j ∧ c = i then v else 0) = (if c = i ∧ a = j then v else 0) :=
        if_congr and_comm rfl rfl
      rw [this]
      ring
    simp only [e, Finset.sum_add_distrib]
    rw [sum_single_pair ha hc (fun i j => x.e i * x.e j), sum_single_pair hc ha (fun i j => x.e i * x.e j)]
    ring

theorem quad_grad {n : ℕ} (l : List (ℕ × ℝ × ℕ)) (hl : ∀ t ∈ l, t.1 < n ∧ t.2.2 < n) (x : Vec ℝ)
    (j : ℕ) :
    (l.map fun t => (if t.1 = j then t.2.1 * x.e t.2.2 else 0)
      + (if t.2.2 = j then x.e t.1 * t.2.1 else 0)).sum
      = ∑ k ∈ range n, quadMat l j k * x.e k := by
  induction l with
  | nil => simp [quadMat]
  | cons t l ih =>
    obtain ⟨a, v, c⟩ := t
    obtain ⟨ha, hc⟩ := hl (a, v, c) (by simp)
    rw [List.map_cons, List.sum_cons, ih fun t' ht' => hl t' (by simp [ht'])]
    simp only [quadMat, List.map_cons, List.sum_cons, add_mul, Finset.sum_add_distrib]
    congr 1
    congr 1
    · rw [Finset.sum_eq_single c]
      · by_cases h : a = j <;> simp [h]
      · intro k _ hk; simp [Ne.symm hk]
      · intro h; exact absurd (mem_range.2 hc) h
    · rw [Finset.sum_eq_single a]
      · by_cases h : c = j <;> simp [h, mul_comm]
      · intro k _ hk; simp [Ne.symm hk]
      · intro h; exact absurd (mem_range.2 ha) h

/-- multipliers at an optimum of a continuous model -/
theorem gmodel_dual (M : GModel) (hw : M.Wf) (x : Vec ℝ) (hx : M.IsOpt x)
    (hbin : ∀ j < M.n, M.bin j = false) :
    ∃ pI pE : ℕ → ℝ, (∀ (i : ℕ) (h : i < M.ineqs.length), pI i ≤ 0 ∧
      pI i * (M.ineqs[i]).eval x = 0) ∧
    ∀ j < M.n, M.grad x j
      = (∑ i ∈ Finset.range M.ineqs.length, pI i * (M.ineqs.getD i ⟨[], 0⟩).coef j)
      + ∑ i ∈ Finset.range M.eqs.length, pE i * (M.eqs.getD i ⟨[], 0⟩).coef j := by
  obtain ⟨w1, w2, w3, w4⟩ := hw
  let H : Mat ℝ := ⟨M.n, M.n, quadMat M.quad⟩
  let f : Vec ℝ := ⟨M.n, M.lin.coef⟩
  let A : Mat ℝ := ⟨M.ineqs.length, M.n, fun i j => (M.ineqs.getD i ⟨[], 0⟩).coef j⟩
  let b : Vec ℝ := ⟨M.ineqs.length, fun i => -(M.ineqs.getD i ⟨[], 0⟩).const⟩
  let C : Mat ℝ := ⟨M.eqs.length, M.n, fun i j => (M.eqs.getD i ⟨[], 0⟩).coef j⟩
  let d : Vec ℝ := ⟨M.eqs.length, fun i => -(M.eqs.getD i ⟨[], 0⟩).const⟩
  have hs : Spec.ConstrShape M.n A b (some C) (some d) := ⟨rfl, rfl, rfl, rfl⟩
  have hev : ∀ (l : List LinExpr) (hl : ∀ e ∈ l, ∀ t ∈ e.terms, t.2 < M.n) (i : ℕ) (hi : i < l.length)
      (y : Vec ℝ), (l[i]).eval y = ∑ j ∈ range M.n, (l.getD i ⟨[], 0⟩).coef j * y.e j
        + (l.getD i ⟨[], 0⟩).const := by
    intro l hl i hi y
    have e : l.getD i ⟨[], 0⟩ = l[i] := by simp [List.getD, hi]
    rw [LinExpr.eval_eq _ (hl _ (List.getElem_mem hi)), e]
  have hfeas : ∀ y, M.Feas y ↔ Spec.Feasible A b (some C) (some d) y := by
    intro y
    refine and_congr ?_ ?_
    · constructor
      · intro h i hi
        have h1 := h _ (List.getElem_mem (show i < M.ineqs.length from hi))
        rw [hev _ w1] at h1
        show ∑ j ∈ range M.n, (M.ineqs.getD i ⟨[], 0⟩).coef j * y.e j ≤ -(M.ineqs.getD i ⟨[], 0⟩).const
        linarith
      · intro h e he
        obtain ⟨i, hi, rfl⟩ := List.getElem_of_mem he
        rw [hev _ w1]
        have h1 : ∑ j ∈ range M.n, (M.ineqs.getD i ⟨[], 0⟩).coef j * y.e j
          ≤ -(M.ineqs.getD i ⟨[], 0⟩).const := h i hi
        linarith
    · rw [and_iff_left (by intro j hj h; rw [hbin j hj] at h; cases h)]
      constructor
      · intro h i hi
        have h1 := h _ (List.getElem_mem (show i < M.eqs.length from hi))
        rw [hev _ w2] at h1
        show ∑ j ∈ range M.n, (M.eqs.getD i ⟨[], 0⟩).coef j * y.e j = -(M.eqs.getD i ⟨[], 0⟩).const
        linarith
      · intro h e he
        obtain ⟨i, hi, rfl⟩ := List.getElem_of_mem he
        rw [hev _ w2]
        have h1 : ∑ j ∈ range M.n, (M.eqs.getD i ⟨[], 0⟩).coef j * y.e j
          = -(M.eqs.getD i ⟨[], 0⟩).const := h i hi
        linarith
  have hobj : ∀ y, M.obj y = Spec.qpCost H f y + M.lin.const := by
    intro y
    rw [GModel.obj, quad_eval _ w3, M.lin.eval_eq w4, Spec.qpCost]
    ring
  have hopt : Spec.IsQpOpt H f A b (some C) (some d) x := by
    refine ⟨(hfeas x).1 hx.1, fun y hy => ?_⟩
    have := hx.2 y ((hfeas y).2 hy)
    rw [hobj, hobj] at this
    linarith
  obtain ⟨lam, mu, hk⟩ := qp_kkt_necessary (H := H) rfl rfl (fun i _ j _ => quadMat_symm _ i j) rfl hs hopt
  refine ⟨fun i => - lam.e i, fun i => - (mu.getD ⟨0, fun _ => 0⟩).e i, fun i hi => ⟨?_, ?_⟩, fun j hj => ?_⟩
  · have := hk.nonneg i hi; simpa using this
  · rw [hev _ w1]
    have h1 : lam.e i * (-(M.ineqs.getD i ⟨[], 0⟩).const
      - ∑ j ∈ range M.n, (M.ineqs.getD i ⟨[], 0⟩).coef j * x.e j) = 0 := hk.compl i hi
    linarith
  · have h1 : M.grad x j = Spec.qpGrad H f x j := by
      rw [GModel.grad, quad_grad _ w3]; rfl
    have h2 := hk.stat j hj
    have h3 : Spec.eqGrad (some C) mu j
        = ∑ i ∈ range M.eqs.length, (mu.getD ⟨0, fun _ => 0⟩).e i * (M.eqs.getD i ⟨[], 0⟩).coef j := by
      cases mu with
      | none => simp [Spec.eqGrad]
      | some m => rfl
    rw [h3] at h2
    have h4 : ∑ i ∈ range A.nr, lam.e i * A.e i j
      = ∑ i ∈ range M.ineqs.length, lam.e i * (M.ineqs.getD i ⟨[], 0⟩).coef j := rfl
    rw [h4] at h2
    rw [h1]
    simp only [neg_mul, Finset.sum_neg_distrib]
    linarith

theorem eval_congr {n : ℕ} (e : LinExpr) (he : ∀ t ∈ e.terms, t.2 < n) (x : Vec ℝ) :
    e.eval ⟨n, x.e⟩ = e.eval x := by rw [e.eval_eq he, e.eval_eq he]

theorem exists_gurobi : ∃ G : Gurobi, GurobiSpec G := by
  have hres : ∀ M : GModel, M.Wf → (∃ x, M.IsOpt x) → ∃ r : GResult, r.x.n = M.n ∧ M.IsOpt r.x ∧
      r.objVal = M.obj r.x ∧ ((∀ j < M.n, M.bin j = false) →
      (∀ (i : ℕ) (h : i < M.ineqs.length), r.piIneq i ≤ 0 ∧ r.piIneq i * (M.ineqs[i]).eval r.x = 0) ∧
      ∀ j < M.n, M.grad r.x j
      = (∑ i ∈ Finset.range M.ineqs.length, r.piIneq i * (M.ineqs.getD i ⟨[], 0⟩).coef j)
      + ∑ i ∈ Finset.range M.eqs.length, r.piEq i * (M.eqs.getD i ⟨[], 0⟩).coef j) := by
    rintro M hw ⟨x, hx⟩
    let x' : Vec ℝ := ⟨M.n, x.e⟩
    have hx' : M.IsOpt x' := hx
    by_cases hb : ∀ j < M.n, M.bin j = false
    · obtain ⟨pI, pE, h1, h2⟩ := gmodel_dual M hw x' hx' hb
      exact ⟨⟨x', M.obj x', pI, pE, fun _ => 0⟩, rfl, hx', rfl, fun _ => ⟨h1, h2⟩⟩
    · exact ⟨⟨x', M.obj x', fun _ => 0, fun _ => 0, fun _ => 0⟩, rfl, hx', rfl, fun h => absurd h hb⟩
  choose r r1 r2 r3 r4 using hres
  refine ⟨⟨fun M => if h : M.Wf ∧ ∃ x, M.IsOpt x then some (r M h.1 h.2) else none⟩, ⟨?_, ?_, ?_⟩⟩
  · intro M s hw hs
    simp only [hw, true_and] at hs
    split at hs
    · rename_i h; cases hs; exact ⟨r1 M _ h, r2 M _ h, r3 M _ h⟩
    · cases hs
  · intro M hw hx
    exact ⟨r M hw hx, by simp only [hw, hx, true_and, dite_true]⟩
  · intro M s hw hs hb
    simp only [hw, true_and] at hs
    split at hs
    · rename_i h; cases hs; exact r4 M _ h hb
    · cases hs

end Verif
