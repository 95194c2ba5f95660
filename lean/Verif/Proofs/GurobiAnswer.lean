import Verif.Proofs.Gurobi

/- What the Gurobi backend answers. -/
namespace Verif
open Finset Matrix Verif.Math Classical
open Spec (drop dropM dropV NoTinyM NoTinyV)

variable {n : ℕ} {f : Vec ℝ} {A : Mat ℝ} {b : Vec ℝ}
    {C : Option (Mat ℝ)} {d : Option (Vec ℝ)} {M : GModel}

theorem Built.grad_qp {H : Mat ℝ} (hB : Built n (some H) f A b C d M) (hf : f.n = n) (hr : H.nr = n)
    (hc : H.nc = n) (hsym : ∀ i < n, ∀ j < n, H.e i j = H.e j i) (x : Vec ℝ) {j : ℕ} (hj : j < n) :
    M.grad x j = Spec.qpGrad (dropM 1e-9 H) (dropV 1e-9 f) x j := by
  unfold GModel.grad Spec.qpGrad
  rw [hB.lin, rowExpr_coef _ _ _ _ (by simpa [Mat.ofRow, hf] using hj), hB.quad]
  simp only [quadRows, quadTerms, List.map_map, sum_map_filter, sum_flatMap_range, dropM, dropV,
    Mat.ofRow]
  congr 1
  have e : ∀ i k, (if decide (|H.e i k| > 1e-9) = true then
        ((if i = j then 1 / 2 * H.e i k * x.e k else 0) + (if k = j then x.e i * (1 / 2 * H.e i k) else 0))
        else 0) = (if i = j then 1 / 2 * drop 1e-9 (H.e i k) * x.e k else 0)
        + (if k = j then x.e i * (1 / 2 * drop 1e-9 (H.e i k)) else 0) := by
    intro i k
    by_cases h : |H.e i k| > 1e-9 <;> simp [h, drop]
  have e2 : ∀ i k, (((fun t : ℕ × ℝ × ℕ => ((if t.1 = j then t.2.1 * x.e t.2.2 else 0)
      + (if t.2.2 = j then x.e t.1 * t.2.1 else 0))) ∘ (fun t : ℕ × ℝ × ℕ => (t.1, 1 / 2 * t.2.1, t.2.2))
      ∘ fun p : ℕ × ℕ => (p.1, H.e p.1 p.2, p.2)) (i, k))
      = ((if i = j then 1 / 2 * H.e i k * x.e k else 0) + (if k = j then x.e i * (1 / 2 * H.e i k) else 0)) :=
    fun _ _ => rfl
  simp only [e2, e, Finset.sum_add_distrib]
  rw [hr, hc]
  have h1 : ∑ i ∈ range n, ∑ k ∈ range n, (if i = j then 1 / 2 * drop 1e-9 (H.e i k) * x.e k else 0)
      = ∑ k ∈ range n, 1 / 2 * drop 1e-9 (H.e j k) * x.e k := by
    rw [Finset.sum_eq_single j]
    · simp
    · intro i _ hi; simp [hi]
    · intro h; exact absurd (mem_range.2 hj) h
  have h2 : ∑ i ∈ range n, ∑ k ∈ range n, (if k = j then x.e i * (1 / 2 * drop 1e-9 (H.e i k)) else 0)
      = ∑ k ∈ range n, 1 / 2 * drop 1e-9 (H.e j k) * x.e k := by
    refine Finset.sum_congr rfl fun i hi => ?_
    rw [Finset.sum_eq_single j]
    · rw [if_pos rfl, hsym i (mem_range.1 hi) j hj]; ring
    · intro k _ hk; simp [hk]
    · intro h; exact absurd (mem_range.2 hj) h
  rw [h1, h2, ← Finset.sum_add_distrib]
  exact Finset.sum_congr rfl fun k _ => by ring

theorem Built.grad_lp (hB : Built n none f A b C d M) (hf : f.n = n) (x : Vec ℝ) {j : ℕ}
    (hj : j < n) : M.grad x j = (dropV 1e-9 f).e j := by
  unfold GModel.grad
  rw [hB.lin, rowExpr_coef _ _ _ _ (by simpa [Mat.ofRow, hf] using hj), hB.quad]
  simp [quadRows, dropV, Mat.ofRow]

theorem shape_drop (hs : Spec.ConstrShape n A b C d) (ε : ℝ) :
    Spec.ConstrShape n (dropM ε A) (dropV ε b) (C.map (dropM ε)) (d.map (dropV ε)) := by
  match C, d, hs with
  | none, none, hs => exact hs
  | some C, some d, hs => exact hs

theorem eqs_len (hs : Spec.ConstrShape n A b C d) (C' : Mat ℝ) (hC : C = some C') :
    (eqRows C d).length = C'.nr := by
  subst hC
  match d, hs with
  | some d, hs => simp [eqRows]

/-- the duals of the model are multipliers of the program with small entries dropped -/
theorem Built.kkt {H : Option (Mat ℝ)} (hB : Built n H f A b C d M) (hs : Spec.ConstrShape n A b C d)
    {r : GResult} {mu : Option (Vec ℝ)}
    (h1 : ∀ (i : ℕ) (h : i < M.ineqs.length), r.piIneq i ≤ 0 ∧ r.piIneq i * (M.ineqs[i]).eval r.x = 0)
    (h2 : ∀ j < M.n, M.grad r.x j
      = (∑ i ∈ Finset.range M.ineqs.length, r.piIneq i * (M.ineqs.getD i ⟨[], 0⟩).coef j)
      + ∑ i ∈ Finset.range M.eqs.length, r.piEq i * (M.eqs.getD i ⟨[], 0⟩).coef j)
    (hmu : Grb.eqMultipliers M r C = .ok mu) :
    Spec.KKT (M.grad r.x) (dropM 1e-9 A) (dropV 1e-9 b) (C.map (dropM 1e-9)) r.x
      ⟨A.nr, fun i => - r.piIneq i⟩ mu := by
  have hAn := shape_nc hs
  have hlen : M.ineqs.length = A.nr := by rw [hB.ineqs]; simp
  have hgetD : ∀ i < A.nr, M.ineqs.getD i ⟨[], 0⟩ = rowExpr A b.neg 1e-9 i := by
    intro i hi; rw [hB.ineqs]; simp [List.getD, hi]
  have hget : ∀ (i : ℕ) (h : i < M.ineqs.length), M.ineqs[i] = rowExpr A b.neg 1e-9 i := by
    intro i h; simp [hB.ineqs]
  refine ⟨rfl, ?_, ?_, ?_, ?_⟩
  · intro C' hC' h0
    match C, hC' with
    | some C, hC' =>
      cases hC'
      have h0' : C.nr > 0 := h0
      simp only [Grb.eqMultipliers, if_pos h0'] at hmu
      split at hmu
      · cases hmu
      · cases hmu; exact ⟨_, rfl, rfl⟩
  · intro j hj
    have hj' : j < A.nc := hj
    have hjn : j < M.n := by rw [hB.n_eq, ← hAn]; exact hj'
    have e1 : ∑ i ∈ range (dropM 1e-9 A).nr, -r.piIneq i * (dropM 1e-9 A).e i j
        = - ∑ i ∈ range M.ineqs.length, r.piIneq i * (M.ineqs.getD i ⟨[], 0⟩).coef j := by
      rw [hlen, ← Finset.sum_neg_distrib]
      refine Finset.sum_congr rfl fun i hi => ?_
      rw [hgetD i (mem_range.1 hi), rowExpr_coef _ _ _ _ hj']
      simp [dropM]
    have e2 : Spec.eqGrad (C.map (dropM 1e-9)) mu j
        = - ∑ i ∈ range M.eqs.length, r.piEq i * (M.eqs.getD i ⟨[], 0⟩).coef j := by
      match C, d, hs with
      | none, none, hs =>
        rw [hB.eqs]; simp [eqRows, Spec.eqGrad]
      | some C, some d, hs =>
        have hl : M.eqs.length = C.nr := by rw [hB.eqs]; simp [eqRows]
        by_cases h0 : C.nr > 0
        · have : mu = some ⟨C.nr, fun i => - r.piEq i⟩ := by
            simp only [Grb.eqMultipliers, if_pos h0, hl, if_neg (lt_irrefl _)] at hmu
            cases hmu; rfl
          rw [this, hl]
          simp only [Option.map, Spec.eqGrad]
          rw [← Finset.sum_neg_distrib]
          refine Finset.sum_congr rfl fun i hi => ?_
          have : M.eqs.getD i ⟨[], 0⟩ = rowExpr C d.neg 1e-9 i := by
            rw [hB.eqs]; simp [eqRows, List.getD, mem_range.1 hi]
          rw [this, rowExpr_coef _ _ _ _ (by rw [hs.2.2.1, ← hAn]; exact hj')]
          simp [dropM]
        · have hz : C.nr = 0 := by omega
          rw [hl, hz]
          cases mu <;> simp [Spec.eqGrad, dropM, hz]
    rw [e1, e2, h2 j hjn]; ring
  · intro i hi
    have := (h1 i (by rw [hlen]; exact hi)).1
    simpa using this
  · intro i hi
    have hi' : i < A.nr := hi
    have h3 := (h1 i (by rw [hlen]; exact hi')).2
    rw [hget, rowExpr_eval, Vec.neg_e, drop_neg] at h3
    show -r.piIneq i * (drop 1e-9 (b.e i) - ∑ j ∈ range A.nc, drop 1e-9 (A.e i j) * r.x.e j) = 0
    linarith

/-- without tiny entries nothing is dropped -/
theorem drop_eq {a : ℝ} (h : a = 0 ∨ 1e-9 < |a|) : drop 1e-9 a = a := by
  rcases h with h | h
  · subst h; simp [drop]
  · simp [drop, h]

theorem feasible_drop (hs : Spec.ConstrShape n A b C d) (hA : NoTinyM 1e-9 A) (hb : NoTinyV 1e-9 b)
    (hC : ∀ C', C = some C' → NoTinyM 1e-9 C') (hd : ∀ d', d = some d' → NoTinyV 1e-9 d') (x : Vec ℝ) :
    Spec.Feasible (dropM 1e-9 A) (dropV 1e-9 b) (C.map (dropM 1e-9)) (d.map (dropV 1e-9)) x
      ↔ Spec.Feasible A b C d x := by
  refine and_congr ?_ ?_
  · refine forall_congr' fun i => forall_congr' fun hi => ?_
    have hi' : i < A.nr := hi
    have e1 : ∑ j ∈ range (dropM 1e-9 A).nc, (dropM 1e-9 A).e i j * x.e j
        = ∑ j ∈ range A.nc, A.e i j * x.e j :=
      Finset.sum_congr rfl fun j hj => by
        rw [show (dropM 1e-9 A).e i j = A.e i j from drop_eq (hA i hi' j (mem_range.1 hj))]
    have e2 : (dropV 1e-9 b).e i = b.e i := drop_eq (hb i (by rw [shape_bn hs]; exact hi'))
    rw [e1, e2]
  · match C, d, hs, hC, hd with
    | none, none, _, _, _ => exact Iff.rfl
    | some C, some d, hs, hC, hd =>
      refine forall_congr' fun i => forall_congr' fun hi => ?_
      have hi' : i < C.nr := hi
      have e1 : ∑ j ∈ range (dropM 1e-9 C).nc, (dropM 1e-9 C).e i j * x.e j
          = ∑ j ∈ range C.nc, C.e i j * x.e j :=
        Finset.sum_congr rfl fun j hj => by
          rw [show (dropM 1e-9 C).e i j = C.e i j from drop_eq (hC C rfl i hi' j (mem_range.1 hj))]
      have e2 : (dropV 1e-9 d).e i = d.e i := drop_eq (hd d rfl i (by rw [hs.2.2.2]; exact hi'))
      rw [e1, e2]

theorem qpCost_drop {H : Mat ℝ} (hH : NoTinyM 1e-9 H) (hf : NoTinyV 1e-9 f) (x : Vec ℝ) :
    Spec.qpCost (dropM 1e-9 H) (dropV 1e-9 f) x = Spec.qpCost H f x := by
  unfold Spec.qpCost
  congr 1
  · congr 1
    refine Finset.sum_congr rfl fun i hi => Finset.sum_congr rfl fun j hj => ?_
    rw [show (dropM 1e-9 H).e i j = H.e i j from drop_eq (hH i (mem_range.1 hi) j (mem_range.1 hj))]
  · refine Finset.sum_congr rfl fun j hj => ?_
    rw [show (dropV 1e-9 f).e j = f.e j from drop_eq (hf j (mem_range.1 hj))]

theorem lpCost_drop (hf : NoTinyV 1e-9 f) (x : Vec ℝ) :
    Spec.lpCost (dropV 1e-9 f) x = Spec.lpCost f x :=
  Finset.sum_congr rfl fun j hj => by
    rw [show (dropV 1e-9 f).e j = f.e j from drop_eq (hf j (mem_range.1 hj))]

theorem kkt_drop (hs : Spec.ConstrShape n A b C d) (hA : NoTinyM 1e-9 A) (hb : NoTinyV 1e-9 b)
    (hC : ∀ C', C = some C' → NoTinyM 1e-9 C') {g g' : ℕ → ℝ} (hg : ∀ j < n, g j = g' j)
    {x lam : Vec ℝ} {mu : Option (Vec ℝ)}
    (h : Spec.KKT g (dropM 1e-9 A) (dropV 1e-9 b) (C.map (dropM 1e-9)) x lam mu) :
    Spec.KKT g' A b C x lam mu := by
  have hAn := shape_nc hs
  refine ⟨h.size, ?_, ?_, h.nonneg, ?_⟩
  · intro C' hC' h0
    exact h.sizeEq (dropM 1e-9 C') (by rw [hC']; rfl) h0
  · intro j hj
    have h1 := h.stat j hj
    have e1 : ∑ i ∈ range (dropM 1e-9 A).nr, lam.e i * (dropM 1e-9 A).e i j
        = ∑ i ∈ range A.nr, lam.e i * A.e i j :=
      Finset.sum_congr rfl fun i hi => by
        rw [show (dropM 1e-9 A).e i j = A.e i j from drop_eq (hA i (mem_range.1 hi) j hj)]
    have e2 : Spec.eqGrad (C.map (dropM 1e-9)) mu j = Spec.eqGrad C mu j := by
      match C, d, mu, hs, hC with
      | none, none, _, _, _ => rfl
      | some C, some d, none, _, _ => rfl
      | some C, some d, some mu, hs, hC =>
        refine Finset.sum_congr rfl fun i hi => ?_
        rw [show (dropM 1e-9 C).e i j = C.e i j from
          drop_eq (hC C rfl i (mem_range.1 hi) j (by rw [hs.2.2.1, ← hAn]; exact hj))]
    rw [e1, e2, hg j (by rw [← hAn]; exact hj)] at h1
    exact h1
  · intro i hi
    have h1 := h.compl i hi
    have e1 : ∑ j ∈ range (dropM 1e-9 A).nc, (dropM 1e-9 A).e i j * x.e j
        = ∑ j ∈ range A.nc, A.e i j * x.e j :=
      Finset.sum_congr rfl fun j hj => by
        rw [show (dropM 1e-9 A).e i j = A.e i j from drop_eq (hA i hi j (mem_range.1 hj))]
    rw [e1, show (dropV 1e-9 b).e i = b.e i from drop_eq (hb i (by rw [shape_bn hs]; exact hi))] at h1
    exact h1

/-- `eqMultipliers` does not raise on well shaped data -/
theorem eqMultipliers_ok {H : Option (Mat ℝ)} (hB : Built n H f A b C d M)
    (hs : Spec.ConstrShape n A b C d) (r : GResult) : ∃ mu, Grb.eqMultipliers M r C = .ok mu := by
  match C, hs with
  | none, _ => exact ⟨none, rfl⟩
  | some C, hs =>
    by_cases h0 : C.nr > 0
    · have hl : M.eqs.length = C.nr := by rw [hB.eqs]; exact eqs_len hs C rfl
      exact ⟨some ⟨C.nr, fun i => - r.piEq i⟩, by
        simp only [Grb.eqMultipliers, if_pos h0, hl, if_neg (lt_irrefl _)]⟩
    · exact ⟨none, by simp only [Grb.eqMultipliers, if_neg h0]⟩

theorem reorganize_some {H : Option (Mat ℝ)} (hB : Built n H f A b C d M)
    {G : Gurobi} {r : GResult} (hr : G.optimize M = some r) {mu : Option (Vec ℝ)}
    (hmu : Grb.eqMultipliers M r C = .ok mu) :
    Grb.reorganize G M A C = .ok ⟨some r.objVal, some r.x, none,
      some ⟨A.nr, fun i => - r.piIneq i⟩, mu⟩ := by
  have hl : ¬ A.nr > M.ineqs.length := by rw [hB.ineqs]; simp
  unfold Grb.reorganize
  rw [hr]
  simp only [if_neg hl, hmu, Py.ok_bind]
  rfl

theorem grb_qp_run {G : Gurobi} {H : Mat ℝ} (hr : H.nr = n)
    (hc : H.nc = n) (hf : f.n = n) (hs : Spec.ConstrShape n A b C d) (tol : ℝ) :
    ∃ M, Grb.build_model (some H) f A b C d = .ok M ∧ Built n (some H) f A b C d M ∧
      ((G.optimize M = none ∧ Grb.quadratic_program G H f A b C d tol = .ok Sol.none) ∨
      ∃ r mu, G.optimize M = some r ∧ Grb.eqMultipliers M r C = .ok mu ∧
        Grb.quadratic_program G H f A b C d tol = .ok ⟨some r.objVal, some r.x,
          some (whereGt ⟨A.nr, fun i => - r.piIneq i⟩ tol),
          some ⟨A.nr, fun i => - r.piIneq i⟩, mu⟩) := by
  obtain ⟨M, hM, hB⟩ := build_model_ok hf (fun H' h => by cases h; exact ⟨hr, hc⟩) hs (H := some H)
  refine ⟨M, hM, hB, ?_⟩
  cases h : G.optimize M with
  | none =>
    left
    refine ⟨rfl, ?_⟩
    have : Grb.reorganize G M A C = .ok Sol.none := by unfold Grb.reorganize; rw [h]
    unfold Grb.quadratic_program
    rw [hM, Py.ok_bind, this, Py.ok_bind, h]
    rfl
  | some r =>
    right
    obtain ⟨mu, hmu⟩ := eqMultipliers_ok hB hs r
    refine ⟨r, mu, rfl, hmu, ?_⟩
    unfold Grb.quadratic_program
    rw [hM, Py.ok_bind, reorganize_some hB h hmu, Py.ok_bind, h]
    rfl

theorem grb_lp_run {G : Gurobi} (hf : f.n = n) (hs : Spec.ConstrShape n A b C d) :
    ∃ M, Grb.build_model none f A b C d = .ok M ∧ Built n none f A b C d M ∧
      ((G.optimize M = none ∧ Grb.linear_program G f A b C d = .ok Sol.none) ∨
      ∃ r mu, G.optimize M = some r ∧ Grb.eqMultipliers M r C = .ok mu ∧
        Grb.linear_program G f A b C d = .ok ⟨some r.objVal, some r.x,
          some ((List.range A.nr).filter fun i => decide (r.cbasis i = -1)),
          some ⟨A.nr, fun i => - r.piIneq i⟩, mu⟩) := by
  obtain ⟨M, hM, hB⟩ := build_model_ok hf (fun H' h => by cases h) hs (H := none)
  refine ⟨M, hM, hB, ?_⟩
  cases h : G.optimize M with
  | none =>
    left
    refine ⟨rfl, ?_⟩
    have : Grb.reorganize G M A C = .ok Sol.none := by unfold Grb.reorganize; rw [h]
    unfold Grb.linear_program
    rw [hM, Py.ok_bind, this, Py.ok_bind, h]
    rfl
  | some r =>
    right
    obtain ⟨mu, hmu⟩ := eqMultipliers_ok hB hs r
    refine ⟨r, mu, rfl, hmu, ?_⟩
    unfold Grb.linear_program
    rw [hM, Py.ok_bind, reorganize_some hB h hmu, Py.ok_bind, h]
    rfl

end Verif
