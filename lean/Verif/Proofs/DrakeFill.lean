import Verif.Proofs.DrakeProg
import Verif.Spec.NearActive

/- The fields of the answers of the drake backend, without assumptions on the active constraints. -/
namespace Verif.Drake
open Finset Matrix Classical

theorem mem_near {A : Mat ℝ} {b x : Vec ℝ} {tol : ℝ} (i : ℕ) :
    i ∈ nearActive A b x tol ↔ i < A.nr ∧ b.e i - tol < ∑ j ∈ range A.nc, A.e i j * x.e j := by
  simp only [nearActive, List.mem_filter, List.mem_range, decide_eq_true_eq, gt_iff_lt]
  refine and_congr_right fun _ => ?_
  show -tol < ∑ j ∈ range A.nc, A.e i j * x.e j - b.e i ↔ _
  constructor <;> intro h <;> linarith

theorem near_nodup {A : Mat ℝ} {b x : Vec ℝ} {tol : ℝ} : (nearActive A b x tol).Nodup := List.Nodup.filter _ List.nodup_range

/-- a combination of the stacked rows -/
theorem stack_comb {n : ℕ} {A : Mat ℝ} {b : Vec ℝ} {C : Option (Mat ℝ)} {d : Option (Vec ℝ)} (hs : Spec.ConstrShape n A b C d) {act : List ℕ} {l : Mat ℝ}
    {r : Vec ℝ} (hA : ActStack n A b C d act l r) (m : ℕ → ℝ) (j : ℕ) : ∑ i ∈ range (act.length + nEq C), l.e i j * m i =
      ∑ i ∈ range act.length, A.e (act.getD i 0) j * m i + Spec.eqGrad C (some ⟨nEq C, fun i => m (act.length + i)⟩) j := by
  rw [Finset.sum_range_add]
  congr 1
  · exact Finset.sum_congr rfl fun i hi => by rw [hA.rowA i (mem_range.1 hi)]
  · rcases shape_cases hs with ⟨hC, hd⟩ | ⟨C', d', hC, hd, _, _⟩
    · simp [hC, nEq, Spec.eqGrad]
    · have hqC : nEq C = C'.nr := by rw [hC]; rfl
      have h6 : Spec.eqGrad C (some ⟨nEq C, fun i => m (act.length + i)⟩) j = ∑ i ∈ range C'.nr, m (act.length + i) * C'.e i j := by rw [hC]; rfl
      rw [h6, ← hqC]
      refine Finset.sum_congr rfl fun i hi => ?_
      have hi' := mem_range.1 hi
      rw [(hA.rowC C' d' hC hd i (by omega)).1, mul_comm]

theorem scatter_get {N : ℕ} {act : List ℕ} (hnd : act.Nodup) (m : Vec ℝ) {i : ℕ} (hi : i < act.length) :
    (scatter N act m).e (act.getD i 0) = m.e i := by
  have hm : act.getD i 0 = act[i] := getD_getElem hi
  have : act.getD i 0 ∈ act := by rw [hm]; exact List.getElem_mem hi
  show (if act.getD i 0 ∈ act then m.e (act.idxOf (act.getD i 0)) else 0) = _
  rw [if_pos this, hm, hnd.idxOf_getElem i hi]

theorem scatter_off {N : ℕ} {act : List ℕ} (m : Vec ℝ) {i : ℕ} (hi : i ∉ act) : (scatter N act m).e i = 0 := if_neg hi

/-- the combination with the multipliers of the code -/
theorem scatter_comb {A : Mat ℝ} {act : List ℕ} (hnd : act.Nodup) (hlt : ∀ i ∈ act, i < A.nr) (m : Vec ℝ) (j : ℕ) :
    ∑ i ∈ range act.length, A.e (act.getD i 0) j * m.e i = ∑ i ∈ range A.nr, (scatter A.nr act m).e i * A.e i j := by
  rw [← sum_range_eq_list hnd hlt (fun i => (scatter A.nr act m).e i * A.e i j) fun i _ h => by simp [scatter_off m h]]
  refine Finset.sum_congr rfl fun i hi => ?_
  rw [scatter_get hnd m (mem_range.1 hi), mul_comm]

theorem transpose_mulVec {l : Mat ℝ} {N n : ℕ} (m : Fin N → ℝ) (j : Fin n) :
    ((l.asM N n)ᵀ *ᵥ m) j = ∑ i ∈ range N, l.e i j * (Vec.ofFn m).e i := by
  rw [Finset.sum_range]
  simp [Matrix.mulVec, dotProduct, Vec.ofFn_e, Mat.asM]

/-- the stacked rows are independent exactly if the nearly active constraints are -/
theorem near_indep {n : ℕ} {A : Mat ℝ} {b : Vec ℝ} {C : Option (Mat ℝ)} {d : Option (Vec ℝ)} (hs : Spec.ConstrShape n A b C d) {x : Vec ℝ} {tol : ℝ}
    {act : List ℕ} (hact : act = nearActive A b x tol) {l : Mat ℝ} {r : Vec ℝ} (hA : ActStack n A b C d act l r) :
    (∀ m : Fin (act.length + nEq C) → ℝ, (l.asM (act.length + nEq C) n)ᵀ *ᵥ m = 0 → m = 0) ↔ Spec.NearIndep tol n A b C x := by
  have hnd : act.Nodup := hact ▸ near_nodup
  have hmem : ∀ i, i ∈ act ↔ i < A.nr ∧ b.e i - tol < ∑ j ∈ range A.nc, A.e i j * x.e j := fun i => hact ▸ mem_near i
  have hlt : ∀ i ∈ act, i < A.nr := fun i hi => ((hmem i).1 hi).1
  constructor
  · intro h lam mu h1 h2
    have hoff : ∀ i < A.nr, i ∉ act → lam.e i = 0 := fun i hi hn => by
      by_contra hne
      exact hn ((hmem i).2 ⟨hi, h1 i hi hne⟩)
    let m : Fin (act.length + nEq C) → ℝ := fun i => if (i : ℕ) < act.length then lam.e (act.getD i 0) else mu.e (i - act.length)
    have hme : ∀ i (hi : i < act.length + nEq C), (Vec.ofFn m).e i = if i < act.length then lam.e (act.getD i 0) else mu.e (i - act.length) :=
      fun i hi => Vec.ofFn_e m ⟨i, hi⟩
    have hm : m = 0 := by
      refine h m ?_
      funext j
      rw [transpose_mulVec, stack_comb hs hA]
      have e1 : ∑ i ∈ range act.length, A.e (act.getD i 0) j * (Vec.ofFn m).e i = ∑ i ∈ range A.nr, lam.e i * A.e i j := by
        rw [← sum_range_eq_list hnd hlt (fun i => lam.e i * A.e i j) fun i hi hn => by simp [hoff i hi hn]]
        refine Finset.sum_congr rfl fun i hi => ?_
        have hi := mem_range.1 hi
        rw [hme i (by omega), if_pos hi, mul_comm]
      have e2 : Spec.eqGrad C (some ⟨nEq C, fun i => (Vec.ofFn m).e (act.length + i)⟩) j = Spec.eqGrad C (some mu) j := by
        cases C with
        | none => rfl
        | some C' =>
          refine Finset.sum_congr rfl fun i hi => ?_
          have hi := mem_range.1 hi
          show (Vec.ofFn m).e (act.length + i) * _ = _
          rw [hme _ (by show act.length + i < act.length + C'.nr; omega), if_neg (by omega), Nat.add_sub_cancel_left]
      rw [e1, e2]
      exact h2 j j.2
    constructor
    · intro i hi
      by_cases hia : i ∈ act
      · have h3 : act.idxOf i < act.length := List.idxOf_lt_length_iff.2 hia
        have h4 : m ⟨act.idxOf i, by omega⟩ = 0 := by rw [hm]; rfl
        have h5 : m ⟨act.idxOf i, by omega⟩ = lam.e i := by
          show (if act.idxOf i < act.length then lam.e (act.getD (act.idxOf i) 0) else _) = _
          rw [if_pos h3, getD_getElem h3, List.getElem_idxOf h3]
        rw [← h5, h4]
      · exact hoff i hi hia
    · intro C' hC i hi
      have hq : nEq C = C'.nr := by rw [hC]; rfl
      have h4 : m ⟨act.length + i, by omega⟩ = 0 := by rw [hm]; rfl
      have h5 : m ⟨act.length + i, by omega⟩ = mu.e i := by
        show (if act.length + i < act.length then _ else mu.e (act.length + i - act.length)) = _
        rw [if_neg (by omega), Nat.add_sub_cancel_left]
      rw [← h5, h4]
  · intro h m hm
    have h1 : ∀ j < n, ∑ i ∈ range A.nr, (scatter A.nr act (Vec.ofFn m)).e i * A.e i j +
        Spec.eqGrad C (some ⟨nEq C, fun i => (Vec.ofFn m).e (act.length + i)⟩) j = 0 := by
      intro j hj
      rw [← scatter_comb hnd hlt, ← stack_comb hs hA, ← transpose_mulVec m ⟨j, hj⟩, hm]
      rfl
    obtain ⟨k1, k2⟩ := h _ _ (fun i hi hne => ((hmem i).1 (by by_contra hn; exact hne (scatter_off _ hn))).2) h1
    funext i
    by_cases hi : (i : ℕ) < act.length
    · have h2 := k1 _ (hlt (act.getD i 0) (by rw [getD_getElem hi]; exact List.getElem_mem hi))
      rw [scatter_get hnd _ hi, Vec.ofFn_e] at h2
      exact h2
    · have hi2 : (i : ℕ) - act.length < nEq C := by have := i.2; omega
      cases C with
      | none => exact absurd hi2 (Nat.not_lt_zero _)
      | some C' =>
        have h2 : (Vec.ofFn m).e (act.length + (i - act.length)) = 0 := k2 C' rfl _ hi2
        rw [show act.length + ((i : ℕ) - act.length) = i by omega, Vec.ofFn_e] at h2
        exact h2

/-- `np.hstack((M, C.T))` is the transpose of the stacked rows -/
theorem hstackActive_ok {n : ℕ} {A : Mat ℝ} {b : Vec ℝ} {C : Option (Mat ℝ)} {d : Option (Vec ℝ)} (hs : Spec.ConstrShape n A b C d) {act : List ℕ} {l : Mat ℝ}
    {r : Vec ℝ} (hA : ActStack n A b C d act l r) : ∃ M, hstackActive (A.rows act).T C (nEq C) = .ok M ∧ M.nr = n ∧
      M.nc = act.length + nEq C ∧ M.asM n (act.length + nEq C) = (l.asM (act.length + nEq C) n)ᵀ := by
  have hAn := shape_nc hs
  obtain ⟨M, h1, h2, h3, h4⟩ : ∃ M, hstackActive (A.rows act).T C (nEq C) = .ok M ∧ M.nr = n ∧
      M.nc = act.length + nEq C ∧ ∀ i < act.length + nEq C, ∀ j < n, M.e j i = l.e i j := by
    rcases shape_cases hs with ⟨hC, hd⟩ | ⟨C', d', hC, hd, hCn, _⟩
    · have hq : nEq C = 0 := by rw [hC]; rfl
      refine ⟨(A.rows act).T, by rw [hC]; rfl, hAn, by rw [hq]; rfl, fun i hi j _ => ?_⟩
      exact (hA.rowA i (by omega) j).symm
    · have hq : nEq C = C'.nr := by rw [hC]; rfl
      by_cases h0 : nEq C > 0
      · have h1 : (A.rows act).T.nr = C'.T.nr := hAn.trans hCn.symm
        refine ⟨(A.rows act).T.happ C'.T, ?_, hAn, by rw [hq]; rfl, fun i hi j _ => ?_⟩
        · rw [hC] at h0 ⊢
          simp only [hstackActive, if_pos h0, np.hstack, Py.ok_bind, np.hstack2, if_pos h1]
        · by_cases hi' : i < act.length
          · rw [Mat.happ_e_lt _ _ _ (show i < (A.rows act).T.nc from hi')]
            exact (hA.rowA i hi' j).symm
          · have e : i = act.length + (i - act.length) := by omega
            have h2 := (hA.rowC C' d' hC hd (i - act.length) (by omega)).1 j
            rw [← e] at h2
            rw [h2, e]
            exact Mat.happ_e_add (A.rows act).T C'.T j _ |>.trans (by rw [← e]; rfl)
      · refine ⟨(A.rows act).T, ?_, hAn, ?_, fun i hi j _ => (hA.rowA i (by omega) j).symm⟩
        · rw [hC] at h0 ⊢
          simp only [hstackActive, if_neg h0]
        · show act.length = _
          omega
  exact ⟨M, h1, h2, h3, by ext j i; exact h4 i i.2 j j.2⟩

/-- the answer of `linear_program` at a point that is found -/
theorem lp_fill {L : Lib} (hL : LibSpec L) {n : ℕ} {f : Vec ℝ} {A : Mat ℝ} {b : Vec ℝ} {C : Option (Mat ℝ)}
    {d : Option (Vec ℝ)} (hf : f.n = n) (hs : Spec.ConstrShape n A b C d) {x : Vec ℝ} (hxn : x.n = n) (tol : ℝ) :
    ∃ lam mu, linear_program L (some x) f A b C d tol = .ok ⟨some (Spec.lpCost f x), some x, some (nearActive A b x tol), some lam, mu⟩ ∧
      lam.n = A.nr ∧ (∀ i, i ∉ nearActive A b x tol → lam.e i = 0) ∧ (mu.isSome ↔ 0 < nEq C) ∧ (∀ m, mu = some m → m.n = nEq C) ∧
      (Spec.IsLpOpt f A b C d x → 0 < tol → ∀ j < n, f.e j + ∑ i ∈ range A.nr, lam.e i * A.e i j + Spec.eqGrad C mu j = 0) := by
  have hAn := shape_nc hs
  have hbn := shape_bn hs
  obtain ⟨act, hact⟩ : ∃ act, act = nearActive A b x tol := ⟨_, rfl⟩
  have hnd : act.Nodup := hact ▸ near_nodup
  have hmem : ∀ i, i ∈ act ↔ i < A.nr ∧ b.e i - tol < ∑ j ∈ range A.nc, A.e i j * x.e j := fun i => hact ▸ mem_near i
  have hlt : ∀ i ∈ act, i < A.nr := fun i hi => ((hmem i).1 hi).1
  obtain ⟨l, r, -, hA⟩ := stackActive_ok hs act
  obtain ⟨M, hM, hMr, hMc, hMt⟩ := hstackActive_ok hs hA
  have e3 : np.dotVV f x = .ok (f.dot x) := if_pos (hf.trans hxn.symm)
  have e4 : np.dotMV A x = .ok (A.mulVec x) := if_pos (hAn.trans hxn.symm)
  have e5 : np.subV (A.mulVec x) b = .ok ((A.mulVec x).sub b) := if_pos hbn.symm
  have e6 : np.rows A act = .ok (A.rows act) := if_pos fun i hi => hlt i hi
  have p1 := hL.pinv_1 M
  have pr := hL.pinv_nr M
  have pc := hL.pinv_nc M
  rw [hMr, hMc] at p1
  rw [hMc] at pr
  rw [hMr] at pc
  set m0 := (L.pinv M).mulVec f with hm0
  have e7 : np.dotMV (L.pinv M) f = .ok m0 := if_pos (pc.trans hf.symm)
  have hCd : ¬ (C.isNone ≠ d.isNone) := by
    rcases shape_cases hs with ⟨hC, hd⟩ | ⟨C', d', hC, hd, _, _⟩ <;> rw [hC, hd] <;> simp
  refine ⟨scatter A.nr act m0.neg, if nEq C > 0 then some (m0.neg.dropN act.length) else none, ?_, rfl, fun i hi => scatter_off _ (hact ▸ hi), ?_,
    ?_, ?_⟩
  · unfold linear_program
    rw [if_neg hCd]
    show lpFill L f A b C (nEq C) x tol = _
    unfold lpFill
    simp only [e3, e4, e5, Py.ok_bind, nearWhere_sub, ← hact, e6, hM, e7]
    rfl
  · split_ifs with h <;> simp [h]
  · intro m hm
    split_ifs at hm with h
    cases hm
    show (L.pinv M).nr - act.length = _
    rw [pr]; omega
  · intro hopt htol j hj
    obtain ⟨lam0, mu0, hk⟩ := kkt_of_first_order hf hs hopt
    -- the gradient is a combination of the stacked rows
    have hoff : ∀ i < A.nr, i ∉ act → lam0.e i = 0 := by
      intro i hi hni
      rcases mul_eq_zero.1 (hk.compl i hi) with h | h
      · exact h
      · exact absurd ((hmem i).2 ⟨hi, by linarith⟩) hni
    obtain ⟨v, hv⟩ : ∃ v : ℕ → ℝ, ∀ j, Spec.eqGrad C (some ⟨nEq C, v⟩) j = Spec.eqGrad C mu0 j := by
      match mu0 with
      | some m => exact ⟨m.e, fun j => by cases C <;> rfl⟩
      | none => exact ⟨fun _ => 0, fun j => by cases C <;> simp [Spec.eqGrad]⟩
    let m : Fin (act.length + nEq C) → ℝ := fun i => if (i : ℕ) < act.length then lam0.e (act.getD i 0) else v (i - act.length)
    have hme : ∀ i (hi : i < act.length + nEq C), (Vec.ofFn m).e i = if i < act.length then lam0.e (act.getD i 0) else v (i - act.length) :=
      fun i hi => Vec.ofFn_e m ⟨i, hi⟩
    have hst : f.asV n = -(M.asM n (act.length + nEq C) *ᵥ m) := by
      funext j
      rw [hMt, Pi.neg_apply, transpose_mulVec, stack_comb hs hA]
      have e1 : ∑ i ∈ range act.length, A.e (act.getD i 0) j * (Vec.ofFn m).e i = ∑ i ∈ range A.nr, lam0.e i * A.e i j := by
        rw [← sum_range_eq_list hnd hlt (fun i => lam0.e i * A.e i j) fun i hi hn => by simp [hoff i hi hn]]
        refine Finset.sum_congr rfl fun i hi => ?_
        have hi := mem_range.1 hi
        rw [hme i (by omega), if_pos hi, mul_comm]
      have e2 : Spec.eqGrad C (some ⟨nEq C, fun i => (Vec.ofFn m).e (act.length + i)⟩) j = Spec.eqGrad C mu0 j := by
        rw [← hv]
        cases C with
        | none => rfl
        | some C' =>
          refine Finset.sum_congr rfl fun i hi => ?_
          have hi := mem_range.1 hi
          show (Vec.ofFn m).e (act.length + i) * _ = _
          rw [hme _ (by show act.length + i < act.length + C'.nr; omega), if_neg (by omega), Nat.add_sub_cancel_left]
      rw [e1, e2]
      have := hk.stat j (by rw [hAn]; exact j.2)
      show f.e j = _
      linarith
    have hsol : M.asM n (act.length + nEq C) *ᵥ (m0.neg).asV (act.length + nEq C) = -(f.asV n) := by
      have h1 : m0.neg.asV (act.length + nEq C) = -(m0.asV (act.length + nEq C)) := rfl
      rw [h1, hm0, Mat.asV_mulVec _ f (act.length + nEq C) pc, hst]
      simp only [mulVec_neg, neg_neg, mulVec_mulVec, ← Matrix.mul_assoc, p1]
    have h2 := congrFun hsol ⟨j, hj⟩
    rw [hMt, transpose_mulVec] at h2
    have h4 : ∑ i ∈ range (act.length + nEq C), l.e i j * (Vec.ofFn ((m0.neg).asV (act.length + nEq C))).e i =
        ∑ i ∈ range (act.length + nEq C), l.e i j * m0.neg.e i := by
      refine Finset.sum_congr rfl fun i hi => ?_
      rw [show (Vec.ofFn ((m0.neg).asV (act.length + nEq C))).e i = _ from Vec.ofFn_e _ ⟨i, mem_range.1 hi⟩]
      rfl
    have h5 : Spec.eqGrad C (if nEq C > 0 then some (m0.neg.dropN act.length) else none) j =
        Spec.eqGrad C (some ⟨nEq C, fun i => m0.neg.e (act.length + i)⟩) j := by
      cases C with
      | none => split_ifs <;> rfl
      | some C' =>
        split_ifs with h
        · rfl
        · show 0 = ∑ i ∈ range C'.nr, _
          rw [show C'.nr = 0 from Nat.eq_zero_of_not_pos h]; rfl
    rw [h4, stack_comb hs hA, scatter_comb hnd hlt m0.neg j] at h2
    rw [h5]
    have h6 : (-(f.asV n)) ⟨j, hj⟩ = - f.e j := rfl
    rw [h6] at h2
    linarith

/-- the answer of `quadratic_program` at a point that is found: an exception exactly if the nearly active constraints are dependent -/
theorem qp_fill {n : ℕ} {H : Mat ℝ} {f : Vec ℝ} {A : Mat ℝ} {b : Vec ℝ} {C : Option (Mat ℝ)}
    {d : Option (Vec ℝ)} (hH : Spec.SymPosDef n H) (hf : f.n = n) (hs : Spec.ConstrShape n A b C d) {x : Vec ℝ} (hxn : x.n = n) (tol : ℝ) :
    (Spec.NearIndep tol n A b C x → ∃ lam mu, quadratic_program (some x) H f A b C d tol =
      .ok ⟨some (Spec.qpCost H f x), some x, some (nearActive A b x tol), some lam, mu⟩) ∧
    (¬ Spec.NearIndep tol n A b C x → quadratic_program (some x) H f A b C d tol = .error .linAlgError) := by
  have hAn := shape_nc hs
  have hbn := shape_bn hs
  have hPD := posDef_asM hH
  obtain ⟨act, hact⟩ : ∃ act, act = nearActive A b x tol := ⟨_, rfl⟩
  have hlt : ∀ i ∈ act, i < A.nr := fun i hi => ((mem_near i).1 (hact ▸ hi)).1
  obtain ⟨l, r, hlr, hA⟩ := stackActive_ok hs act
  rw [← near_indep hs hact hA]
  have hHdet : (H.asM n n).det ≠ 0 := ((Matrix.isUnit_iff_isUnit_det _).1 hPD.isUnit).ne_zero
  set Hi := Mat.ofM (H.asM n n)⁻¹ with hHi
  set lH := l.mul Hi with hlH
  set M := lH.mul l.T with hM
  have hHiM : Hi.asM n n = (H.asM n n)⁻¹ := Mat.ofM_asM _
  have hlHM : lH.asM (act.length + nEq C) n = l.asM (act.length + nEq C) n * (H.asM n n)⁻¹ := by
    rw [hlH, Mat.asM_mul l Hi (act.length + nEq C) n hA.nc, hHiM]
  have hMM : M.asM (act.length + nEq C) (act.length + nEq C) = l.asM (act.length + nEq C) n * (H.asM n n)⁻¹ * (l.asM (act.length + nEq C) n)ᵀ := by
    rw [hM, Mat.asM_mul lH l.T (act.length + nEq C) (act.length + nEq C) (n := n) rfl, hlHM]; rfl
  set g := (lH.mulVec f).add r with hg
  have e1 : np.dotVM x H = .ok (Mat.vecMul x H) := if_pos (hxn.trans hH.nr.symm)
  have e2 : np.dotVV (Mat.vecMul x H) x = .ok ((Mat.vecMul x H).dot x) := if_pos (hH.nc.trans hxn.symm)
  have e3 : np.dotVV f x = .ok (f.dot x) := if_pos (hf.trans hxn.symm)
  have e4 : np.dotMV A x = .ok (A.mulVec x) := if_pos (hAn.trans hxn.symm)
  have e5 : np.subV (A.mulVec x) b = .ok ((A.mulVec x).sub b) := if_pos hbn.symm
  have e6 : np.rows A act = .ok (A.rows act) := if_pos fun i hi => hlt i hi
  have e7 : np.take b act = .ok (b.take act) := if_pos fun i hi => by
    rw [hbn]; exact hlt i hi
  have e8 : np.inv H = .ok Hi := np_inv_ok hH.nr hH.nc hHdet
  have e9 : np.dotMM l Hi = .ok lH := if_pos hA.nc
  have e10 : np.dotMM lH l.T = .ok M := if_pos (show n = l.nc from hA.nc.symm)
  have e12 : np.dotMV lH f = .ok (lH.mulVec f) := if_pos (show n = f.n from hf.symm)
  have e13 : np.addV (lH.mulVec f) r = .ok g := if_pos (show l.nr = r.n from hA.nr.trans hA.rn.symm)
  have hCd : ¬ (C.isNone ≠ d.isNone) := by
    rcases shape_cases hs with ⟨hC, hd⟩ | ⟨C', d', hC, hd, _, _⟩ <;> rw [hC, hd] <;> simp
  have hcost : 1 / 2 * (Mat.vecMul x H).dot x + f.dot x = Spec.qpCost H f x := by
    have h1 : (Mat.vecMul x H).dot x = ∑ i ∈ range H.nr, ∑ j ∈ range H.nc, x.e i * H.e i j * x.e j := by
      show ∑ j ∈ range H.nc, (∑ i ∈ range x.n, x.e i * H.e i j) * x.e j = _
      rw [hxn.trans hH.nr.symm]
      simp only [Finset.sum_mul]
      exact Finset.sum_comm
    rw [h1]; rfl
  have hrun : quadratic_program (some x) H f A b C d tol = qpFill H f A b C d (nEq C) x tol := by
    unfold quadratic_program
    rw [if_neg hCd]
    rfl
  rw [hrun]
  constructor
  · intro hli
    have hdet : (M.asM (act.length + nEq C) (act.length + nEq C)).det ≠ 0 := by
      rw [hMM]
      have hpd : (l.asM (act.length + nEq C) n * (H.asM n n)⁻¹ * (l.asM (act.length + nEq C) n)ᵀ).PosDef := by
        have := hPD.inv.mul_mul_conjTranspose_same (B := l.asM (act.length + nEq C) n) (by
          intro a b hab
          have h1 : (l.asM (act.length + nEq C) n)ᵀ *ᵥ (a - b) = 0 := by
            rw [mulVec_transpose, sub_vecMul]
            have : a ᵥ* (l.asM (act.length + nEq C) n) = b ᵥ* (l.asM (act.length + nEq C) n) := hab
            rw [this, sub_self]
          exact sub_eq_zero.1 (hli _ h1))
        simpa [conjTranspose_eq_transpose_of_trivial] using this
      exact ((Matrix.isUnit_iff_isUnit_det _).1 hpd.isUnit).ne_zero
    have e11 : np.inv M = .ok _ := np_inv_ok hA.nr hA.nr hdet
    have e14 : np.dotMV (Mat.ofM (M.asM (act.length + nEq C) (act.length + nEq C))⁻¹) g = .ok _ := if_pos (show act.length + nEq C = l.nr from hA.nr.symm)
    refine ⟨scatter A.nr act ((Mat.ofM (M.asM (act.length + nEq C) (act.length + nEq C))⁻¹).mulVec g).neg,
      if nEq C > 0 then some (((Mat.ofM (M.asM (act.length + nEq C) (act.length + nEq C))⁻¹).mulVec g).neg.dropN act.length) else none, ?_⟩
    unfold qpFill
    simp only [e1, e2, e3, e4, e5, Py.ok_bind, nearWhere_sub, ← hact, e6, e7, hlr, e8, e9, e10, e11, e12, e13, e14, hcost]
    rfl
  · intro hli
    push Not at hli
    obtain ⟨m, hm, hm0⟩ := hli
    have hdet : (M.asM M.nr M.nr).det = 0 := by
      have : M.nr = act.length + nEq C := hA.nr
      rw [this, hMM]
      refine Matrix.exists_mulVec_eq_zero_iff.1 ⟨m, hm0, ?_⟩
      rw [← mulVec_mulVec, hm, mulVec_zero]
    have e11 : np.inv M = .error .linAlgError := by
      unfold np.inv
      rw [if_neg (not_not.2 (show M.nr = M.nc from rfl)), if_pos hdet]
    unfold qpFill
    simp only [e1, e2, e3, e4, e5, Py.ok_bind, nearWhere_sub, ← hact, e6, e7, hlr, e8, e9, e10, e11]
    rfl

end Verif.Drake
