import Verif.Model.Drake
import Verif.Proofs.KKTNec

/- The multipliers of the drake backend. -/
namespace Verif
open Finset Matrix Verif.Math Classical

/-- the rows of A x ≤ b within tol of equality -/
noncomputable def Drake.nearActive (A : Mat ℝ) (b x : Vec ℝ) (tol : ℝ) : List ℕ :=
  (List.range A.nr).filter fun i => decide (((A.mulVec x).e i - b.e i) > -tol)

theorem Drake.nearWhere_sub (A : Mat ℝ) (b x : Vec ℝ) (tol : ℝ) :
    Drake.nearWhere ((A.mulVec x).sub b) tol = Drake.nearActive A b x tol := rfl

/-- core: multipliers of an equality constrained problem recovered by the code -/
theorem drake_core {n N : ℕ} {H : Matrix (Fin n) (Fin n) ℝ} (hH : H.PosDef)
    {l : Matrix (Fin N) (Fin n) ℝ} (hl : ∀ m, lᵀ *ᵥ m = 0 → m = 0)
    {x f : Fin n → ℝ} {r m : Fin N → ℝ} (hst : H *ᵥ x + f + lᵀ *ᵥ m = 0) (hx : l *ᵥ x = r) :
    (l * H⁻¹ * lᵀ).det ≠ 0 ∧ m = -((l * H⁻¹ * lᵀ)⁻¹ *ᵥ ((l * H⁻¹) *ᵥ f + r)) := by
  have hu : IsUnit H.det := (Matrix.isUnit_iff_isUnit_det _).1 hH.isUnit
  have hpd : (l * H⁻¹ * lᵀ).PosDef := by
    have := hH.inv.mul_mul_conjTranspose_same (B := l) (by
      intro a b hab
      have h1 : lᵀ *ᵥ (a - b) = 0 := by
        rw [mulVec_transpose, sub_vecMul]
        have : a ᵥ* l = b ᵥ* l := hab
        rw [this, sub_self]
      exact sub_eq_zero.1 (hl _ h1))
    simpa [conjTranspose_eq_transpose_of_trivial] using this
  have hdet : (l * H⁻¹ * lᵀ).det ≠ 0 :=
    ((Matrix.isUnit_iff_isUnit_det _).1 hpd.isUnit).ne_zero
  refine ⟨hdet, ?_⟩
  have h1 : (l * H⁻¹ * lᵀ) *ᵥ m = -((l * H⁻¹) *ᵥ f + r) := by
    have h2 := congrArg (fun v => (l * H⁻¹) *ᵥ v) hst
    simp only [mulVec_add, mulVec_zero, mulVec_mulVec] at h2
    rw [Matrix.mul_assoc l H⁻¹ H, Matrix.nonsing_inv_mul _ hu, Matrix.mul_one, hx] at h2
    rw [eq_neg_iff_add_eq_zero, ← h2]
    abel
  have h3 := congrArg (fun v => (l * H⁻¹ * lᵀ)⁻¹ *ᵥ v) h1
  simp only [mulVec_mulVec, Matrix.nonsing_inv_mul _ (isUnit_iff_ne_zero.2 hdet), one_mulVec,
    mulVec_neg] at h3
  exact h3

theorem getD_getElem {l : List ℕ} {i : ℕ} (hi : i < l.length) : l.getD i 0 = l[i] := by
  simp [List.getD, hi]

/-- sums over a duplicate free list of indices -/
theorem sum_getD_nodup {l : List ℕ} (hl : l.Nodup) (g : ℕ → ℝ) :
    ∑ i ∈ range l.length, g (l.getD i 0) = ∑ i ∈ l.toFinset, g i := by
  rw [List.sum_toFinset g hl]
  clear hl
  induction l with
  | nil => simp
  | cons a l ih =>
    rw [List.length_cons, Finset.sum_range_succ', List.map_cons, List.sum_cons, ← ih, add_comm]
    rfl

/-- a sum over all the indices whose terms vanish off a list -/
theorem sum_range_eq_list {l : List ℕ} (hl : l.Nodup) {n : ℕ} (hn : ∀ i ∈ l, i < n) (g : ℕ → ℝ)
    (h0 : ∀ i < n, i ∉ l → g i = 0) :
    ∑ i ∈ range l.length, g (l.getD i 0) = ∑ i ∈ range n, g i := by
  rw [sum_getD_nodup hl]
  apply Finset.sum_subset
  · intro i hi; exact mem_range.2 (hn i (List.mem_toFinset.1 hi))
  · intro i hi hi'; exact h0 i (mem_range.1 hi) (fun h => hi' (List.mem_toFinset.2 h))

theorem shape_cases {n : ℕ} {A : Mat ℝ} {b : Vec ℝ} {C : Option (Mat ℝ)} {d : Option (Vec ℝ)}
    (hs : Spec.ConstrShape n A b C d) :
    (C = none ∧ d = none) ∨ ∃ C' d', C = some C' ∧ d = some d' ∧ C'.nc = n ∧ d'.n = C'.nr := by
  match C, d, hs with
  | none, none, hs => exact .inl ⟨rfl, rfl⟩
  | some C, some d, hs => exact .inr ⟨C, d, rfl, rfl, hs.2.2.1, hs.2.2.2⟩

/-- number of equalities -/
def nEq (C : Option (Mat ℝ)) : ℕ := match C with | some C => C.nr | none => 0

structure ActStack (n : ℕ) (A : Mat ℝ) (b : Vec ℝ) (C : Option (Mat ℝ)) (d : Option (Vec ℝ))
    (act : List ℕ) (l : Mat ℝ) (r : Vec ℝ) : Prop where
  nr : l.nr = act.length + nEq C
  nc : l.nc = n
  rn : r.n = act.length + nEq C
  rowA : ∀ i < act.length, ∀ j, l.e i j = A.e (act.getD i 0) j
  rhsA : ∀ i < act.length, r.e i = b.e (act.getD i 0)
  rowC : ∀ C' d', C = some C' → d = some d' → ∀ i < C'.nr, (∀ j, l.e (act.length + i) j = C'.e i j) ∧
    r.e (act.length + i) = d'.e i

theorem stackActive_ok {n : ℕ} {A : Mat ℝ} {b : Vec ℝ} {C : Option (Mat ℝ)} {d : Option (Vec ℝ)}
    (hs : Spec.ConstrShape n A b C d) (act : List ℕ) :
    ∃ l r, Drake.stackActive (A.rows act) (b.take act) C d (nEq C) = .ok (l, r) ∧
      ActStack n A b C d act l r := by
  have hAn := shape_nc hs
  match C, d, hs with
  | none, none, hs =>
    exact ⟨_, _, rfl, ⟨rfl, hAn, rfl, fun _ _ _ => rfl, fun _ _ => rfl, fun C' _ h => by cases h⟩⟩
  | some C, some d, hs =>
    by_cases h0 : C.nr > 0
    · have e1 : np.vstack [A.rows act, C] = .ok ((A.rows act).vapp C) := by
        have : (A.rows act).nc = C.nc := hAn.trans hs.2.2.1.symm
        simp only [np.vstack, Py.ok_bind, np.vstack2, if_pos this]
      have e2 : np.concatenate [b.take act, d] = .ok ((b.take act).append d) := rfl
      refine ⟨(A.rows act).vapp C, (b.take act).append d, ?_, ⟨rfl, hAn, ?_, ?_, ?_, ?_⟩⟩
      · simp only [Drake.stackActive, nEq, e1, e2, Py.ok_bind]; exact if_pos h0
      · show act.length + d.n = act.length + C.nr
        rw [hs.2.2.2]
      · intro i hi j; exact (A.rows act).vapp_e_lt C j hi
      · intro i hi; exact (b.take act).append_e_lt d hi
      · rintro C' d' hC hd i hi
        cases hC; cases hd
        exact ⟨fun j => (A.rows act).vapp_e_add C i j, (b.take act).append_e_add d i⟩
    · have hz : C.nr = 0 := by omega
      refine ⟨A.rows act, b.take act, ?_, ⟨?_, hAn, ?_, fun _ _ _ => rfl, fun _ _ => rfl, ?_⟩⟩
      · simp only [Drake.stackActive, nEq]; exact if_neg h0
      · show act.length = act.length + C.nr
        omega
      · show act.length = act.length + C.nr
        omega
      · rintro C' d' hC hd i hi; cases hC; omega

theorem mem_nearActive {A : Mat ℝ} {b x : Vec ℝ} {tol : ℝ} (htol : 0 < tol)
    (hsep : ∀ i < A.nr, -tol < ∑ j ∈ range A.nc, A.e i j * x.e j - b.e i →
      ∑ j ∈ range A.nc, A.e i j * x.e j = b.e i) (i : ℕ) :
    i ∈ Drake.nearActive A b x tol ↔ i < A.nr ∧ ∑ j ∈ range A.nc, A.e i j * x.e j = b.e i := by
  simp only [Drake.nearActive, List.mem_filter, List.mem_range, decide_eq_true_eq, gt_iff_lt]
  constructor
  · rintro ⟨h1, h2⟩; exact ⟨h1, hsep i h1 h2⟩
  · rintro ⟨h1, h2⟩
    refine ⟨h1, ?_⟩
    show -tol < ∑ j ∈ range A.nc, A.e i j * x.e j - b.e i
    rw [h2]; linarith

/-- what the code needs to know about the active constraints at a point with multipliers -/
theorem drake_setup {n : ℕ} {A : Mat ℝ} {b : Vec ℝ} {C : Option (Mat ℝ)}
    {d : Option (Vec ℝ)} (hs : Spec.ConstrShape n A b C d)
    {x : Vec ℝ} {act : List ℕ} (hfeas : Spec.Feasible A b C d x)
    (hind : Spec.ActiveIndep n A b C x) {tol : ℝ} (htol : 0 < tol)
    (hact : act = Drake.nearActive A b x tol)
    (hsep : ∀ i < A.nr, -tol < ∑ j ∈ range A.nc, A.e i j * x.e j - b.e i →
      ∑ j ∈ range A.nc, A.e i j * x.e j = b.e i)
    {g : ℕ → ℝ} {lam0 : Vec ℝ} {mu0 : Option (Vec ℝ)} (hk : Spec.KKT g A b C x lam0 mu0) :
    (∀ i ∈ act, i < A.nr) ∧ act.Nodup ∧
    ∃ l r, Drake.stackActive (A.rows act) (b.take act) C d
        (nEq C) = .ok (l, r) ∧ ActStack n A b C d act l r ∧
      ∃ m : Fin (act.length + nEq C) → ℝ,
        (∀ m', (l.asM (act.length + nEq C) n)ᵀ *ᵥ m' = 0 → m' = 0) ∧
        (fun j : Fin n => g j) + (l.asM (act.length + nEq C) n)ᵀ *ᵥ m = 0 ∧
        l.asM (act.length + nEq C) n *ᵥ x.asV n
          = r.asV (act.length + nEq C) ∧
        ∀ m1 : Vec ℝ, m1.n = act.length + nEq C →
          m = m1.asV (act.length + nEq C) →
          Spec.KKT g A b C x (Drake.scatter A.nr act m1)
            (if nEq C > 0 then some (m1.dropN act.length) else none) := by
  have hAn := shape_nc hs
  have hbn := shape_bn hs
  set k := act.length with hkk
  set q := nEq C with hq
  have hmem : ∀ i, i ∈ act ↔ i < A.nr ∧ ∑ j ∈ range A.nc, A.e i j * x.e j = b.e i := by
    intro i
    simp only [hact, Drake.nearActive, List.mem_filter, List.mem_range, decide_eq_true_eq, gt_iff_lt]
    constructor
    · rintro ⟨h1, h2⟩; exact ⟨h1, hsep i h1 h2⟩
    · rintro ⟨h1, h2⟩
      refine ⟨h1, ?_⟩
      show -tol < ∑ j ∈ range A.nc, A.e i j * x.e j - b.e i
      rw [h2]; linarith
  have hnd : act.Nodup := hact ▸ List.Nodup.filter _ List.nodup_range
  obtain ⟨l, r, hlr, hA⟩ := stackActive_ok hs act
  -- independence of the rows of `l`
  set L := l.asM (k + q) n with hL
  have hsplit : ∀ (m : Fin (k + q) → ℝ) (j : Fin n), (Lᵀ *ᵥ m) j
      = ∑ i ∈ range k, l.e i j * (Vec.ofFn m).e i + ∑ i ∈ range q, l.e (k + i) j * (Vec.ofFn m).e (k + i) := by
    intro m j
    rw [← Finset.sum_range_add (fun i => l.e i j * (Vec.ofFn m).e i) k q, Finset.sum_range]
    simp [Matrix.mulVec, dotProduct, hL, Vec.ofFn_e]
  -- combination of the constraints with weights `w` on the active ones and `v` on the equalities
  have hcomb : ∀ (w v : ℕ → ℝ), (∀ i < A.nr, i ∉ act → w i = 0) → ∀ (m : Fin (k + q) → ℝ),
      (∀ i < k, (Vec.ofFn m).e i = w (act.getD i 0)) → (∀ i < q, (Vec.ofFn m).e (k + i) = v i) →
      ∀ j : Fin n, (Lᵀ *ᵥ m) j = ∑ i ∈ range A.nr, w i * A.e i j + Spec.eqGrad C (some ⟨q, v⟩) j := by
    intro w v hw m h1 h2 j
    rw [hsplit]
    congr 1
    · rw [← sum_range_eq_list hnd (n := A.nr) (fun i hi => ((hmem i).1 hi).1) (fun i => w i * A.e i j)
        (fun i hi hi' => by simp [hw i hi hi'])]
      refine Finset.sum_congr rfl fun i hi => ?_
      rw [h1 i (mem_range.1 hi), hA.rowA i (mem_range.1 hi), mul_comm]
    · rcases shape_cases hs with ⟨hC, hd⟩ | ⟨C', d', hC, hd, _, _⟩
      · simp [hq, hC, nEq, Spec.eqGrad]
      · have hqC : q = C'.nr := by rw [hq, hC]; rfl
        have h6 : Spec.eqGrad C (some ⟨q, v⟩) j = ∑ i ∈ range C'.nr, v i * C'.e i j := by rw [hC]; rfl
        rw [h6, ← hqC]
        refine Finset.sum_congr rfl fun i hi => ?_
        have hi' := mem_range.1 hi
        rw [h2 i hi', (hA.rowC C' d' hC hd i (by omega)).1, mul_comm]
  have hli : ∀ m, Lᵀ *ᵥ m = 0 → m = 0 := by
    intro m hm
    let w : ℕ → ℝ := fun i => if i ∈ act then (Vec.ofFn m).e (act.idxOf i) else 0
    let v : ℕ → ℝ := fun i => (Vec.ofFn m).e (k + i)
    have hw : ∀ i < k, (Vec.ofFn m).e i = w (act.getD i 0) := by
      intro i hi
      have hm : act.getD i 0 = act[i] := getD_getElem hi
      have : act.getD i 0 ∈ act := by rw [hm]; exact List.getElem_mem hi
      simp only [w, if_pos this]
      rw [hm, hnd.idxOf_getElem i hi]
    have h3 := hcomb w v (fun i _ hi => by simp [w, hi]) m hw (fun i _ => rfl)
    obtain ⟨k1, k2⟩ := hind ⟨A.nr, w⟩ ⟨q, v⟩ (fun i hi hne => by
        have : i ∈ act := by by_contra hc; exact hne (by simp [w, hc])
        exact ((hmem i).1 this).2)
      (fun j hj => by rw [← h3 ⟨j, hj⟩, hm]; rfl)
    funext i
    by_cases hi : (i : ℕ) < k
    · have h4 := hw i hi
      have hm' : act.getD i 0 = act[(i : ℕ)] := getD_getElem hi
      have h5 := k1 (act.getD i 0) ((hmem _).1 (by rw [hm']; exact List.getElem_mem hi)).1
      rw [Vec.ofFn_e] at h4
      exact h4.trans h5
    · have hi2 : (i : ℕ) - k < q := by have := i.2; omega
      rcases shape_cases hs with ⟨hC, hd⟩ | ⟨C', d', hC, hd, _, _⟩
      · have hq0 : q = 0 := by rw [hq, hC]; rfl
        omega
      · have hqC : q = C'.nr := by rw [hq, hC]; rfl
        have h5 : (Vec.ofFn m).e (k + (i - k)) = 0 := k2 C' hC (i - k) (by omega)
        rw [show k + ((i : ℕ) - k) = i by omega, Vec.ofFn_e] at h5
        exact h5
  -- the true multipliers
  have hzero : ∀ i < A.nr, i ∉ act → lam0.e i = 0 := by
    intro i hi hni
    rcases mul_eq_zero.1 (hk.compl i hi) with h | h
    · exact h
    · exact absurd ((hmem i).2 ⟨hi, by linarith⟩) hni
  obtain ⟨v, hv⟩ : ∃ v : ℕ → ℝ, ∀ j, Spec.eqGrad C (some ⟨q, v⟩) j = Spec.eqGrad C mu0 j := by
    match mu0 with
    | some m => 
      refine ⟨m.e, fun j => ?_⟩
      rcases shape_cases hs with ⟨hC, hd⟩ | ⟨C', d', hC, hd, _, _⟩
      · rw [hC]; rfl
      · rw [hC]; rfl
    | none =>
      refine ⟨fun _ => 0, fun j => ?_⟩
      rcases shape_cases hs with ⟨hC, hd⟩ | ⟨C', d', hC, hd, _, _⟩
      · rw [hC]; rfl
      · rw [hC]; simp [Spec.eqGrad]
  let m : Fin (k + q) → ℝ := fun i => if (i : ℕ) < k then lam0.e (act.getD i 0) else v (i - k)
  have hme : ∀ i (hi : i < k + q), (Vec.ofFn m).e i = if i < k then lam0.e (act.getD i 0) else v (i - k) :=
    fun i hi => Vec.ofFn_e m ⟨i, hi⟩
  have hm1 : ∀ i < k, (Vec.ofFn m).e i = lam0.e (act.getD i 0) := by
    intro i hi; rw [hme i (by omega), if_pos hi]
  have hm2 : ∀ i < q, (Vec.ofFn m).e (k + i) = v i := by
    intro i hi; rw [hme _ (by omega), if_neg (by omega), Nat.add_sub_cancel_left]
  have hst : (fun j : Fin n => g j) + Lᵀ *ᵥ m = 0 := by
    funext j
    have h1 := hk.stat j (by rw [hAn]; exact j.2)
    rw [Pi.add_apply, hcomb lam0.e v hzero m hm1 hm2 j, hv j, Pi.zero_apply, ← h1]
    ring
  have hLx : L *ᵥ x.asV n = r.asV (k + q) := by
    rw [hL, ← Mat.asV_mulVec l x (k + q) hA.nc]
    funext i
    show ∑ j ∈ range l.nc, l.e i j * x.e j = r.e i
    by_cases hi : (i : ℕ) < k
    · rw [hA.rhsA i hi, hA.nc, ← hAn]
      have hm' : act.getD i 0 = act[(i : ℕ)] := getD_getElem hi
      have h5 := ((hmem (act.getD i 0)).1 (by rw [hm']; exact List.getElem_mem hi)).2
      rw [← h5]
      exact Finset.sum_congr rfl fun j _ => by rw [hA.rowA i hi]
    · have hi2 : (i : ℕ) - k < q := by have := i.2; omega
      rcases shape_cases hs with ⟨hC, hd⟩ | ⟨C', d', hC, hd, hCn, _⟩
      · have hq0 : q = 0 := by rw [hq, hC]; rfl
        omega
      · have hqC : q = C'.nr := by rw [hq, hC]; rfl
        have hi3 : (i : ℕ) - k < C'.nr := by omega
        obtain ⟨h5, h6⟩ := hA.rowC C' d' hC hd _ hi3
        have e : act.length + ((i : ℕ) - k) = i := by omega
        rw [e] at h5 h6
        rw [h6, hA.nc, ← hCn]
        have h7 := hfeas.2
        rw [hC, hd] at h7
        rw [← h7 _ hi3]
        exact Finset.sum_congr rfl fun j _ => by rw [h5]
  refine ⟨fun i hi => ((hmem i).1 hi).1, hnd, l, r, hlr, hA, m, hli, hst, hLx, ?_⟩
  intro m1 hm1n hneg
  have hnege : ∀ i (hi : i < k + q), m1.e i = if i < k then lam0.e (act.getD i 0) else v (i - k) := by
    intro i hi
    have := congrFun hneg ⟨i, hi⟩
    exact this.symm
  have hlam : ∀ i < A.nr, (Drake.scatter A.nr act m1).e i = lam0.e i := by
    intro i hi
    by_cases hia : i ∈ act
    · have h1 : act.idxOf i < k := List.idxOf_lt_length_iff.2 hia
      show (if i ∈ act then m1.e (act.idxOf i) else 0) = _
      rw [if_pos hia, hnege _ (by omega), if_pos h1, getD_getElem h1, List.getElem_idxOf h1]
    · show (if i ∈ act then m1.e (act.idxOf i) else 0) = _
      rw [if_neg hia, hzero i hi hia]
  have hmu : ∀ j, Spec.eqGrad C (if q > 0 then some (m1.dropN k) else none) j = Spec.eqGrad C mu0 j := by
    intro j
    rw [← hv j]
    rcases shape_cases hs with ⟨hC, hd⟩ | ⟨C', d', hC, hd, _, _⟩
    · rw [hC]; split_ifs <;> rfl
    · have hqC : q = C'.nr := by rw [hq, hC]; rfl
      rw [hC]
      by_cases h0 : q > 0
      · rw [if_pos h0]
        show ∑ i ∈ range C'.nr, m1.e (k + i) * C'.e i j = ∑ i ∈ range C'.nr, v i * C'.e i j
        refine Finset.sum_congr rfl fun i hi => ?_
        have := mem_range.1 hi
        rw [hnege _ (by omega), if_neg (by omega), Nat.add_sub_cancel_left]
      · rw [if_neg h0]
        show 0 = ∑ i ∈ range C'.nr, v i * C'.e i j
        rw [show C'.nr = 0 by omega]; rfl
  refine ⟨rfl, ?_, ?_, ?_, ?_⟩
  · intro C' hC h0
    have hqC : q = C'.nr := by rw [hq, hC]; rfl
    refine ⟨m1.dropN k, if_pos (by omega), ?_⟩
    show m1.n - k = _
    omega
  · intro j hj
    rw [← hk.stat j hj, hmu]
    congr 2
    exact Finset.sum_congr rfl fun i hi => by rw [hlam i (mem_range.1 hi)]
  · intro i hi; rw [hlam i hi]; exact hk.nonneg i hi
  · intro i hi; rw [hlam i hi]; exact hk.compl i hi


/-- evaluation of the code and correctness of its multipliers -/
theorem drake_qp {n : ℕ} {H : Mat ℝ} {f : Vec ℝ} {A : Mat ℝ} {b : Vec ℝ} {C : Option (Mat ℝ)}
    {d : Option (Vec ℝ)} (hH : Spec.SymPosDef n H) (hf : f.n = n) (hs : Spec.ConstrShape n A b C d)
    {x : Vec ℝ} (hxn : x.n = n) (hopt : Spec.IsQpOpt H f A b C d x)
    (hind : Spec.ActiveIndep n A b C x) {tol : ℝ} (htol : 0 < tol)
    (hsep : ∀ i < A.nr, -tol < ∑ j ∈ range A.nc, A.e i j * x.e j - b.e i →
      ∑ j ∈ range A.nc, A.e i j * x.e j = b.e i) :
    ∃ lam mu, Drake.quadratic_program (some x) H f A b C d tol = .ok ⟨some (Spec.qpCost H f x), some x,
        some (Drake.nearActive A b x tol), some lam, mu⟩ ∧
      Spec.KKT (Spec.qpGrad H f x) A b C x lam mu := by
  have hAn := shape_nc hs
  have hbn := shape_bn hs
  have hPD := posDef_asM hH
  obtain ⟨lam0, mu0, hk⟩ := qp_kkt_necessary hH.nr hH.nc hH.symm hf hs hopt
  obtain ⟨act, hact⟩ : ∃ act, act = Drake.nearActive A b x tol := ⟨_, rfl⟩
  obtain ⟨hlt, hnd, l, r, hlr, hA, m, hli, hst0, hLx, hfin⟩ := drake_setup hs hopt.1 hind htol hact hsep hk
  have hst : H.asM n n *ᵥ x.asV n + f.asV n + (l.asM (act.length + nEq C) n)ᵀ *ᵥ m = 0 := by
    rw [← hst0]
    congr 1
    rw [← Mat.asV_mulVec H x n hH.nc]; rfl
  obtain ⟨hdet, hm⟩ := drake_core hPD hli hst hLx
  -- the operations of the code
  have hHdet : (H.asM n n).det ≠ 0 := ((Matrix.isUnit_iff_isUnit_det _).1 hPD.isUnit).ne_zero
  set Hi := Mat.ofM (H.asM n n)⁻¹ with hHi
  set lH := l.mul Hi with hlH
  set M := lH.mul l.T with hM
  have hHiM : Hi.asM n n = (H.asM n n)⁻¹ := Mat.ofM_asM _
  have hlHM : lH.asM (act.length + nEq C) n = l.asM (act.length + nEq C) n * (H.asM n n)⁻¹ := by
    rw [hlH, Mat.asM_mul l Hi (act.length + nEq C) n hA.nc, hHiM]
  have hMM : M.asM (act.length + nEq C) (act.length + nEq C) = l.asM (act.length + nEq C) n * (H.asM n n)⁻¹ * (l.asM (act.length + nEq C) n)ᵀ := by
    rw [hM, Mat.asM_mul lH l.T (act.length + nEq C) (act.length + nEq C) (n := n) rfl, hlHM]; rfl
  set Mi := Mat.ofM (M.asM (act.length + nEq C) (act.length + nEq C))⁻¹ with hMi
  set g := (lH.mulVec f).add r with hg
  set m0 := Mi.mulVec g with hm0
  have hneg : m = (m0.neg).asV (act.length + nEq C) := by
    have h1 : (m0.neg).asV (act.length + nEq C) = -(m0.asV (act.length + nEq C)) := rfl
    rw [hm, h1, hm0, Mat.asV_mulVec Mi g (act.length + nEq C) (n := act.length + nEq C) rfl, hMi, Mat.ofM_asM, hMM]
    have h2 : g.asV (act.length + nEq C) = (l.asM (act.length + nEq C) n * (H.asM n n)⁻¹) *ᵥ f.asV n + r.asV (act.length + nEq C) := by
      rw [← hlHM, ← Mat.asV_mulVec lH f (act.length + nEq C) (n := n) rfl]; rfl
    rw [h2]
  have e1 : np.dotVM x H = .ok (Mat.vecMul x H) := if_pos (hxn.trans hH.nr.symm)
  have e2 : np.dotVV (Mat.vecMul x H) x = .ok ((Mat.vecMul x H).dot x) := if_pos (hH.nc.trans hxn.symm)
  have e3 : np.dotVV f x = .ok (f.dot x) := if_pos (hf.trans hxn.symm)
  have e4 : np.dotMV A x = .ok (A.mulVec x) := if_pos (hAn.trans hxn.symm)
  have e5 : np.subV (A.mulVec x) b = .ok ((A.mulVec x).sub b) := if_pos hbn.symm
  have e6 : np.rows A act = .ok (A.rows act) := if_pos fun i hi => hlt i hi
  have e7 : np.take b act = .ok (b.take act) := if_pos fun i hi => by
    rw [hbn]; exact hlt i hi
  have e8 : np.inv H = .ok Hi := np_inv_ok hH.nr hH.nc hHdet
  have e9 : np.dotMM l Hi = .ok lH := if_pos hA.nc
  have e10 : np.dotMM lH l.T = .ok M := if_pos (show n = l.nc from hA.nc.symm)
  have e11 : np.inv M = .ok Mi := np_inv_ok hA.nr hA.nr (by rw [hMM]; exact hdet)
  have e12 : np.dotMV lH f = .ok (lH.mulVec f) := if_pos (show n = f.n from hf.symm)
  have e13 : np.addV (lH.mulVec f) r = .ok g := if_pos (show l.nr = r.n from hA.nr.trans hA.rn.symm)
  have e14 : np.dotMV Mi g = .ok m0 := if_pos (show act.length + nEq C = l.nr from hA.nr.symm)
  have hCd : ¬ (C.isNone ≠ d.isNone) := by
    rcases shape_cases hs with ⟨hC, hd⟩ | ⟨C', d', hC, hd, _, _⟩ <;> rw [hC, hd] <;> simp
  have hcost : 1 / 2 * (Mat.vecMul x H).dot x + f.dot x = Spec.qpCost H f x := by
    have h1 : (Mat.vecMul x H).dot x = ∑ i ∈ range H.nr, ∑ j ∈ range H.nc, x.e i * H.e i j * x.e j := by
      show ∑ j ∈ range H.nc, (∑ i ∈ range x.n, x.e i * H.e i j) * x.e j = _
      rw [hxn.trans hH.nr.symm]
      simp only [Finset.sum_mul]
      exact Finset.sum_comm
    rw [h1]; rfl
  refine ⟨Drake.scatter A.nr act m0.neg, if nEq C > 0 then some (m0.neg.dropN act.length) else none, ?_, ?_⟩
  · unfold Drake.quadratic_program
    rw [if_neg hCd]
    show Drake.qpFill H f A b C d (nEq C) x tol = _
    unfold Drake.qpFill
    simp only [e1, e2, e3, e4, e5, Py.ok_bind, Drake.nearWhere_sub, ← hact, e6, e7, hlr, e8, e9, e10, e11, e12, e13, e14,
      hcost]
    rfl
  · exact hfin m0.neg rfl hneg

/-- the linear programs of the drake backend -/
theorem drake_lp {L : Lib} (hL : LibSpec L) {n : ℕ} {f : Vec ℝ} {A : Mat ℝ} {b : Vec ℝ} {C : Option (Mat ℝ)}
    {d : Option (Vec ℝ)} (hf : f.n = n) (hs : Spec.ConstrShape n A b C d)
    {x : Vec ℝ} (hxn : x.n = n) (hopt : Spec.IsLpOpt f A b C d x)
    (hind : Spec.ActiveIndep n A b C x) {tol : ℝ} (htol : 0 < tol)
    (hsep : ∀ i < A.nr, -tol < ∑ j ∈ range A.nc, A.e i j * x.e j - b.e i →
      ∑ j ∈ range A.nc, A.e i j * x.e j = b.e i) :
    ∃ lam mu, Drake.linear_program L (some x) f A b C d tol = .ok ⟨some (Spec.lpCost f x), some x,
        some (Drake.nearActive A b x tol), some lam, mu⟩ ∧
      Spec.KKT f.e A b C x lam mu := by
  have hAn := shape_nc hs
  have hbn := shape_bn hs
  obtain ⟨lam0, mu0, hk⟩ := kkt_of_first_order hf hs hopt
  obtain ⟨act, hact⟩ : ∃ act, act = Drake.nearActive A b x tol := ⟨_, rfl⟩
  obtain ⟨hlt, hnd, l, r, hlr, hA, m, hli, hst, hLx, hfin⟩ := drake_setup hs hopt.1 hind htol hact hsep hk
  have e3 : np.dotVV f x = .ok (f.dot x) := if_pos (hf.trans hxn.symm)
  have e4 : np.dotMV A x = .ok (A.mulVec x) := if_pos (hAn.trans hxn.symm)
  have e5 : np.subV (A.mulVec x) b = .ok ((A.mulVec x).sub b) := if_pos hbn.symm
  have e6 : np.rows A act = .ok (A.rows act) := if_pos fun i hi => hlt i hi
  obtain ⟨M, hM, hMr, hMc, hMe⟩ : ∃ M, Drake.hstackActive (A.rows act).T C (nEq C) = .ok M ∧ M.nr = n ∧
      M.nc = act.length + nEq C ∧ ∀ i < act.length + nEq C, ∀ j < n, M.e j i = l.e i j := by
    rcases shape_cases hs with ⟨hC, hd⟩ | ⟨C', d', hC, hd, hCn, _⟩
    · have hq : nEq C = 0 := by rw [hC]; rfl
      refine ⟨(A.rows act).T, by rw [hC]; rfl, hAn, by rw [hq]; rfl, fun i hi j _ => ?_⟩
      exact (hA.rowA i (by omega) j).symm
    · have hq : nEq C = C'.nr := by rw [hC]; rfl
      by_cases h0 : nEq C > 0
      · have h1 : (A.rows act).T.nr = C'.T.nr := hAn.trans hCn.symm
        refine ⟨(A.rows act).T.happ C'.T, ?_, hAn, by rw [hq]; rfl, fun i hi j _ => ?_⟩
        · rw [hC] at h0 ⊢
          simp only [Drake.hstackActive, if_pos h0, np.hstack, Py.ok_bind, np.hstack2, if_pos h1]
        · by_cases hi' : i < act.length
          · rw [Mat.happ_e_lt _ _ _ (show i < (A.rows act).T.nc from hi')]
            exact (hA.rowA i hi' j).symm
          · have e : i = act.length + (i - act.length) := by omega
            have h2 := (hA.rowC C' d' hC hd (i - act.length) (by omega)).1 j
            rw [← e] at h2
            rw [h2, e]
            exact Mat.happ_e_add (A.rows act).T C'.T j _ |>.trans (by rw [← e]; rfl)
      · refine ⟨(A.rows act).T, ?_, hAn, ?_, fun i hi j _ => (hA.rowA i (by omega) j).symm⟩
        · rw [hC] at h0 ⊢
          simp only [Drake.hstackActive, if_neg h0]
        · show act.length = _
          omega
  have hMt : M.asM n (act.length + nEq C) = (l.asM (act.length + nEq C) n)ᵀ := by
    ext j i; exact hMe i i.2 j j.2
  have p1 := hL.pinv_1 M
  have pr := hL.pinv_nr M
  have pc := hL.pinv_nc M
  rw [hMr, hMc] at p1
  rw [hMc] at pr
  rw [hMr] at pc
  set m0 := (L.pinv M).mulVec f with hm0
  have e7 : np.dotMV (L.pinv M) f = .ok m0 := if_pos (pc.trans hf.symm)
  have hneg : m = m0.neg.asV (act.length + nEq C) := by
    have h1 : m0.neg.asV (act.length + nEq C) = -(m0.asV (act.length + nEq C)) := rfl
    have h2 : f.asV n = - (M.asM n (act.length + nEq C) *ᵥ m) := by
      rw [hMt]; exact eq_neg_of_add_eq_zero_left hst
    rw [h1, hm0, Mat.asV_mulVec _ f (act.length + nEq C) pc, h2]
    rw [mulVec_neg, neg_neg]
    have h3 : (l.asM (act.length + nEq C) n)ᵀ *ᵥ (m - (L.pinv M).asM (act.length + nEq C) n *ᵥ
        (M.asM n (act.length + nEq C) *ᵥ m)) = 0 := by
      rw [← hMt, mulVec_sub, mulVec_mulVec, mulVec_mulVec, p1, sub_self]
    exact sub_eq_zero.1 (hli _ h3)
  have hCd : ¬ (C.isNone ≠ d.isNone) := by
    rcases shape_cases hs with ⟨hC, hd⟩ | ⟨C', d', hC, hd, _, _⟩ <;> rw [hC, hd] <;> simp
  refine ⟨Drake.scatter A.nr act m0.neg, if nEq C > 0 then some (m0.neg.dropN act.length) else none, ?_,
    hfin m0.neg pr hneg⟩
  unfold Drake.linear_program
  rw [if_neg hCd]
  show Drake.lpFill L f A b C (nEq C) x tol = _
  unfold Drake.lpFill
  simp only [e3, e4, e5, Py.ok_bind, Drake.nearWhere_sub, ← hact, e6, hM, e7]
  rfl

end Verif
