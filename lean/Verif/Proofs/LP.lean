import Verif.Proofs.Pnnls

/- The LP solver: evaluation of the code and its residual. -/
namespace Verif
open Finset Matrix Verif.Math

/-- result of restating the equalities as inequalities -/
structure Stacked (n : ℕ) (A : Mat ℝ) (b : Vec ℝ) (C : Option (Mat ℝ)) (d : Option (Vec ℝ))
    (q : ℕ) (AC : Mat ℝ) (bd : Vec ℝ) : Prop where
  nr : AC.nr = A.nr + 2 * q
  nc : AC.nc = n
  bn : bd.n = A.nr + 2 * q
  feasTol : ∀ ε x, (∀ i < AC.nr, ∑ j ∈ range AC.nc, AC.e i j * x.e j ≤ bd.e i + ε)
    ↔ Spec.FeasibleTol ε A b C d x
  rowA : ∀ i < A.nr, ∀ j, AC.e i j = A.e i j
  rowb : ∀ i < A.nr, bd.e i = b.e i
  grad : ∀ (y : ℕ → ℝ) (j : ℕ), ∑ i ∈ range (A.nr + 2 * q), y i * AC.e i j
    = ∑ i ∈ range A.nr, y i * A.e i j
      + Spec.eqGrad C (if q > 0 then some ⟨q, fun i => y (A.nr + i) + -(y (A.nr + q + i))⟩ else none) j
  value : ∀ y : ℕ → ℝ, ∑ i ∈ range (A.nr + 2 * q), bd.e i * y i
    = ∑ i ∈ range A.nr, b.e i * y i
      + Spec.eqValue d (if q > 0 then some ⟨q, fun i => y (A.nr + i) + -(y (A.nr + q + i))⟩ else none)
  Cnr : ∀ C', C = some C' → C'.nr = q
  qpos : 0 < q → ∃ C', C = some C'

theorem feasibleTol_zero (A : Mat ℝ) (b : Vec ℝ) (C : Option (Mat ℝ)) (d : Option (Vec ℝ))
    (x : Vec ℝ) : Spec.FeasibleTol 0 A b C d x ↔ Spec.Feasible A b C d x := by
  cases C <;> cases d <;> simp [Spec.FeasibleTol, Spec.Feasible, Spec.Eqs, Spec.Ineqs, sub_eq_zero]

theorem Stacked.feas {n : ℕ} {A : Mat ℝ} {b : Vec ℝ} {C : Option (Mat ℝ)} {d : Option (Vec ℝ)}
    {q : ℕ} {AC : Mat ℝ} {bd : Vec ℝ} (hS : Stacked n A b C d q AC bd) (x : Vec ℝ) :
    Spec.Ineqs AC bd x ↔ Spec.Feasible A b C d x := by
  rw [← feasibleTol_zero, ← hS.feasTol]; simp [Spec.Ineqs]

theorem Stacked.hasConstr {n : ℕ} {A : Mat ℝ} {b : Vec ℝ} {C : Option (Mat ℝ)} {d : Option (Vec ℝ)}
    {q : ℕ} {AC : Mat ℝ} {bd : Vec ℝ} (hS : Stacked n A b C d q AC bd) : 0 < AC.nr ↔ Spec.HasConstr A C := by
  have h1 := hS.nr
  constructor
  · intro h
    by_cases h0 : 0 < A.nr
    · exact .inl h0
    · obtain ⟨C', hC⟩ := hS.qpos (by omega)
      have := hS.Cnr C' hC
      exact .inr ⟨C', hC, by omega⟩
  · rintro (h | ⟨C', hC, h⟩)
    · omega
    · have := hS.Cnr C' hC
      omega

theorem stackEqualities_ok {n : ℕ} {A : Mat ℝ} {b : Vec ℝ} {C : Option (Mat ℝ)}
    {d : Option (Vec ℝ)} (h : Spec.ConstrShape n A b C d) :
    ∃ q AC bd, Pnnls.stackEqualities A b C d = .ok (q, AC, bd) ∧ Stacked n A b C d q AC bd := by
  match C, d, h with
  | none, none, h =>
    obtain ⟨h1, h2⟩ := h
    refine ⟨0, A, b, rfl, ⟨rfl, h1, h2, fun ε x => ?_, fun _ _ _ => rfl, fun _ _ => rfl, fun y j => ?_,
      fun y => ?_, ?_, ?_⟩⟩
    · simp [Spec.FeasibleTol]
    · simp [Spec.eqGrad]
    · simp [Spec.eqValue]
    · intro C' hC'; cases hC'
    · intro h; exact absurd h (lt_irrefl _)
  | some C, some d, h =>
    obtain ⟨h1, h2, h3, h4⟩ := h
    by_cases hq : C.nr > 0
    · refine ⟨C.nr, A.vapp (C.vapp C.neg), b.append (d.append d.neg), ?_, ⟨?_, h1, ?_, fun ε x => ?_,
        fun i hi j => A.vapp_e_lt _ j hi, fun i hi => b.append_e_lt _ (h2 ▸ hi), fun y j => ?_,
        fun y => ?_, ?_, ?_⟩⟩
      · have e1 : np.vstack [A, C, C.neg] = .ok (A.vapp (C.vapp C.neg)) := by
          simp [np.vstack, np.vstack2, h1, h3]
        have e2 : np.concatenate [b, d, d.neg] = .ok (b.append (d.append d.neg)) := by
          simp [np.concatenate, Vec.concat]
        simp only [Pnnls.stackEqualities, if_pos hq, e1, e2, Py.ok_bind]
        rfl
      · simp; omega
      · simp; omega
      · simp only [Spec.FeasibleTol, Mat.vapp_nr, Mat.vapp_nc, Mat.neg_nr]
        rw [forall_lt_add, forall_lt_add]
        have k1 : ∀ i < A.nr, ((∑ j ∈ range A.nc, (A.vapp (C.vapp C.neg)).e i j * x.e j
            ≤ (b.append (d.append d.neg)).e i + ε) ↔ ∑ j ∈ range A.nc, A.e i j * x.e j ≤ b.e i + ε) := by
          intro i hi
          simp only [Mat.vapp_e_lt _ _ _ hi, Vec.append_e_lt _ _ (h2 ▸ hi)]
        have k2 : ∀ i < C.nr, ((∑ j ∈ range A.nc, (A.vapp (C.vapp C.neg)).e (A.nr + i) j * x.e j
            ≤ (b.append (d.append d.neg)).e (A.nr + i) + ε)
              ↔ ∑ j ∈ range C.nc, C.e i j * x.e j ≤ d.e i + ε) := by
          intro i hi
          rw [← h2, Vec.append_e_add, h2, Vec.append_e_lt _ _ (h4 ▸ hi), h3, h1]
          simp only [Mat.vapp_e_add, Mat.vapp_e_lt _ _ _ hi]
        have k3 : ∀ i < C.nr, ((∑ j ∈ range A.nc,
            (A.vapp (C.vapp C.neg)).e (A.nr + (C.nr + i)) j * x.e j
            ≤ (b.append (d.append d.neg)).e (A.nr + (C.nr + i)) + ε)
              ↔ d.e i ≤ ∑ j ∈ range C.nc, C.e i j * x.e j + ε) := by
          intro i hi
          rw [← h2, Vec.append_e_add, h2, ← h4, Vec.append_e_add, h4, h3, h1]
          simp only [Mat.vapp_e_add, Mat.neg_e, Vec.neg_e, neg_mul, Finset.sum_neg_distrib]
          constructor <;> intro h <;> linarith
        constructor
        · rintro ⟨a1, a2, a3⟩
          exact ⟨fun i hi => (k1 i hi).1 (a1 i hi),
            fun i hi => abs_le.2 ⟨by linarith [(k3 i hi).1 (a3 i hi)], by linarith [(k2 i hi).1 (a2 i hi)]⟩⟩
        · rintro ⟨a1, a2⟩
          exact ⟨fun i hi => (k1 i hi).2 (a1 i hi), fun i hi => (k2 i hi).2 (by linarith [(abs_le.1 (a2 i hi)).2]),
            fun i hi => (k3 i hi).2 (by linarith [(abs_le.1 (a2 i hi)).1])⟩
      · rw [if_pos hq]
        simp only [Spec.eqGrad]
        rw [show A.nr + 2 * C.nr = A.nr + (C.nr + C.nr) by ring, Finset.sum_range_add,
          Finset.sum_range_add]
        congr 1
        · exact Finset.sum_congr rfl fun i hi => by rw [Mat.vapp_e_lt _ _ _ (mem_range.1 hi)]
        · rw [← Finset.sum_add_distrib]
          refine Finset.sum_congr rfl fun i hi => ?_
          rw [Mat.vapp_e_add, Mat.vapp_e_add, Mat.vapp_e_lt _ _ _ (mem_range.1 hi), Mat.vapp_e_add,
            Mat.neg_e, ← add_assoc]
          ring
      · rw [if_pos hq]
        simp only [Spec.eqValue]
        rw [show A.nr + 2 * C.nr = A.nr + (C.nr + C.nr) by ring, Finset.sum_range_add,
          Finset.sum_range_add]
        congr 1
        · exact Finset.sum_congr rfl fun i hi => by
            rw [Vec.append_e_lt _ _ (h2 ▸ mem_range.1 hi)]
        · rw [← Finset.sum_add_distrib, ← h4]
          refine Finset.sum_congr rfl fun i hi => ?_
          rw [← h2, Vec.append_e_add, Vec.append_e_add, Vec.append_e_lt _ _ (mem_range.1 hi),
            Vec.append_e_add, Vec.neg_e, ← add_assoc]
          ring
      · intro C' hC'; cases hC'; rfl
      · intro _; exact ⟨C, rfl⟩
    · have hq0 : C.nr = 0 := by omega
      refine ⟨0, A, b, by simp [Pnnls.stackEqualities, hq]; rfl, ⟨rfl, h1, h2, fun ε x => ?_,
        fun _ _ _ => rfl, fun _ _ => rfl, fun y j => ?_, fun y => ?_, ?_, ?_⟩⟩
      · simp [Spec.FeasibleTol, hq0]
      · simp [Spec.eqGrad]
      · simp [Spec.eqValue]
      · intro C' hC'; cases hC'; exact hq0
      · intro h; exact absurd h (lt_irrefl _)

/-- residual of the KKT system of the LP -/
def lpRes (f : Vec ℝ) (AC : Mat ℝ) (bd : Vec ℝ) (y s x : ℕ → ℝ) : ℝ :=
  (∑ i ∈ range AC.nr, bd.e i * y i + ∑ j ∈ range AC.nc, f.e j * x j) ^ 2
  + (∑ i ∈ range AC.nr, (s i + ∑ j ∈ range AC.nc, AC.e i j * x j - bd.e i) ^ 2
  + ∑ j ∈ range AC.nc, (∑ i ∈ range AC.nr, AC.e i j * y i + f.e j) ^ 2)

def lpA (AC : Mat ℝ) (bd : Vec ℝ) : Mat ℝ :=
  (Mat.ofRow (bd.append (Vec.zeros AC.nr))).vapp
    (((Mat.zeros AC.nr AC.nr).happ (Mat.eye AC.nr)).vapp (AC.T.happ (Mat.zeros AC.nc AC.nr)))
def lpB (f : Vec ℝ) (AC : Mat ℝ) : Mat ℝ :=
  (Mat.ofRow f).vapp (AC.vapp (Mat.zeros AC.nc AC.nc))
def lpc (f bd : Vec ℝ) : Vec ℝ := (Vec.zeros 1).append (bd.append f.neg)

theorem lpData_ok {f : Vec ℝ} {AC : Mat ℝ} {bd : Vec ℝ} (hb : bd.n = AC.nr) (hf : f.n = AC.nc) :
    Pnnls.lpData AC.nr f AC bd = .ok (lpA AC bd, lpB f AC, lpc f bd) := by
  have e1 : np.concatenate [bd, Vec.zeros AC.nr] = .ok (bd.append (Vec.zeros AC.nr)) := by
    simp [np.concatenate, Vec.concat]
  have e2 : np.hstack [(Mat.zeros AC.nr AC.nr : Mat ℝ), Mat.eye AC.nr]
      = .ok ((Mat.zeros AC.nr AC.nr).happ (Mat.eye AC.nr)) := by
    simp [np.hstack, np.hstack2]
  have e3 : np.hstack [AC.T, Mat.zeros AC.nc AC.nr] = .ok (AC.T.happ (Mat.zeros AC.nc AC.nr)) := by
    simp [np.hstack, np.hstack2]
  have e4 : np.vstack [Mat.ofRow (bd.append (Vec.zeros AC.nr)),
      (Mat.zeros AC.nr AC.nr).happ (Mat.eye AC.nr), AC.T.happ (Mat.zeros AC.nc AC.nr)]
      = .ok (lpA AC bd) := by
    simp [np.vstack, np.vstack2, lpA, hb]
  have e5 : np.vstack [Mat.ofRow f, AC, Mat.zeros AC.nc AC.nc] = .ok (lpB f AC) := by
    simp [np.vstack, np.vstack2, lpB, hf]
  have e6 : np.concatenate [Vec.zeros 1, bd, f.neg] = .ok (lpc f bd) := by
    simp [np.concatenate, Vec.concat, lpc]
  simp only [Pnnls.lpData, e1, e2, e3, e4, e5, e6, Py.ok_bind]
  rfl

theorem lpA_0 (AC : Mat ℝ) (bd v : Vec ℝ) (hb : bd.n = AC.nr) :
    ((lpA AC bd).mulVec v).e 0 = ∑ i ∈ range AC.nr, bd.e i * v.e i := by
  rw [lpA, Mat.vapp_mulVec_lt _ _ _ (by simp)]
  rw [Mat.mulVec_e]
  simp only [Mat.ofRow_nc, Mat.ofRow_e, Vec.append_n, Vec.zeros_n]
  have := Vec.append_sum bd (Vec.zeros AC.nr) v.e
  simp only [Vec.zeros_n, Vec.zeros_e, zero_mul, Finset.sum_const_zero, add_zero] at this
  rw [this, hb]

theorem lpA_1 (AC : Mat ℝ) (bd v : Vec ℝ) (hb : bd.n = AC.nr) {i : ℕ} (hi : i < AC.nr) :
    ((lpA AC bd).mulVec v).e (1 + i) = v.e (AC.nr + i) := by
  rw [lpA]
  have h := Mat.vapp_mulVec_add (Mat.ofRow (bd.append (Vec.zeros AC.nr)))
    (((Mat.zeros AC.nr AC.nr).happ (Mat.eye AC.nr)).vapp (AC.T.happ (Mat.zeros AC.nc AC.nr))) v i
    (by simp [hb])
  rw [Mat.ofRow_nr] at h
  rw [h, Mat.vapp_mulVec_lt _ _ _ (by simpa using hi), Mat.happ_mulVec]
  simp [Mat.mulVec_e, Mat.eye_e, hi]

theorem lpA_2 (AC : Mat ℝ) (bd v : Vec ℝ) (hb : bd.n = AC.nr) {j : ℕ} (_hj : j < AC.nc) :
    ((lpA AC bd).mulVec v).e (1 + (AC.nr + j)) = ∑ i ∈ range AC.nr, AC.e i j * v.e i := by
  rw [lpA]
  have h := Mat.vapp_mulVec_add (Mat.ofRow (bd.append (Vec.zeros AC.nr)))
    (((Mat.zeros AC.nr AC.nr).happ (Mat.eye AC.nr)).vapp (AC.T.happ (Mat.zeros AC.nc AC.nr))) v
    (AC.nr + j) (by simp [hb])
  rw [Mat.ofRow_nr] at h
  have h2 := Mat.vapp_mulVec_add ((Mat.zeros AC.nr AC.nr).happ (Mat.eye AC.nr) : Mat ℝ)
    (AC.T.happ (Mat.zeros AC.nc AC.nr)) v j (by simp)
  simp only [Mat.happ_nr, Mat.zeros_nr] at h2
  rw [h, h2, Mat.happ_mulVec]
  simp [Mat.mulVec_e]

theorem lpB_0 (f : Vec ℝ) (AC : Mat ℝ) (u : Vec ℝ) (hf : f.n = AC.nc) :
    ((lpB f AC).mulVec u).e 0 = ∑ j ∈ range AC.nc, f.e j * u.e j := by
  rw [lpB, Mat.vapp_mulVec_lt _ _ _ (by simp), Mat.mulVec_e]
  simp [hf]

theorem lpB_1 (f : Vec ℝ) (AC : Mat ℝ) (u : Vec ℝ) (hf : f.n = AC.nc) {i : ℕ} (hi : i < AC.nr) :
    ((lpB f AC).mulVec u).e (1 + i) = ∑ j ∈ range AC.nc, AC.e i j * u.e j := by
  rw [lpB]
  have h := Mat.vapp_mulVec_add (Mat.ofRow f) (AC.vapp (Mat.zeros AC.nc AC.nc)) u i (by simp [hf])
  rw [Mat.ofRow_nr] at h
  rw [h, Mat.vapp_mulVec_lt _ _ _ hi, Mat.mulVec_e]

theorem lpB_2 (f : Vec ℝ) (AC : Mat ℝ) (u : Vec ℝ) (hf : f.n = AC.nc) (j : ℕ) :
    ((lpB f AC).mulVec u).e (1 + (AC.nr + j)) = 0 := by
  rw [lpB]
  have h := Mat.vapp_mulVec_add (Mat.ofRow f) (AC.vapp (Mat.zeros AC.nc AC.nc)) u (AC.nr + j)
    (by simp [hf])
  rw [Mat.ofRow_nr] at h
  rw [h, Mat.vapp_mulVec_add _ _ _ _ (by simp), Mat.mulVec_e]
  simp

theorem lsResidual_lp {f : Vec ℝ} {AC : Mat ℝ} {bd : Vec ℝ} (hb : bd.n = AC.nr) (hf : f.n = AC.nc)
    (v u : Vec ℝ) :
    Spec.lsResidual (lpA AC bd) (lpB f AC) (lpc f bd) v u
      = lpRes f AC bd v.e (fun i => v.e (AC.nr + i)) u.e := by
  have hn : (lpc f bd).n = 1 + (AC.nr + AC.nc) := by simp [lpc, hb, hf]
  have hgen : Spec.lsResidual (lpA AC bd) (lpB f AC) (lpc f bd) v u
      = ∑ i ∈ range (lpc f bd).n, (((lpA AC bd).mulVec v).e i + ((lpB f AC).mulVec u).e i
        - (lpc f bd).e i) ^ 2 := rfl
  rw [hgen, hn, Finset.sum_range_add, Finset.sum_range_add, lpRes]
  have c0 : (lpc f bd).e 0 = 0 := by
    rw [lpc, Vec.append_e_lt _ _ (by simp)]; rfl
  have c1 : ∀ i < AC.nr, (lpc f bd).e (1 + i) = bd.e i := by
    intro i hi
    have := Vec.append_e_add (Vec.zeros 1) (bd.append f.neg) i
    rw [Vec.zeros_n] at this
    rw [lpc, this, Vec.append_e_lt _ _ (hb ▸ hi)]
  have c2 : ∀ j, (lpc f bd).e (1 + (AC.nr + j)) = - f.e j := by
    intro j
    have := Vec.append_e_add (Vec.zeros 1) (bd.append f.neg) (AC.nr + j)
    rw [Vec.zeros_n] at this
    rw [lpc, this, ← hb, Vec.append_e_add]; rfl
  congr 1
  · rw [Finset.sum_range_one, c0, lpA_0 _ _ _ hb, lpB_0 _ _ _ hf, sub_zero]
  · congr 1
    · refine Finset.sum_congr rfl fun i hi => ?_
      have hi := mem_range.1 hi
      rw [lpA_1 _ _ _ hb hi, lpB_1 _ _ _ hf hi, c1 i hi]
    · refine Finset.sum_congr rfl fun j hj => ?_
      have hj := mem_range.1 hj
      rw [lpA_2 _ _ _ hb hj, lpB_2 _ _ _ hf, c2]
      ring

theorem lp_core {L : Lib} (hL : LibSpec L) {f : Vec ℝ} {AC : Mat ℝ} {bd : Vec ℝ}
    (hb : bd.n = AC.nr) (hf : f.n = AC.nc) :
    ∃ ys x r, (0 < AC.nr → Pnnls.pnnls L (lpA AC bd) (lpB f AC) (lpc f bd) = .ok (ys, x, r)) ∧
      ys.n = AC.nr + AC.nr ∧ x.n = AC.nc ∧ (∀ i < AC.nr, 0 ≤ ys.e i) ∧
      (∀ i < AC.nr, 0 ≤ ys.e (AC.nr + i)) ∧
      r = Real.sqrt (lpRes f AC bd ys.e (fun i => ys.e (AC.nr + i)) x.e) ∧
      ∀ y s x' : ℕ → ℝ, (∀ i < AC.nr, 0 ≤ y i) → (∀ i < AC.nr, 0 ≤ s i) →
        lpRes f AC bd ys.e (fun i => ys.e (AC.nr + i)) x.e ≤ lpRes f AC bd y s x' := by
  obtain ⟨v, u, r, h1, h2, h3, h4, h5, h6⟩ := pnnls_spec hL (lpA AC bd) (lpB f AC) (lpc f bd)
    (by simp [lpA, lpc, hb, hf]) (by simp [lpB, lpc, hb, hf])
  have hnc : (lpA AC bd).nc = AC.nr + AC.nr := by simp [lpA, hb]
  rw [hnc, forall_lt_add] at h4
  rw [lsResidual_lp hb hf] at h5
  refine ⟨v, u, r, fun h0 => h1 (by rw [hnc]; omega), h2.trans hnc, h3.trans (by simp [lpB, hf]), h4.1, h4.2, h5, ?_⟩
  intro y s x' hy hs
  have := h6 ⟨AC.nr + AC.nr, fun i => if i < AC.nr then y i else s (i - AC.nr)⟩ ⟨AC.nc, x'⟩ (by
    rw [hnc, forall_lt_add]
    refine ⟨fun i hi => ?_, fun i hi => ?_⟩
    · simp [hi, hy i hi]
    · simp [hs i hi])
  rw [lsResidual_lp hb hf, lsResidual_lp hb hf] at this
  refine this.trans (le_of_eq ?_)
  simp only [lpRes]
  congr 1
  · congr 1; congr 1
    exact Finset.sum_congr rfl fun i hi => by rw [if_pos (mem_range.1 hi)]
  · congr 1
    · exact Finset.sum_congr rfl fun i hi => by
        simp
    · refine Finset.sum_congr rfl fun j hj => ?_
      congr 2
      exact Finset.sum_congr rfl fun i hi => by rw [if_pos (mem_range.1 hi)]

theorem lp_core_none {L : Lib} (hL : LibSpec L) {f : Vec ℝ} {AC : Mat ℝ} {bd : Vec ℝ}
    (hb : bd.n = AC.nr) (hf : f.n = AC.nc) (h0 : AC.nr = 0) :
    Pnnls.pnnls L (lpA AC bd) (lpB f AC) (lpc f bd) = .error .runtimeError :=
  pnnls_none hL (lpA AC bd) (lpB f AC) (lpc f bd) (by simp [lpA, lpc, hb, hf]) (by simp [lpB, lpc, hb, hf])
    (by simp [lpA, hb, h0])

end Verif
