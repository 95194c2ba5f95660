import Verif.Proofs.PolyQueries
import Verif.Props.Solvers
import Verif.Math.Farkas

/- Lemmas on `bounded`. -/
namespace Verif
open Finset Verif.Math

theorem rowVal_mulVec (A : Mat ℝ) {n : ℕ} (h : A.nc = n) (x : ℕ → ℝ) (i : Fin A.nr) :
    Spec.rowVal A i x = ((A.asM A.nr n).mulVec (fun j : Fin n => x j)) i := by
  subst h
  unfold Spec.rowVal
  rw [Finset.sum_range]
  rfl

theorem rowVal_ofFn (A : Mat ℝ) {n : ℕ} (h : A.nc = n) (v : Fin n → ℝ) (i : Fin A.nr) :
    Spec.rowVal A i (Vec.ofFn v).e = ((A.asM A.nr n).mulVec v) i := by
  rw [rowVal_mulVec A h]
  congr 2
  funext j
  exact congrFun (Vec.ofFn_asV v) j

theorem nullspace_pos_iff {L : Lib} (hL : LibSpec L) (A : Mat ℝ) :
    0 < (Geom.nullBasis L A).nc ↔ ∃ v : Fin A.nc → ℝ, v ≠ 0 ∧ (A.asM A.nr A.nc).mulVec v = 0 := by
  rw [nullspace_nc L hL]
  set k := A.nc - np.matrix_rank A with hk
  constructor
  · intro h
    refine ⟨((Geom.nullBasis L A).asM A.nc k).mulVec (Pi.single ⟨0, h⟩ 1), fun h0 => ?_, ?_⟩
    · have h1 := nullspace_orth hL A
      have h2 : (((Geom.nullBasis L A).asM A.nc k).transpose * (Geom.nullBasis L A).asM A.nc k).mulVec
          (Pi.single ⟨0, h⟩ (1 : ℝ)) = 0 := by
        rw [← Matrix.mulVec_mulVec, h0, Matrix.mulVec_zero]
      rw [show ((Geom.nullBasis L A).asM A.nc k).transpose * (Geom.nullBasis L A).asM A.nc k = 1 from h1,
        Matrix.one_mulVec] at h2
      have := congrFun h2 ⟨0, h⟩
      simp at this
    · rw [Matrix.mulVec_mulVec, nullspace_ker hL A, Matrix.zero_mulVec]
  · rintro ⟨v, hv, h0⟩
    by_contra hno
    have hk0 : k = 0 := by omega
    obtain ⟨y, hy⟩ := nullspace_span hL A h0
    apply hv
    rw [hy]
    funext j
    have : IsEmpty (Fin k) := by rw [hk0]; infer_instance
    simp [Matrix.mulVec, dotProduct, ← hk, Finset.univ_eq_empty]

namespace Poly

theorem neg_eye_row (m : ℕ) (y : ℕ → ℝ) {i : ℕ} (hi : i < m) :
    ∑ j ∈ range m, (Mat.eye m : Mat ℝ).neg.e i j * y j = -y i := by
  rw [Finset.sum_eq_single i]
  · simp [Mat.eye_e]
  · intro j _ hj; simp [Mat.eye_e, Ne.symm hj]
  · intro h; exact absurd (mem_range.2 hi) h

/-- a strictly positive combination of the rows that is zero makes the linear program feasible -/
theorem computeBounded_true {L : Lib} (hL : LibSpec L) {A : Mat ℝ} (hrows : 0 < A.nr) {y : Fin A.nr → ℝ} (hy : ∀ i, 0 < y i)
    (he : (A.asM A.nr A.nc).transpose.mulVec y = 0) : computeBounded L A = .ok true := by
  have hs : Spec.ConstrShape A.nr (Mat.eye A.nr).neg (Vec.ones A.nr).neg (some A.T) (some (Vec.zeros A.nc)) :=
    ⟨rfl, rfl, rfl, rfl⟩
  have hopt : ∃ x, Spec.IsLpOpt (Vec.ones A.nr) (Mat.eye A.nr).neg (Vec.ones A.nr).neg (some A.T)
      (some (Vec.zeros A.nc)) x := by
    by_contra hno
    rcases no_lpOpt (f := Vec.ones A.nr) rfl hs hno with h | h
    · -- scale
      obtain ⟨c, hc0, hc⟩ : ∃ c : ℝ, 0 < c ∧ ∀ i, 1 ≤ c * y i := by
        refine ⟨1 + ∑ i, (y i)⁻¹, ?_, fun i => ?_⟩
        · have : 0 ≤ ∑ i, (y i)⁻¹ := Finset.sum_nonneg fun i _ => (inv_pos.2 (hy i)).le
          linarith
        · have h1 : (y i)⁻¹ ≤ ∑ i, (y i)⁻¹ :=
            Finset.single_le_sum (fun i _ => (inv_pos.2 (hy i)).le) (mem_univ i)
          have h2 : (y i)⁻¹ * y i = 1 := inv_mul_cancel₀ (hy i).ne'
          nlinarith [hy i]
      refine h (Vec.ofFn fun i => c * y i) ⟨fun i hi => ?_, fun j hj => ?_⟩
      · have hi' : i < A.nr := hi
        show ∑ j ∈ range A.nr, _ ≤ _
        rw [neg_eye_row _ _ hi']
        have h1 : (Vec.ofFn fun i => c * y i).e i = c * y ⟨i, hi'⟩ :=
          congrFun (Vec.ofFn_asV (fun i => c * y i)) ⟨i, hi'⟩
        rw [h1]
        show _ ≤ (-1 : ℝ)
        linarith [hc ⟨i, hi'⟩]
      · have hj' : j < A.nc := hj
        show ∑ i ∈ range A.nr, A.e i j * _ = 0
        rw [Finset.sum_range]
        have := congrFun he ⟨j, hj'⟩
        have h2 : ∑ i : Fin A.nr, A.e i j * y i = 0 := this
        calc ∑ i : Fin A.nr, A.e i j * (Vec.ofFn fun i => c * y i).e i
            = ∑ i : Fin A.nr, c * (A.e i j * y i) := Finset.sum_congr rfl fun i _ => by
              rw [show (Vec.ofFn fun i => c * y i).e i = c * y i from congrFun (Vec.ofFn_asV (fun i => c * y i)) i]
              ring
          _ = 0 := by rw [← Finset.mul_sum, h2, mul_zero]
    · obtain ⟨x, ⟨hx, -⟩, hlt⟩ := h 0
      have : 0 ≤ Spec.lpCost (Vec.ones A.nr) x := by
        refine Finset.sum_nonneg fun i hi => ?_
        have hi' : i < A.nr := mem_range.1 hi
        have h1 := hx i hi'
        have h2 : ∑ j ∈ range A.nr, (Mat.eye A.nr : Mat ℝ).neg.e i j * x.e j ≤ (-1 : ℝ) := h1
        rw [neg_eye_row _ _ hi'] at h2
        show 0 ≤ (1 : ℝ) * x.e i
        linarith
      linarith
  obtain ⟨x, lam, mu, h1, -⟩ := lp_finds (f := Vec.ones A.nr) hL rfl hs (.inl hrows) (tol := 1e-7) (by norm_num) hopt
  unfold computeBounded lpDefault
  rw [h1]
  rfl

theorem computeBounded_ok {L : Lib} (hL : LibSpec L) (A : Mat ℝ) (hrows : 0 < A.nr) : ∃ r, computeBounded L A = .ok r := by
  have hs : Spec.ConstrShape A.nr (Mat.eye A.nr).neg (Vec.ones A.nr).neg (some A.T) (some (Vec.zeros A.nc)) :=
    ⟨rfl, rfl, rfl, rfl⟩
  unfold computeBounded lpDefault
  rcases lp_total (f := Vec.ones A.nr) hL rfl hs (.inl hrows) 1e-7 with h | ⟨x, lam, mu, h, -⟩ <;> rw [h] <;> exact ⟨_, rfl⟩

/-- what an answer `True` tells -/
theorem computeBounded_approx {L : Lib} (hL : LibSpec L) {A : Mat ℝ} (h : computeBounded L A = .ok true) :
    ∃ y : ℕ → ℝ, (∀ i < A.nr, 1 - 1e-7 ≤ y i) ∧ ∀ j < A.nc, |∑ i ∈ range A.nr, A.e i j * y i| ≤ 1e-7 := by
  have hs : Spec.ConstrShape A.nr (Mat.eye A.nr).neg (Vec.ones A.nr).neg (some A.T) (some (Vec.zeros A.nc)) :=
    ⟨rfl, rfl, rfl, rfl⟩
  unfold computeBounded lpDefault at h
  obtain ⟨s, h1, h2⟩ := Py.bind_eq_ok h
  obtain ⟨m, hm⟩ : ∃ m, s.min = some m := by
    have h3 : s.min.isSome = true := Except.ok.inj h2
    exact Option.isSome_iff_exists.1 h3
  obtain ⟨x, lam, ε, k1, -, -, -, -, ⟨k2, k3⟩, -⟩ := Props.C32_partial L hL A.nr (Vec.ones A.nr) _ _ _ _ rfl hs 1e-7 s m h1 hm
  refine ⟨x.e, fun i hi => ?_, fun j hj => ?_⟩
  · have h3 : ∑ j ∈ range A.nr, (Mat.eye A.nr : Mat ℝ).neg.e i j * x.e j ≤ (-1 : ℝ) + ε := k2 i hi
    rw [neg_eye_row _ _ hi] at h3
    linarith
  · have h3 : |∑ i ∈ range A.nr, A.e i j * x.e i - 0| ≤ ε := k3 j hj
    rw [sub_zero] at h3
    linarith

/-- recession directions are nearly parallel to all rows if the answer is `True` -/
theorem computeBounded_recession {L : Lib} (hL : LibSpec L) {A : Mat ℝ} (h : computeBounded L A = .ok true)
    {v : ℕ → ℝ} (hv : ∀ i < A.nr, Spec.rowVal A i v ≤ 0) :
    ∑ i ∈ range A.nr, |Spec.rowVal A i v| ≤ 2e-7 * ∑ j ∈ range A.nc, |v j| := by
  obtain ⟨y, hy, hA⟩ := computeBounded_approx hL h
  have h1 : ∑ i ∈ range A.nr, y i * |Spec.rowVal A i v|
      = -∑ j ∈ range A.nc, (∑ i ∈ range A.nr, A.e i j * y i) * v j := by
    have : ∀ i ∈ range A.nr, y i * |Spec.rowVal A i v| = -∑ j ∈ range A.nc, A.e i j * y i * v j := by
      intro i hi
      rw [abs_of_nonpos (hv i (mem_range.1 hi))]
      unfold Spec.rowVal
      rw [mul_neg, Finset.mul_sum]
      congr 1
      exact Finset.sum_congr rfl fun j _ => by ring
    rw [Finset.sum_congr rfl this, Finset.sum_neg_distrib, Finset.sum_comm]
    congr 1
    exact Finset.sum_congr rfl fun j _ => by rw [Finset.sum_mul]
  have h2 : -∑ j ∈ range A.nc, (∑ i ∈ range A.nr, A.e i j * y i) * v j ≤ 1e-7 * ∑ j ∈ range A.nc, |v j| := by
    rw [← Finset.sum_neg_distrib, Finset.mul_sum]
    refine Finset.sum_le_sum fun j hj => ?_
    calc -((∑ i ∈ range A.nr, A.e i j * y i) * v j) ≤ |(∑ i ∈ range A.nr, A.e i j * y i) * v j| := neg_le_abs _
      _ = |∑ i ∈ range A.nr, A.e i j * y i| * |v j| := abs_mul _ _
      _ ≤ 1e-7 * |v j| := mul_le_mul_of_nonneg_right (hA j (mem_range.1 hj)) (abs_nonneg _)
  have h3 : 1 / 2 * ∑ i ∈ range A.nr, |Spec.rowVal A i v| ≤ ∑ i ∈ range A.nr, y i * |Spec.rowVal A i v| := by
    rw [Finset.mul_sum]
    refine Finset.sum_le_sum fun i hi => mul_le_mul_of_nonneg_right ?_ (abs_nonneg _)
    have := hy i (mem_range.1 hi)
    norm_num at this
    linarith
  rw [h1] at h3
  have : (2e-7 : ℝ) = 2 * 1e-7 := by norm_num
  rw [this]
  linarith

/-- `bounded` without a cached answer, for a polyhedron that is not reported empty -/
theorem bounded_run {L : Lib} (hL : LibSpec L) {n : ℕ} {p : Poly} (hp : p.Inv n) (hc : EmptyOk L p)
    (hb : p._bounded = none) (he : computeEmpty L p.A p.b p.C p.d = .ok false) (hn : 0 < n) :
    bounded L p = if 0 < (Geom.nullBasis L (p.A.vapp (p.C.vapp p.C.neg))).nc then
        (.ok false, { p with _empty := some false })
      else match computeBounded L (p.A.vapp (p.C.vapp p.C.neg)) with
        | .ok r => (.ok r, { p with _empty := some false, _bounded := some r })
        | .error e => (.error e, { p with _empty := some false }) := by
  obtain ⟨s1, s2, s3, s4⟩ := id hp
  obtain ⟨e, he', hrun⟩ := empty_run hL hp (hasRows_of_ok hL hp he) hc
  rw [he] at he'
  cases he'
  unfold bounded
  rw [PyM.bind_ok (PyM.get_apply p)]
  rw [hb] at hrun ⊢
  simp only
  rw [PyM.bind_ok hrun]
  simp only [Bool.false_eq_true, if_false, vstack3 (s1.trans s3.symm)]
  rw [PyM.bind_ok (PyM.lift_apply _ _)]
  have hrows := hasRows_of_ok hL hp he
  rw [nullspace_ok L (show 0 < (p.A.vapp (p.C.vapp p.C.neg)).nr by
    show 0 < p.A.nr + (p.C.nr + p.C.nr); unfold HasRows at hrows; omega) (show 0 < p.A.nc by omega), PyM.bind_ok (PyM.lift_apply _ _)]
  split_ifs with h
  · rfl
  · simp only [PyM.bind_apply, PyM.lift_apply]
    cases computeBounded L (p.A.vapp (p.C.vapp p.C.neg)) <;> rfl

/-- `bounded` without inequalities and equalities -/
theorem bounded_no_rows {L : Lib} (hL : LibSpec L) {n : ℕ} {p : Poly} (hp : p.Inv n) (hrows : ¬ p.HasRows) (hc : EmptyOk L p)
    (hb : p._bounded = none) : bounded L p = (.error .runtimeError, p) := by
  have hrun := empty_no_rows hL hp hrows hc
  unfold bounded
  rw [PyM.bind_ok (PyM.get_apply p), hb]
  simp only
  rw [PyM.bind_error hrun]

/-- a bounded polyhedron has an inequality or an equality -/
theorem hasRows_of_bounded {n : ℕ} {p : Poly} (hn : 0 < n) (hbd : Spec.IsBounded n p.A p.b p.C p.d) : p.HasRows := by
  by_contra h0
  unfold HasRows at h0
  obtain ⟨R, hR⟩ := hbd
  have h1 := hR (fun _ => |R| + 1) ⟨fun i hi => absurd hi (by omega), fun i hi => absurd hi (by omega)⟩ 0 hn
  rw [abs_of_pos (by positivity)] at h1
  linarith [le_abs_self R]

/-- `bounded` in the space without coordinates: the rank of a matrix without columns raises `ValueError` -/
theorem bounded_no_dim {L : Lib} (hL : LibSpec L) {p : Poly} (hp : p.Inv 0) (hc : EmptyOk L p)
    (hb : p._bounded = none) (he : computeEmpty L p.A p.b p.C p.d = .ok false) :
    bounded L p = (.error .valueError, { p with _empty := some false }) := by
  obtain ⟨s1, s2, s3, s4⟩ := id hp
  obtain ⟨e, he', hrun⟩ := empty_run hL hp (hasRows_of_ok hL hp he) hc
  rw [he] at he'
  cases he'
  unfold bounded
  rw [PyM.bind_ok (PyM.get_apply p)]
  rw [hb] at hrun ⊢
  simp only
  rw [PyM.bind_ok hrun]
  simp only [Bool.false_eq_true, if_false, vstack3 (s1.trans s3.symm)]
  rw [PyM.bind_ok (PyM.lift_apply _ _)]
  rw [nullspace_err L (A := p.A.vapp (p.C.vapp p.C.neg)) (.inr s1)]
  rfl

theorem recession_stack {n : ℕ} {p : Poly} (hp : p.Inv n) (v : ℕ → ℝ) :
    Spec.Recession p.A p.C v ↔ ∀ i < (p.A.vapp (p.C.vapp p.C.neg)).nr,
      Spec.rowVal (p.A.vapp (p.C.vapp p.C.neg)) i v ≤ 0 := by
  obtain ⟨s1, s2, s3, s4⟩ := hp
  rw [forall_stack3 (b := p.b) (d := p.d) s2 s4 (s1.trans s3.symm) (P := fun a _ => a ≤ 0)]
  refine and_congr_right fun _ => ⟨fun h => ⟨fun i hi => (h i hi).le, fun i hi => by rw [h i hi]; simp⟩,
    fun h i hi => le_antisymm (h.1 i hi) (by have := h.2 i hi; linarith)⟩

theorem isBounded_iff {n : ℕ} {p : Poly} (hp : p.Inv n) {x0 : ℕ → ℝ} (hx0 : p.Mem x0) :
    Spec.IsBounded n p.A p.b p.C p.d ↔ ∀ v, Spec.Recession p.A p.C v → ∀ j < n, v j = 0 := by
  obtain ⟨s1, s2, s3, s4⟩ := id hp
  set A' := p.A.vapp (p.C.vapp p.C.neg) with hA'
  set b' := p.b.append (p.d.append p.d.neg)
  have hnc : A'.nc = n := s1
  have hmem := fun x => mem_stack3 s2 s4 (s1.trans s3.symm) x
  constructor
  · rintro ⟨R, hR⟩ v hv j hj
    have := no_recession_of_bounded (A := A'.asM A'.nr n) (b := b'.asV A'.nr) (x0 := fun j : Fin n => x0 j)
      (fun i => by
        rw [← rowVal_mulVec A' hnc]
        exact (hmem x0).2 hx0 i i.2) (R := R)
      (fun x hx k => by
        have h1 : p.Mem (Vec.ofFn x).e := (hmem _).1 fun i hi => by
          have := hx ⟨i, hi⟩
          rw [← rowVal_ofFn A' hnc x ⟨i, hi⟩] at this
          exact this
        have h2 := hR _ h1 k k.2
        rwa [show (Vec.ofFn x).e k = x k from congrFun (Vec.ofFn_asV x) k] at h2)
      (d := fun j : Fin n => v j) (fun i => by
        rw [← rowVal_mulVec A' hnc]
        exact (recession_stack hp v).1 hv i i.2)
    exact congrFun this ⟨j, hj⟩
  · intro h
    obtain ⟨R, hR⟩ := bounded_of_no_recession (A := A'.asM A'.nr n) (b'.asV A'.nr) (fun d hd => by
      funext j
      have := h (Vec.ofFn d).e ((recession_stack hp _).2 fun i hi => by
        have := hd ⟨i, hi⟩
        rwa [← rowVal_ofFn A' hnc d ⟨i, hi⟩] at this) j j.2
      rwa [show (Vec.ofFn d).e j = d j from congrFun (Vec.ofFn_asV d) j] at this)
    refine ⟨R, fun x hx j hj => hR (fun j : Fin n => x j) (fun i => ?_) ⟨j, hj⟩⟩
    rw [← rowVal_mulVec A' hnc]
    exact (hmem x).2 hx i i.2

end Poly
end Verif
