import Verif.Proofs.GeomUtils
import Verif.Proofs.LibExists

/-
Properties of `/repo/pympc/geometry/utils.py` (C24 - C28, C82).
-/
namespace Verif.Props
open Finset Matrix

/-- C24: for a matrix with entries, the columns of `nullspace_basis(A)` are orthonormal, there are `n - rank A` of them, and they
span exactly the solutions of `A x = 0`.  For a matrix without rows or columns the rank is not computed: `ValueError`. -/
theorem C24 (L : Lib) (hL : LibSpec L) (A : Mat ℝ) :
    (0 < A.nr → 0 < A.nc → ∃ Z : Mat ℝ, Geom.nullspace_basis L A = .ok Z ∧
      Z.nr = A.nc ∧
      Z.nc + (A.asM A.nr A.nc).rank = A.nc ∧
      (∀ i < Z.nc, ∀ j < Z.nc, ∑ k ∈ range A.nc, Z.e k i * Z.e k j = if i = j then 1 else 0) ∧
      ∀ x : ℕ → ℝ, (∀ i < A.nr, ∑ k ∈ range A.nc, A.e i k * x k = 0) ↔
        ∃ y : ℕ → ℝ, ∀ k < A.nc, x k = ∑ j ∈ range Z.nc, Z.e k j * y j) ∧
    (A.nr = 0 ∨ A.nc = 0 → Geom.nullspace_basis L A = .error .valueError) := by
  refine ⟨fun h1 h2 => ⟨Geom.nullBasis L A, nullspace_ok L h1 h2, ?_⟩, nullspace_err L⟩
  have hr := rank_le_nc A
  have hnc := nullspace_nc L hL A
  refine ⟨nullspace_nr L hL A, ?_, ?_, ?_⟩
  · rw [hnc]; show _ + np.matrix_rank A = _; omega
  · intro i hi j hj
    rw [hnc] at hi hj
    have h := congrFun (congrFun (nullspace_orth hL A) ⟨i, hi⟩) ⟨j, hj⟩
    rw [Matrix.mul_apply, Matrix.one_apply] at h
    rw [Finset.sum_range]
    refine Eq.trans h ?_
    simp
  · intro x
    constructor
    · intro hx
      obtain ⟨y, hy⟩ := nullspace_span hL A (x := fun k => x k) (by
        funext i
        have := hx i i.2
        rw [Finset.sum_range] at this
        exact this)
      refine ⟨(Vec.ofFn y).e, fun k hk => ?_⟩
      have := congrFun hy ⟨k, hk⟩
      rw [hnc, Finset.sum_range]
      refine Eq.trans this ?_
      show ∑ j : Fin (A.nc - np.matrix_rank A), _ * y j = ∑ j : Fin (A.nc - np.matrix_rank A), _
      refine Finset.sum_congr rfl fun j _ => ?_
      rw [Vec.ofFn_e]; rfl
    · rintro ⟨y, hy⟩ i hi
      have h := congrArg (fun M => M *ᵥ (fun j : Fin (A.nc - np.matrix_rank A) => y j)) (nullspace_ker hL A)
      simp only [zero_mulVec, ← mulVec_mulVec] at h
      have h1 := congrFun h ⟨i, hi⟩
      rw [Finset.sum_range]
      refine Eq.trans ?_ h1
      show ∑ k : Fin A.nc, A.e i k * x k = ∑ k : Fin A.nc, A.e i k * ∑ j : Fin _, _ * _
      refine Finset.sum_congr rfl fun k _ => ?_
      rw [hy k k.2, hnc, Finset.sum_range]
      rfl

/-- the contract of the factorization is satisfiable; the rank of the matrix is arbitrary -/
example : ∃ L : Lib, LibSpec L := exists_lib

/-- C25, maximality, is false of the code: for the rows (0), (1) no row is selected, although the
second alone is independent. -/
theorem C25_false : ∃ A : Mat ℝ, A.nr = 2 ∧ A.nc = 1 ∧ (∃ j < A.nc, A.e 1 j ≠ 0) ∧
    ∀ L : Lib, LibSpec L → Geom.linearly_independent_rows L A = [] := by
  refine ⟨⟨2, 1, fun i _ => if i = 1 then 1 else 0⟩, rfl, rfl, ⟨0, by norm_num, by simp⟩, ?_⟩
  intro L hL
  obtain ⟨Q, hQ, hR⟩ := qr_R hL ⟨2, 1, fun i _ => if i = 1 then 1 else 0⟩
  have h1 : (L.qrR (Mat.T ⟨2, 1, fun i _ => if i = 1 then 1 else 0⟩)).e 0 0 = 0 := by
    have := congrFun (congrFun hR ⟨0, by simp⟩) ⟨0, by simp⟩
    rw [Mat.asM_apply] at this
    rw [this, Matrix.mul_apply]
    refine Finset.sum_eq_zero fun i _ => ?_
    simp [Mat.T]
  have h2 : (L.qrR (Mat.T ⟨2, 1, fun i _ => if i = 1 then 1 else 0⟩)).nr = 1 := hL.qr_nr _
  have h3 : (L.qrR (Mat.T ⟨2, 1, fun i _ => if i = 1 then 1 else 0⟩)).nc = 2 := hL.qr_nc _
  unfold Geom.linearly_independent_rows
  simp only [h2, h3]
  rw [List.filter_eq_nil_iff]
  intro i hi
  simp at hi
  subst hi
  simp [h1]
  norm_num

/-- C25, what holds: the rows selected are listed in increasing order and are linearly independent.  Each of them is more than `tol` away from every
combination of the preceding rows.  If all the rows that precede a row are linearly independent, it is selected exactly in this case: for a matrix
with independent rows, each more than `tol` away from the combinations of the preceding ones, all the rows are selected.
Missing with respect to C25: maximality when a row depends on preceding ones (false, see `C25_false`). -/
theorem C25_partial (L : Lib) (hL : LibSpec L) (A : Mat ℝ) (tol : ℝ) (htol : 0 ≤ tol) :
    (Geom.linearly_independent_rows L A tol).Pairwise (· < ·) ∧
    (∀ i ∈ Geom.linearly_independent_rows L A tol, i < A.nr) ∧
    (∀ c : ℕ → ℝ, (∀ i ∉ Geom.linearly_independent_rows L A tol, c i = 0) →
      (∀ j < A.nc, ∑ i ∈ range A.nr, c i * A.e i j = 0) → ∀ i, c i = 0) ∧
    ∀ i < A.nr,
      (i ∈ Geom.linearly_independent_rows L A tol →
        ∀ c : ℕ → ℝ, tol < Real.sqrt (∑ j ∈ range A.nc, (A.e i j - ∑ m ∈ range i, c m * A.e m j) ^ 2)) ∧
      ((∀ c : ℕ → ℝ, (∀ j < A.nc, ∑ m ∈ range i, c m * A.e m j = 0) → ∀ m < i, c m = 0) →
        (∀ c : ℕ → ℝ, tol < Real.sqrt (∑ j ∈ range A.nc, (A.e i j - ∑ m ∈ range i, c m * A.e m j) ^ 2)) →
        i ∈ Geom.linearly_independent_rows L A tol) := by
  refine ⟨List.Pairwise.filter _ List.pairwise_lt_range, ?_, fun c h0 hc => independent_rows hL A htol c h0 hc, fun i hi =>
    ⟨fun h c => Real.lt_sqrt_of_sq_lt ((selected_rows hL A htol hi).1 h c),
      fun h1 h2 => (selected_rows hL A htol hi).2 h1 fun c => (Real.lt_sqrt htol).1 (h2 c)⟩⟩
  intro i hi
  simp only [Geom.linearly_independent_rows, List.mem_filter, List.mem_range] at hi
  have : (L.qrR A.T).nc = A.nr := hL.qr_nc A.T
  omega

/-- the first row of `[[1], [2]]` is selected, and the second one, which depends on it, is not -/
example (L : Lib) (hL : LibSpec L) :
    0 ∈ Geom.linearly_independent_rows L ⟨2, 1, fun i _ => i + 1⟩ ∧ 1 ∉ Geom.linearly_independent_rows L ⟨2, 1, fun i _ => i + 1⟩ := by
  obtain ⟨-, -, -, h⟩ := C25_partial L hL ⟨2, 1, fun i _ => i + 1⟩ 1e-6 (by norm_num)
  constructor
  · refine (h 0 (by norm_num)).2 (fun c _ m hm => absurd hm (by omega)) fun c => ?_
    norm_num
  · intro h1
    have := (h 1 (by norm_num)).1 h1 fun _ => 2
    norm_num at this

/-- C26: whenever `plane_through_points` returns on points of the same size, whatever the random offset, the normal has unit norm,
the right-hand side is nonnegative and the plane contains the points; there are as many points as
coordinates and the plane is the only one through them. -/
theorem C26 (offset : Vec ℝ) (points : List (Vec ℝ)) (a : Vec ℝ) (d : ℝ) (hp : ∀ p ∈ points, ∀ q ∈ points, p.n = q.n)
    (h : Geom.plane_through_points offset points = .ok (a, d)) :
    points.length = a.n ∧ (∀ p ∈ points, p.n = a.n) ∧
    ∑ j ∈ range a.n, a.e j ^ 2 = 1 ∧ 0 ≤ d ∧ (∀ p ∈ points, ∑ j ∈ range a.n, a.e j * p.e j = d) ∧
    ∀ (a' : ℕ → ℝ) (d' : ℝ), (∀ p ∈ points, ∑ j ∈ range a.n, a' j * p.e j = d') →
      ∃ c, d' = c * d ∧ ∀ j < a.n, a' j = c * a.e j := by
  obtain ⟨n, a0, h2, h3, h4, h5, h6, h7, h8⟩ := plane_run hp h
  obtain ⟨ha, hd⟩ := h8
  set d0 := 1 - ∑ j ∈ range n, a0.e j * offset.e j with hd0
  set sg := Geom.signOf d0 with hsg
  have hsg2 : sg * sg = 1 := signOf_sq d0
  have hne : points ≠ [] := List.ne_nil_of_length_pos (by omega)
  obtain ⟨p0, hp0⟩ := List.exists_mem_of_ne_nil _ hne
  have hpos : 0 < vnorm a0 := by
    refine lt_of_le_of_ne (vnorm_nonneg _) fun hz => ?_
    have hz' := vnorm_eq_zero.1 hz.symm
    have := h6 p0 hp0
    rw [Finset.sum_eq_zero fun j hj => by rw [hz' j (by rw [h5]; exact mem_range.1 hj), zero_mul]] at this
    norm_num at this
  have hsgne : sg ≠ 0 := fun h => by rw [h] at hsg2; norm_num at hsg2
  have hs : vnorm a0 * sg ≠ 0 := mul_ne_zero hpos.ne' hsgne
  have han : a.n = n := by rw [ha]; exact h5
  have hae : ∀ j, a.e j = a0.e j / (vnorm a0 * sg) := fun j => by rw [ha]; rfl
  have hsum : ∀ p ∈ points, ∑ j ∈ range n, a0.e j * p.e j = d0 := by
    intro p hp
    have := h6 p hp
    simp only [mul_add, Finset.sum_add_distrib] at this
    rw [hd0]; linarith
  have hap : ∀ p ∈ points, ∑ j ∈ range a.n, a.e j * p.e j = d := by
    intro p hp
    rw [han, hd, ← hsum p hp, Finset.sum_div]
    exact Finset.sum_congr rfl fun j _ => by rw [hae]; ring
  refine ⟨h2.trans han.symm, fun p hp => (h4 p hp).trans han.symm, ?_, ?_, hap, ?_⟩
  · have : ∑ j ∈ range a.n, a.e j ^ 2 = (∑ j ∈ range a0.n, a0.e j ^ 2) / (vnorm a0 * sg) ^ 2 := by
      rw [han, h5, Finset.sum_div]
      exact Finset.sum_congr rfl fun j _ => by rw [hae, div_pow]
    rw [this, ← vnorm_sq, mul_pow, pow_two sg, hsg2, mul_one, div_self]
    exact pow_ne_zero _ hpos.ne'
  · rw [hd]; exact div_signOf_nonneg d0 hpos
  · intro a' d' ha'
    rw [han] at ha' ⊢
    obtain ⟨c, hc⟩ := h7 ⟨n, a'⟩ ⟨d' + ∑ j ∈ range n, a' j * offset.e j, fun p hp => by
      simp only [mul_add, Finset.sum_add_distrib, ha' p hp]⟩
    refine ⟨c * (vnorm a0 * sg), ?_, fun j hj => ?_⟩
    · rw [← ha' p0 hp0, hd, ← hsum p0 hp0, mul_assoc, mul_div_cancel₀ _ hs, Finset.mul_sum]
      exact Finset.sum_congr rfl fun j hj => by rw [show a' j = c * a0.e j from hc j (mem_range.1 hj)]; ring
    · rw [hae, mul_assoc, mul_div_cancel₀ _ hs]; exact hc j hj

/-- C26, when it returns: for `n` points with `n` coordinates, it returns if the points shifted by the
offset are linearly independent. -/
theorem C26_returns (n : ℕ) (hn : 0 < n) (offset : Vec ℝ) (points : List (Vec ℝ))
    (hl : points.length = n) (hp : ∀ p ∈ points, p.n = n)
    (hind : ∀ c : Fin n → ℝ, (∀ j < n, ∑ i : Fin n, c i * ((points[i]'(by omega)).e j + offset.e j) = 0) →
      c = 0) : ∃ a d, Geom.plane_through_points offset points = .ok (a, d) :=
  plane_ok hn hl hp hind

/-- there are points and offsets for which it returns -/
example : ∃ a d, Geom.plane_through_points ⟨1, fun _ => 1 / 2⟩ [⟨1, fun _ => 3⟩] = .ok (a, d) := by
  refine C26_returns 1 (by norm_num) _ _ rfl (by simp) fun c hc => ?_
  have := hc 0 (by norm_num)
  funext i
  fin_cases i
  simp at this
  rcases this with h | h
  · exact h
  · norm_num at h

/-- C27, what holds: if `same_rows(A, B, normalize=False)` is `True`, the matrices have as many rows, and there is a
one to one matching of the rows under which matched rows agree within the tolerances of `allclose`, or one of them has a single entry and
agrees with each entry of the other one.

Missing with respect to C27: that matched rows have the same size, which is false (`C27_false`). -/
theorem C27_partial (A B : Mat ℝ) (h : Geom.same_rows A B false = .ok true) :
    A.nr = B.nr ∧ ∃ σ : Fin A.nr ≃ Fin B.nr, ∀ (i : Fin A.nr),
      (A.nc = B.nc ∧ ∀ j < A.nc, |A.e i j - B.e (σ i) j| ≤ 1e-8 + 1e-5 * |B.e (σ i) j|) ∨
      (A.nc = 1 ∧ B.nc ≠ 1 ∧ ∀ j < B.nc, |A.e i 0 - B.e (σ i) j| ≤ 1e-8 + 1e-5 * |B.e (σ i) j|) ∨
      (B.nc = 1 ∧ A.nc ≠ 1 ∧ ∀ j < A.nc, |A.e i j - B.e (σ i) 0| ≤ 1e-8 + 1e-5 * |B.e (σ i) 0|) := by
  unfold Geom.same_rows at h
  by_cases h1 : A.nr = B.nr
  · rw [if_neg (not_not.2 h1)] at h
    refine ⟨h1, ?_⟩
    simp only [Bool.false_eq_true, if_false, Geom.rowList, List.map_map] at h
    rw [← h1] at h
    obtain ⟨σ, hσ⟩ := compareRows_equiv h
    refine ⟨σ.trans (finCongr h1), fun i => ?_⟩
    rcases hσ i with ⟨h2, h3⟩ | ⟨h2, h4, h3⟩
    · simp only [Function.comp_apply, Geom.allclose, decide_eq_true_eq] at h3
      exact Or.inl ⟨h2, fun j hj => h3 j hj⟩
    · have e : ∀ (M : Mat ℝ) (i : ℕ), (M.row i).n = M.nc := fun _ _ => rfl
      simp only [Function.comp_apply, Geom.stretchRow, Geom.allclose, e] at h3
      by_cases hn : B.nc = 1
      · have hm : A.nc ≠ 1 := fun h => h2 (h.trans hn.symm)
        simp only [if_pos hn, if_neg hm, decide_eq_true_eq] at h3
        exact Or.inr (Or.inr ⟨hn, hm, fun j hj => h3 j hj⟩)
      · have hm : A.nc = 1 := h4.resolve_right hn
        simp only [if_neg hn, if_pos hm, decide_eq_true_eq] at h3
        exact Or.inr (Or.inl ⟨hm, hn, fun j hj => h3 j hj⟩)
  · rw [if_pos h1] at h
    cases h

/-- C27 is false of the code: `same_rows` and `same_vectors` are `True` for the vectors `[2, 2]` and `[2]`, which have different sizes. -/
theorem C27_false : Geom.same_rows ⟨1, 2, fun _ _ => 2⟩ ⟨1, 1, fun _ _ => 2⟩ false = .ok true ∧
    Geom.same_vectors [.d1 ⟨2, fun _ => 2⟩] [.d1 ⟨1, fun _ => 2⟩] = .ok true := by
  have key : ∀ A B : Mat ℝ, A.nr = 1 → A.nc = 2 → B.nr = 1 → B.nc = 1 → (∀ j, A.e 0 j = 2) → B.e 0 0 = 2 → Geom.same_rows A B false = .ok true := by
    intro A B h1 h2 h3 h4 h5 h6
    unfold Geom.same_rows
    rw [if_neg (by rw [h1, h3]; simp)]
    simp only [Geom.rowList, h1, h3, Geom.compareRows]
    rw [if_neg (by simp [h2, h4]), h2, h4]
    simp only [np.axisSize, or_true, if_true, Except.ok.injEq]
    have e1 : (A.row 0).n = 2 := h2
    have e2 : (B.row 0).n = 1 := h4
    have hc : Geom.allclose (Geom.stretchRow 2 (some (A.row 0))) (Geom.stretchRow 2 (some (B.row 0))) = true := by
      simp only [Geom.stretchRow, e1, e2, Geom.allclose, decide_eq_true_eq]
      intro i hi
      show |A.e 0 i - B.e 0 0| ≤ 1e-8 + 1e-5 * |B.e 0 0|
      rw [h5, h6]
      norm_num
    show Geom.matchRows _ [_] [_] = true
    exact matchRows_single _ _ _ hc
  exact ⟨key _ _ rfl rfl rfl rfl (fun _ => rfl) rfl,
    key (Mat.ofRow ⟨2, fun _ => 2⟩) (Mat.ofRow ⟨1, fun _ => 2⟩) rfl rfl rfl rfl (fun _ => rfl) rfl⟩

/-- two different matrices for which the answer is `True` -/
example : Geom.same_rows ⟨2, 1, fun i _ => if i = 0 then 1 else 2⟩ ⟨2, 1, fun i _ => if i = 0 then 2 else 1⟩
    false = .ok true := by
  have := matchRows_perm (close := Geom.allclose) (n := 2)
    (f := fun i => some (Mat.row ⟨2, 1, fun i _ => if i = 0 then 1 else 2⟩ i))
    (g := fun i => some (Mat.row ⟨2, 1, fun i _ => if i = 0 then 2 else 1⟩ i)) (Equiv.swap 0 1) (by
      intro i j
      fin_cases i <;> fin_cases j <;> simp [Geom.allclose, Mat.row] <;> norm_num)
  simp only [Geom.same_rows, Geom.rowList, List.map_map, compareRows_same rfl]
  simpa [Function.comp_def] using this

/-- C27, what holds for `same_vectors`: if the answer is `True` the two lists have the same length and there is a
one to one matching of their elements under which matched vectors agree within the tolerances of `allclose`, or one of them has a single entry
and agrees with each entry of the other one.

Missing with respect to C27: that matched vectors have the same size, which is false (`C27_false`). -/
theorem C27_vectors_partial (v u : List (NDArr ℝ)) (h : Geom.same_vectors v u = .ok true) :
    ∃ (v' u' : List (Vec ℝ)), v = v'.map .d1 ∧ u = u'.map .d1 ∧
    ∃ σ : Fin v'.length ≃ Fin u'.length, ∀ i : Fin v'.length,
      (v'[i].n = u'[σ i].n ∧ ∀ j < v'[i].n, |v'[i].e j - u'[σ i].e j| ≤ 1e-8 + 1e-5 * |u'[σ i].e j|) ∨
      (v'[i].n = 1 ∧ u'[σ i].n ≠ 1 ∧ ∀ j < u'[σ i].n, |v'[i].e 0 - u'[σ i].e j| ≤ 1e-8 + 1e-5 * |u'[σ i].e j|) ∨
      (u'[σ i].n = 1 ∧ v'[i].n ≠ 1 ∧ ∀ j < v'[i].n, |v'[i].e j - u'[σ i].e 0| ≤ 1e-8 + 1e-5 * |u'[σ i].e 0|) := by
  unfold Geom.same_vectors at h
  obtain ⟨v', hv, h⟩ := Py.bind_eq_ok h
  obtain ⟨u', hu, h⟩ := Py.bind_eq_ok h
  obtain ⟨V, hV, h⟩ := Py.bind_eq_ok h
  obtain ⟨U, hU, h⟩ := Py.bind_eq_ok h
  have key : ∀ {l : List (NDArr ℝ)} {l' : List (Vec ℝ)}, Geom.as1d l = .ok l' → l = l'.map .d1 := by
    intro l l' hl
    obtain ⟨h1, h2⟩ := mapM_ok_iff hl
    refine List.ext_getElem (by simp [h1]) fun i hi hi' => ?_
    have := h2 i hi (by omega)
    rw [List.getElem_map]
    cases hz : l[i] with
    | d1 w => rw [hz] at this; simp at this; rw [this]
    | d2 w => rw [hz] at this; simp at this
  refine ⟨v', u', key hv, key hu, ?_⟩
  obtain ⟨a1, a2, a3⟩ := vstack_ofRow hV
  obtain ⟨b1, b2, b3⟩ := vstack_ofRow hU
  obtain ⟨c1, σ, hσ⟩ := C27_partial V U h
  refine ⟨(finCongr a1.symm).trans (σ.trans (finCongr b1)), fun i => ?_⟩
  have e1 : v'[i].n = V.nc := a2 _ (List.getElem_mem _)
  have hu : (σ (finCongr a1.symm i) : ℕ) < u'.length := by rw [← b1]; exact (σ _).2
  have e2 : (u'[(σ (finCongr a1.symm i) : ℕ)]'hu).n = U.nc := b2 _ (List.getElem_mem _)
  have e3 : ∀ j, V.e (finCongr a1.symm i : Fin V.nr) j = v'[i].e j := fun j => a3 i i.2 j
  have e4 : ∀ j, U.e (σ (finCongr a1.symm i)) j = (u'[(σ (finCongr a1.symm i) : ℕ)]'hu).e j := fun j => b3 _ hu j
  have := hσ (finCongr a1.symm i)
  simp only [e3, e4, ← e1, ← e2] at this
  exact this

/-- C28 is false of the code: a matrix with two equal rows is not recognised as a permutation of itself,
with or without normalization. -/
theorem C28_false : ∃ A : Mat ℝ, 0 < A.nr ∧ ∀ b, Geom.same_rows A A b = .ok false := by
  refine ⟨⟨2, 1, fun _ _ => 1⟩, by norm_num, ?_⟩
  have key : ∀ a : Option (Vec ℝ), Geom.allclose a a = true →
      Geom.matchRows Geom.allclose [a, a] [a, a] = false := by
    intro a ha
    have : (List.range 2).filter (fun i => ([a, a][i]?).any (Geom.allclose a)) = [0, 1] := by
      rw [List.filter_eq_self.2]
      · rfl
      · intro i hi
        have : i < 2 := List.mem_range.1 hi
        interval_cases i <;> simp [ha]
    simp only [Geom.matchRows, List.length_cons, List.length_nil]
    rw [this]
  have hn : ∀ i, vnorm (Mat.row (⟨2, 1, fun _ _ => 1⟩ : Mat ℝ) i) = 1 := by
    intro i; simp [vnorm, Mat.row]
  intro b
  simp only [Geom.same_rows, Geom.rowList]
  simp only [ne_eq, not_true_eq_false, if_false, List.map_map, compareRows_same rfl, Except.ok.injEq]
  refine key _ ?_
  cases b <;> simp [Geom.allclose, Geom.normRow, hn] <;> norm_num

/-- C28, what holds: if no row of `A` is within the tolerances of `allclose` of another row of `A` (after
normalization, and no row vanishing, if `normalize` is true), and `B` is a row permutation of `A`, then
`same_rows(A, B)` is `True`.  Missing with respect to C28: matrices with repeated rows (false, see
`C28_false`) or with rows within the tolerances. -/
theorem C28_partial (A B : Mat ℝ) (hr : A.nr = B.nr) (hc : A.nc = B.nc) (σ : Fin B.nr ≃ Fin A.nr)
    (hσ : ∀ i : Fin B.nr, ∀ j < A.nc, B.e i j = A.e (σ i) j) (normalize : Bool)
    (hz : normalize = true → ∀ i < A.nr, ∃ j < A.nc, A.e i j ≠ 0)
    (hd : ∀ i < A.nr, ∀ k < A.nr, i ≠ k → 
      let s := fun i => if normalize then Real.sqrt (∑ j ∈ range A.nc, A.e i j ^ 2) else 1
      ∃ j < A.nc, 1e-8 + 1e-5 * |A.e k j / s k| < |A.e i j / s i - A.e k j / s k|) :
    Geom.same_rows A B normalize = .ok true := by
  have hs : ∀ i : Fin B.nr, Real.sqrt (∑ j ∈ range A.nc, A.e (σ i) j ^ 2) = vnorm (B.row i) := by
    intro i
    show _ = Real.sqrt (∑ j ∈ range B.nc, B.e i j ^ 2)
    rw [← hc]
    congr 1
    exact Finset.sum_congr rfl fun j hj => by rw [hσ i j (mem_range.1 hj)]
  have hA0 : normalize = true → ∀ i < A.nr, vnorm (A.row i) ≠ 0 := by
    intro hn i hi h0
    obtain ⟨j, hj, hj0⟩ := hz hn i hi
    exact hj0 (vnorm_eq_zero.1 h0 j hj)
  have key : ∀ (i : Fin A.nr) (k : Fin B.nr), Geom.allclose
      (if normalize then Geom.normRow (A.row i) else some (A.row i))
      (if normalize then Geom.normRow (B.row k) else some (B.row k)) = true ↔ i = σ k := by
    intro i k
    have hk := hs k
    cases normalize with
    | false =>
      simp only [Bool.false_eq_true, if_false, Geom.allclose, decide_eq_true_eq] at hd ⊢
      constructor
      · intro h
        by_contra hne
        obtain ⟨j, hj, hlt⟩ := hd i i.2 (σ k) (σ k).2 (fun h => hne (Fin.ext h))
        have := h j hj
        simp only [div_one] at hlt
        rw [← hσ k j hj] at hlt
        exact absurd hlt (not_lt.2 this)
      · rintro rfl j hj
        show |A.e (σ k) j - B.e k j| ≤ _
        rw [hσ k j hj, sub_self, abs_zero]
        positivity
    | true =>
      have hB0 : vnorm (B.row k) ≠ 0 := by rw [← hk]; exact hA0 rfl _ (σ k).2
      simp only [if_true, Geom.normRow, hA0 rfl i i.2, hB0, and_false, if_false, Geom.allclose,
        decide_eq_true_eq] at hd ⊢
      constructor
      · intro h
        by_contra hne
        obtain ⟨j, hj, hlt⟩ := hd i i.2 (σ k) (σ k).2 (fun h => hne (Fin.ext h))
        have := h j hj
        rw [← hσ k j hj, hk] at hlt
        exact absurd hlt (not_lt.2 this)
      · rintro rfl j hj
        show |A.e (σ k) j / vnorm (A.row (σ k)) - B.e k j / vnorm (B.row k)| ≤ _
        rw [hσ k j hj, ← hk]
        show |A.e (σ k) j / vnorm (A.row (σ k)) - A.e (σ k) j / vnorm (A.row (σ k))| ≤ _
        rw [sub_self, abs_zero]
        positivity
  unfold Geom.same_rows
  rw [if_neg (by rw [hr]; simp)]
  simp only []
  rw [compareRows_same hc]
  simp only [Geom.rowList, List.map_map, ← hr, Except.ok.injEq]
  exact matchRows_perm ((finCongr hr).trans σ) fun i k => key i (finCongr hr k)

/-- a matrix meeting the hypotheses, with normalization, and a permutation that is not the identity -/
example : Geom.same_rows ⟨2, 1, fun i _ => if i = 0 then 1 else -3⟩ ⟨2, 1, fun i _ => if i = 0 then -3 else 1⟩
    true = .ok true := by
  refine C28_partial ⟨2, 1, fun i _ => if i = 0 then 1 else -3⟩ ⟨2, 1, fun i _ => if i = 0 then -3 else 1⟩
    rfl rfl (show Fin 2 ≃ Fin 2 from Equiv.swap 0 1) ?_ true ?_ ?_
  · intro i j _
    fin_cases i <;> simp
  · intro _ i hi
    refine ⟨0, by norm_num, ?_⟩
    simp only []
    split_ifs <;> norm_num
  · intro i hi k hk hik
    refine ⟨0, by norm_num, ?_⟩
    have e1 : Real.sqrt ((-3) ^ 2) = 3 := by rw [show ((-3 : ℝ)) ^ 2 = 3 ^ 2 by norm_num]; exact Real.sqrt_sq (by norm_num)
    simp only [] at hi hk
    interval_cases i <;> interval_cases k <;> simp at hik ⊢ <;> norm_num

/-- C82: if `same_rows(A, B)` (with normalization) is `True` and the rows of both matrices have entries, the matrices have the same shape if they
have rows, no row vanishes and there is a one to one matching of the rows under which the normalized rows agree within the tolerances of `allclose`. -/
theorem C82 (A B : Mat ℝ) (hA : 0 < A.nc) (hB : 0 < B.nc) (h : Geom.same_rows A B true = .ok true) :
    A.nr = B.nr ∧ (0 < A.nr → A.nc = B.nc) ∧ ∃ σ : Fin A.nr ≃ Fin B.nr, ∀ (i : Fin A.nr),
      0 < ∑ j ∈ range A.nc, A.e i j ^ 2 ∧ 0 < ∑ j ∈ range B.nc, B.e (σ i) j ^ 2 ∧ ∀ j < A.nc,
      |A.e i j / Real.sqrt (∑ j ∈ range A.nc, A.e i j ^ 2)
        - B.e (σ i) j / Real.sqrt (∑ j ∈ range B.nc, B.e (σ i) j ^ 2)|
        ≤ 1e-8 + 1e-5 * |B.e (σ i) j / Real.sqrt (∑ j ∈ range B.nc, B.e (σ i) j ^ 2)| := by
  unfold Geom.same_rows at h
  by_cases h1 : A.nr = B.nr
  swap
  · rw [if_pos h1] at h
    cases h
  rw [if_neg (not_not.2 h1)] at h
  simp only [if_true, Geom.rowList, List.map_map] at h
  rw [← h1] at h
  obtain ⟨σ, hσ⟩ := compareRows_equiv h
  -- a normalized row with more than one entry does not agree with one number of modulus one
  have pos : ∀ (M : Mat ℝ) (i : ℕ), vnorm (M.row i) ≠ 0 → 0 < ∑ j ∈ range M.nc, M.e i j ^ 2 := fun M i h0 =>
    Real.sqrt_pos.1 (lt_of_le_of_ne (Real.sqrt_nonneg _) (Ne.symm h0))
  have unit : ∀ (M : Mat ℝ) (i : ℕ), vnorm (M.row i) ≠ 0 → ∑ j ∈ range M.nc, (M.e i j / vnorm (M.row i)) ^ 2 = 1 := fun M i h0 => by
    have : vnorm (M.row i) ^ 2 = ∑ j ∈ range M.nc, M.e i j ^ 2 := vnorm_sq _
    simp only [div_pow]
    rw [← Finset.sum_div, ← this, div_self (pow_ne_zero 2 h0)]
  have wide : ∀ (M : Mat ℝ) (i : ℕ), vnorm (M.row i) ≠ 0 → 0 < M.nc → (∀ j < M.nc, (0.9 : ℝ) ≤ |M.e i j / vnorm (M.row i)|) → M.nc = 1 := by
    intro M i h0 hpos hall
    by_contra hne
    have h9 : ∑ j ∈ range M.nc, (0.81 : ℝ) ≤ 1 := by
      rw [← unit M i h0]
      refine Finset.sum_le_sum fun j hj => ?_
      have := hall j (mem_range.1 hj)
      rw [← sq_abs]
      nlinarith
    rw [Finset.sum_const, card_range, nsmul_eq_mul] at h9
    have : (2 : ℝ) ≤ M.nc := by exact_mod_cast (by omega : 2 ≤ M.nc)
    linarith
  have unit1 : ∀ (M : Mat ℝ) (i : ℕ), vnorm (M.row i) ≠ 0 → M.nc = 1 → |M.e i 0 / vnorm (M.row i)| = 1 := by
    intro M i h0 hn
    have := unit M i h0
    rw [hn, Finset.sum_range_one] at this
    rw [← sq_abs] at this
    exact (pow_eq_one_iff_of_nonneg (abs_nonneg _) two_ne_zero).1 this
  have main : ∀ i : Fin A.nr, vnorm (A.row i) ≠ 0 ∧ vnorm (B.row (σ i)) ≠ 0 ∧ A.nc = B.nc ∧
      ∀ j < A.nc, |A.e i j / vnorm (A.row i) - B.e (σ i) j / vnorm (B.row (σ i))| ≤ 1e-8 + 1e-5 * |B.e (σ i) j / vnorm (B.row (σ i))| := by
    intro i
    have e : ∀ (M : Mat ℝ) (i : ℕ), (M.row i).n = M.nc := fun _ _ => rfl
    have en : ∀ (M : Mat ℝ), 0 < M.nc → ∀ i : ℕ, vnorm (M.row i) = 0 → Geom.normRow (M.row i) = none := fun M hM i h0 => if_pos ⟨hM.ne', h0⟩
    have es : ∀ (M : Mat ℝ) (i : ℕ), vnorm (M.row i) ≠ 0 → Geom.normRow (M.row i) = some ((M.row i).divS (vnorm (M.row i))) := fun M i h0 =>
      if_neg fun h => h0 h.2
    have hw : (if B.nc = 1 then A.nc else B.nc) ≠ 0 := by split_ifs <;> omega
    have hstr : Geom.stretchRow (if B.nc = 1 then A.nc else B.nc) none = none := if_neg hw
    have hn : vnorm (A.row i) ≠ 0 ∧ vnorm (B.row (σ i)) ≠ 0 := by
      constructor <;> intro h0
      · rcases hσ i with ⟨-, h3⟩ | ⟨-, -, h3⟩
        · simp only [Function.comp_apply, en A hA i h0, Geom.allclose, Bool.false_eq_true] at h3
        · simp only [Function.comp_apply, en A hA i h0, hstr, Geom.allclose, Bool.false_eq_true] at h3
      · rcases hσ i with ⟨-, h3⟩ | ⟨-, -, h3⟩
        · simp only [Function.comp_apply, en B hB (σ i) h0] at h3
          cases hq : Geom.normRow (A.row i) <;> rw [hq] at h3 <;> cases h3
        · simp only [Function.comp_apply, en B hB (σ i) h0, hstr] at h3
          cases hq : Geom.stretchRow (if B.nc = 1 then A.nc else B.nc) (Geom.normRow (A.row i)) <;> rw [hq] at h3 <;> cases h3
    refine ⟨hn.1, hn.2, ?_⟩
    rcases hσ i with ⟨h2, h3⟩ | ⟨h2, h4, h3⟩
    · simp only [Function.comp_apply, es A i hn.1, es B (σ i) hn.2, Geom.allclose, decide_eq_true_eq] at h3
      exact ⟨h2, fun j hj => h3 j hj⟩
    · exfalso
      have ed : ∀ (M : Mat ℝ) (i : ℕ) (s : ℝ), ((M.row i).divS s).n = M.nc := fun _ _ _ => rfl
      simp only [Function.comp_apply, es A i hn.1, es B (σ i) hn.2, Geom.stretchRow, Geom.allclose, ed] at h3
      by_cases hb : B.nc = 1
      · have hm : A.nc ≠ 1 := fun h => h2 (h.trans hb.symm)
        simp only [if_pos hb, if_neg hm, decide_eq_true_eq] at h3
        refine hm (wide A i hn.1 hA fun j hj => ?_)
        have h5 : |A.e i j / vnorm (A.row i) - B.e (σ i) 0 / vnorm (B.row (σ i))| ≤ 1e-8 + 1e-5 * |B.e (σ i) 0 / vnorm (B.row (σ i))| := h3 j hj
        have h6 := unit1 B (σ i) hn.2 hb
        have h7 := abs_sub_abs_le_abs_sub (B.e (σ i) 0 / vnorm (B.row (σ i))) (A.e i j / vnorm (A.row i))
        rw [abs_sub_comm] at h7
        rw [h6] at h5 h7
        norm_num at h5 h7 ⊢
        linarith
      · have hm : A.nc = 1 := h4.resolve_right hb
        simp only [if_neg hb, if_pos hm, decide_eq_true_eq] at h3
        refine hb (wide B (σ i) hn.2 hB fun j hj => ?_)
        have h5 : |A.e i 0 / vnorm (A.row i) - B.e (σ i) j / vnorm (B.row (σ i))| ≤ 1e-8 + 1e-5 * |B.e (σ i) j / vnorm (B.row (σ i))| := h3 j hj
        have h6 := unit1 A i hn.1 hm
        have h7 := abs_sub_abs_le_abs_sub (A.e i 0 / vnorm (A.row i)) (B.e (σ i) j / vnorm (B.row (σ i)))
        rw [h6] at h7
        norm_num at h5 h7 ⊢
        linarith
  refine ⟨h1, fun h0 => (main ⟨0, h0⟩).2.2.1, σ.trans (finCongr h1), fun i => ?_⟩
  obtain ⟨m1, m2, -, m3⟩ := main i
  exact ⟨pos A i m1, pos B (σ i) m2, m3⟩

end Verif.Props
