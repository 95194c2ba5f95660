import Verif.Model.GeomUtils
import Verif.Proofs.QP
import Mathlib.LinearAlgebra.FiniteDimensional.Lemmas
import Mathlib.LinearAlgebra.Matrix.Rank

/- Lemmas about `geometry/utils.py`. -/
namespace Verif
open Finset Matrix Classical

/-! ### stacking rows -/

theorem vstack_ofRow {l : List (Vec ℝ)} {P : Mat ℝ} (h : np.vstack (l.map Mat.ofRow) = .ok P) :
    P.nr = l.length ∧ (∀ v ∈ l, v.n = P.nc) ∧ ∀ i (hi : i < l.length) j, P.e i j = l[i].e j := by
  induction l generalizing P with
  | nil => cases h
  | cons a l ih =>
    cases l with
    | nil =>
      simp only [List.map_cons, List.map_nil, np.vstack] at h
      cases h
      refine ⟨rfl, by simp, fun i hi j => ?_⟩
      simp at hi; subst hi; rfl
    | cons b l =>
      simp only [List.map_cons, np.vstack] at h ih
      obtain ⟨Q, hQ, h2⟩ := Py.bind_eq_ok h
      obtain ⟨q1, q2, q3⟩ := ih hQ
      unfold np.vstack2 at h2
      split_ifs at h2 with hc
      cases h2
      refine ⟨?_, ?_, ?_⟩
      · show 1 + Q.nr = _
        rw [q1]; simp; omega
      · intro v hv
        rcases List.mem_cons.1 hv with rfl | hv
        · rfl
        · rw [q2 v hv]; exact hc.symm
      · intro i hi j
        match i with
        | 0 => rfl
        | i + 1 =>
          have : ((Mat.ofRow a).vapp Q).e (i + 1) j = Q.e i j := by
            rw [add_comm]; exact Mat.vapp_e_add (Mat.ofRow a) Q i j
          rw [this, q3 i (by simpa using hi) j]; rfl

theorem vstack_ofRow_ok {l : List (Vec ℝ)} (hl : l ≠ []) {n : ℕ} (hn : ∀ v ∈ l, v.n = n) :
    ∃ P, np.vstack (l.map Mat.ofRow) = .ok P ∧ P.nc = n := by
  induction l with
  | nil => exact absurd rfl hl
  | cons a l ih =>
    match l, ih with
    | [], ih => exact ⟨Mat.ofRow a, rfl, hn a (by simp)⟩
    | b :: l, ih =>
      obtain ⟨Q, hQ, hQn⟩ := ih (by simp) (fun v hv => hn v (List.mem_cons_of_mem _ hv))
      refine ⟨(Mat.ofRow a).vapp Q, ?_, hn a (by simp)⟩
      have : (Mat.ofRow a).nc = Q.nc := by rw [hQn]; exact hn a (by simp)
      simp only [List.map_cons, np.vstack] at hQ ⊢
      rw [hQ, Py.ok_bind]
      exact if_pos this

/-! ### nullspace -/

/-- the value of `nullspace_basis(A)` -/
noncomputable def Geom.nullBasis (L : Lib) (A : Mat ℝ) : Mat ℝ := Geom.colsFromRank (L.svdV A) (np.matrix_rank A)

theorem nullspace_ok (L : Lib) {A : Mat ℝ} (hr : 0 < A.nr) (hc : 0 < A.nc) : Geom.nullspace_basis L A = .ok (Geom.nullBasis L A) := by
  unfold Geom.nullspace_basis np.rank
  rw [if_neg (by omega)]
  rfl

theorem nullspace_err (L : Lib) {A : Mat ℝ} (h : A.nr = 0 ∨ A.nc = 0) : Geom.nullspace_basis L A = .error .valueError := by
  unfold Geom.nullspace_basis np.rank
  rw [if_pos h]
  rfl

theorem nullspace_val (L : Lib) {A N : Mat ℝ} (h : Geom.nullspace_basis L A = .ok N) : N = Geom.nullBasis L A := by
  by_cases h0 : A.nr = 0 ∨ A.nc = 0
  · rw [nullspace_err L h0] at h
    cases h
  · rw [nullspace_ok L (by omega) (by omega)] at h
    exact (Except.ok.inj h).symm

theorem nullspace_nr (L : Lib) (hL : LibSpec L) (A : Mat ℝ) : (Geom.nullBasis L A).nr = A.nc :=
  hL.svd_nr A

theorem nullspace_nc (L : Lib) (hL : LibSpec L) (A : Mat ℝ) :
    (Geom.nullBasis L A).nc = A.nc - np.matrix_rank A := by
  show (L.svdV A).nc - _ = _
  rw [hL.svd_nc]

theorem rank_le_nc (A : Mat ℝ) : np.matrix_rank A ≤ A.nc := by
  unfold np.matrix_rank
  have := Matrix.rank_le_width (A.asM A.nr A.nc)
  simpa using this

theorem nullspace_orth {L : Lib} (hL : LibSpec L) (A : Mat ℝ) :
    ((Geom.nullBasis L A).asM A.nc (A.nc - np.matrix_rank A))ᵀ
      * (Geom.nullBasis L A).asM A.nc (A.nc - np.matrix_rank A) = 1 := by
  have hr := rank_le_nc A
  ext i j
  have h := congrFun (congrFun (hL.svd_orth A) ⟨np.matrix_rank A + i, by omega⟩) ⟨np.matrix_rank A + j, by omega⟩
  rw [Matrix.mul_apply] at h ⊢
  refine Eq.trans h ?_
  by_cases hij : i = j
  · subst hij; rw [Matrix.one_apply_eq, Matrix.one_apply_eq]
  · rw [Matrix.one_apply_ne hij, Matrix.one_apply_ne]
    intro h'; apply hij; ext
    have := congrArg Fin.val h'
    simpa using this

theorem nullspace_ker {L : Lib} (hL : LibSpec L) (A : Mat ℝ) :
    A.asM A.nr A.nc * (Geom.nullBasis L A).asM A.nc (A.nc - np.matrix_rank A) = 0 := by
  have hr := rank_le_nc A
  ext i j
  have h := hL.svd_ker A (np.matrix_rank A + j) (by omega) (by omega) i i.2
  rw [Mat.mul_e, Finset.sum_range] at h
  rw [Matrix.mul_apply]
  exact h

theorem nullspace_span {L : Lib} (hL : LibSpec L) (A : Mat ℝ) {x : Fin A.nc → ℝ}
    (hx : A.asM A.nr A.nc *ᵥ x = 0) :
    ∃ y, x = (Geom.nullBasis L A).asM A.nc (A.nc - np.matrix_rank A) *ᵥ y := by
  set Z := (Geom.nullBasis L A).asM A.nc (A.nc - np.matrix_rank A) with hZ
  set M := A.asM A.nr A.nc with hM
  have hZZ : Zᵀ * Z = 1 := nullspace_orth hL A
  have hMZ : M * Z = 0 := nullspace_ker hL A
  have hle : LinearMap.range Z.mulVecLin ≤ LinearMap.ker M.mulVecLin := by
    rintro _ ⟨y, rfl⟩
    rw [LinearMap.mem_ker]
    simp only [mulVecLin_apply, mulVec_mulVec, hMZ, zero_mulVec]
  have hinj : Function.Injective Z.mulVecLin := by
    intro a b hab
    have := congrArg (fun v => Zᵀ *ᵥ v) hab
    simpa [mulVec_mulVec, hZZ] using this
  have hd1 : Module.finrank ℝ (LinearMap.range Z.mulVecLin) = A.nc - np.matrix_rank A := by
    rw [LinearMap.finrank_range_of_inj hinj]; simp
  have hd2 : Module.finrank ℝ (LinearMap.ker M.mulVecLin) = A.nc - np.matrix_rank A := by
    have h := LinearMap.finrank_range_add_finrank_ker M.mulVecLin
    have h3 : Module.finrank ℝ (LinearMap.range M.mulVecLin) = np.matrix_rank A := rfl
    rw [h3] at h
    simp at h
    omega
  have heq := Submodule.eq_of_le_of_finrank_eq hle (hd1.trans hd2.symm)
  have hxk : x ∈ LinearMap.ker M.mulVecLin := hx
  rw [← heq] at hxk
  obtain ⟨y, hy⟩ := hxk
  exact ⟨y, hy.symm⟩

/-! ### independent rows -/

theorem independent_rows {L : Lib} (hL : LibSpec L) (A : Mat ℝ) {tol : ℝ} (htol : 0 ≤ tol) (c : ℕ → ℝ)
    (h0 : ∀ i ∉ Geom.linearly_independent_rows L A tol, c i = 0)
    (hc : ∀ j < A.nc, ∑ i ∈ range A.nr, c i * A.e i j = 0) : ∀ i, c i = 0 := by
  set k := min A.nc A.nr with hk
  obtain ⟨Q, hQQ, hQR⟩ : ∃ Q : Matrix (Fin A.nc) (Fin k) ℝ, Qᵀ * Q = 1 ∧
      Q * (L.qrR A.T).asM k A.nr = A.T.asM A.nc A.nr := hL.qr_eq A.T
  have hnr : (L.qrR A.T).nr = k := hL.qr_nr A.T
  have hnc : (L.qrR A.T).nc = A.nr := hL.qr_nc A.T
  have hmem : ∀ i, i ∈ Geom.linearly_independent_rows L A tol → i < k ∧ tol < |(L.qrR A.T).e i i| := by
    intro i hi
    simp only [Geom.linearly_independent_rows, List.mem_filter, List.mem_range, decide_eq_true_eq, hnr, hnc] at hi
    exact ⟨by omega, hi.2⟩
  have hRc : (L.qrR A.T).asM k A.nr *ᵥ (fun i : Fin A.nr => c i) = 0 := by
    have h1 : A.T.asM A.nc A.nr *ᵥ (fun i : Fin A.nr => c i) = 0 := by
      funext j
      rw [Pi.zero_apply, ← hc j j.2, Finset.sum_range]
      show ∑ i : Fin A.nr, A.e i j * c i = _
      exact Finset.sum_congr rfl fun i _ => mul_comm _ _
    have h2 : Qᵀ *ᵥ (A.T.asM A.nc A.nr *ᵥ (fun i : Fin A.nr => c i)) = 0 := by rw [h1, mulVec_zero]
    rw [← hQR, mulVec_mulVec, ← Matrix.mul_assoc, hQQ, Matrix.one_mul] at h2
    exact h2
  -- the largest index with a nonzero coefficient
  by_contra hne
  push Not at hne
  have hfin : ∀ i, c i ≠ 0 → i < k := by
    intro i hi
    by_contra hik
    exact hi (h0 i fun h => hik (hmem i h).1)
  obtain ⟨i0, hi0⟩ := hne
  have hnon : ((range k).filter fun i => c i ≠ 0).Nonempty :=
    ⟨i0, by simp [hi0, hfin i0 hi0]⟩
  obtain ⟨i, hi, hmax⟩ := Finset.exists_max_image _ id hnon
  simp only [mem_filter, mem_range, id] at hi hmax
  have hik : i < A.nr := by omega
  have h1 := congrFun hRc ⟨i, hi.1⟩
  rw [Pi.zero_apply] at h1
  have h2 : ∑ j ∈ range A.nr, (L.qrR A.T).e i j * c j = 0 := by
    rw [Finset.sum_range]; exact h1
  rw [Finset.sum_eq_single i] at h2
  · rcases mul_eq_zero.1 h2 with h | h
    · have hs : i ∈ Geom.linearly_independent_rows L A tol := by
        by_contra hn; exact hi.2 (h0 i hn)
      have := (hmem i hs).2
      rw [h, abs_zero] at this
      linarith
    · exact hi.2 h
  · intro j hj hji
    rcases Nat.lt_or_gt_of_ne hji with h | h
    · rw [hL.qr_tri A.T i j h hi.1, zero_mul]
    · have : c j = 0 := by
        by_contra hcj
        have := hmax j ⟨hfin j hcj, hcj⟩
        omega
      rw [this, mul_zero]
  · intro h; exact absurd (mem_range.2 hik) h

/-- a combination of the rows of `A` is as long as the same combination of the columns of `R` -/
theorem qr_length {L : Lib} (hL : LibSpec L) (A : Mat ℝ) (c : ℕ → ℝ) :
    ∑ j ∈ range A.nc, (∑ m ∈ range A.nr, c m * A.e m j) ^ 2
      = ∑ a ∈ range (min A.nc A.nr), (∑ m ∈ range A.nr, (L.qrR A.T).e a m * c m) ^ 2 := by
  set k := min A.nc A.nr with hk
  obtain ⟨Q, hQQ, hQR⟩ : ∃ Q : Matrix (Fin A.nc) (Fin k) ℝ, Qᵀ * Q = 1 ∧
      Q * (L.qrR A.T).asM k A.nr = A.T.asM A.nc A.nr := hL.qr_eq A.T
  set w : Fin A.nr → ℝ := fun i => c i with hw
  set v : Fin k → ℝ := (L.qrR A.T).asM k A.nr *ᵥ w with hv
  have h1 : Q *ᵥ v = A.T.asM A.nc A.nr *ᵥ w := by rw [hv, mulVec_mulVec, hQR]
  have h2 : (Q *ᵥ v) ⬝ᵥ (Q *ᵥ v) = v ⬝ᵥ v := by
    rw [dotProduct_mulVec, vecMul_mulVec, hQQ, Matrix.vecMul_one]
  have h3 : ∑ j ∈ range A.nc, (∑ m ∈ range A.nr, c m * A.e m j) ^ 2 = (Q *ᵥ v) ⬝ᵥ (Q *ᵥ v) := by
    rw [h1, Finset.sum_range]
    refine Finset.sum_congr rfl fun j _ => ?_
    have : ∑ m ∈ range A.nr, c m * A.e m j = (A.T.asM A.nc A.nr *ᵥ w) j := by
      rw [Finset.sum_range]
      exact Finset.sum_congr rfl fun i _ => mul_comm _ _
    rw [this, pow_two]
  rw [h3, h2, Finset.sum_range]
  refine Finset.sum_congr rfl fun a _ => ?_
  rw [Finset.sum_range, pow_two]
  rfl

/-- which of the rows that follow independent ones are selected -/
theorem selected_rows {L : Lib} (hL : LibSpec L) (A : Mat ℝ) {tol : ℝ} (htol : 0 ≤ tol) {i : ℕ} (hi : i < A.nr) :
    (i ∈ Geom.linearly_independent_rows L A tol →
      ∀ c : ℕ → ℝ, tol ^ 2 < ∑ j ∈ range A.nc, (A.e i j - ∑ m ∈ range i, c m * A.e m j) ^ 2) ∧
    ((∀ c : ℕ → ℝ, (∀ j < A.nc, ∑ m ∈ range i, c m * A.e m j = 0) → ∀ m < i, c m = 0) →
      (∀ c : ℕ → ℝ, tol ^ 2 < ∑ j ∈ range A.nc, (A.e i j - ∑ m ∈ range i, c m * A.e m j) ^ 2) →
      i ∈ Geom.linearly_independent_rows L A tol) := by
  set R := L.qrR A.T with hR
  set k := min A.nc A.nr with hk
  have hnr : R.nr = k := hL.qr_nr A.T
  have hnc : R.nc = A.nr := hL.qr_nc A.T
  have hmem : i ∈ Geom.linearly_independent_rows L A tol ↔ i < k ∧ tol < |R.e i i| := by
    simp only [Geom.linearly_independent_rows, List.mem_filter, List.mem_range, decide_eq_true_eq, ← hR, hnr, hnc]
    constructor
    · exact fun h => ⟨by omega, h.2⟩
    · exact fun h => ⟨by omega, h.2⟩
  -- the combination `row i - ∑ c m row m`
  set d : (ℕ → ℝ) → ℕ → ℝ := fun c m => if m < i then - c m else if m = i then 1 else 0 with hd
  have hcut : ∀ (c F : ℕ → ℝ), ∑ m ∈ range A.nr, d c m * F m = F i - ∑ m ∈ range i, c m * F m := by
    intro c F
    rw [← Finset.sum_range_add_sum_Ico _ (show i + 1 ≤ A.nr by omega), Finset.sum_range_succ]
    rw [Finset.sum_eq_zero (s := Finset.Ico (i + 1) A.nr) fun m hm => by
      have := (Finset.mem_Ico.1 hm).1
      simp only [hd]
      rw [if_neg (by omega), if_neg (by omega), zero_mul]]
    have h1 : ∑ m ∈ range i, d c m * F m = - ∑ m ∈ range i, c m * F m := by
      rw [← Finset.sum_neg_distrib]
      refine Finset.sum_congr rfl fun m hm => ?_
      simp only [hd]
      rw [if_pos (mem_range.1 hm)]; ring
    have h2 : d c i = 1 := by simp [hd]
    rw [h1, h2]; ring
  have hlen : ∀ c : ℕ → ℝ, ∑ j ∈ range A.nc, (A.e i j - ∑ m ∈ range i, c m * A.e m j) ^ 2
      = ∑ a ∈ range k, (R.e a i - ∑ m ∈ range i, c m * R.e a m) ^ 2 := by
    intro c
    have h := qr_length hL A (d c)
    refine Eq.trans ?_ (h.trans ?_)
    · exact Finset.sum_congr rfl fun j _ => by rw [← hcut c fun m => A.e m j]
    · refine Finset.sum_congr rfl fun a _ => ?_
      rw [← hcut c fun m => R.e a m]
      congr 1
      exact Finset.sum_congr rfl fun m _ => mul_comm _ _
  have hdiag : ∀ c : ℕ → ℝ, i < k → R.e i i - ∑ m ∈ range i, c m * R.e i m = R.e i i := by
    intro c hik
    rw [Finset.sum_eq_zero fun m hm => by rw [hL.qr_tri A.T i m (mem_range.1 hm) hik, mul_zero], sub_zero]
  constructor
  · intro h c
    obtain ⟨hik, ht⟩ := hmem.1 h
    rw [hlen]
    refine lt_of_lt_of_le ?_ (Finset.single_le_sum (f := fun a => (R.e a i - ∑ m ∈ range i, c m * R.e a m) ^ 2)
      (fun _ _ => sq_nonneg _) (mem_range.2 hik))
    show _ < (R.e i i - ∑ m ∈ range i, c m * R.e i m) ^ 2
    rw [hdiag c hik, ← sq_abs (R.e i i)]
    exact pow_lt_pow_left₀ ht htol two_ne_zero
  · intro hind hall
    by_cases hik : i < k
    · refine hmem.2 ⟨hik, ?_⟩
      -- the leading block of `R` can be inverted
      let T : (Fin i → ℝ) →ₗ[ℝ] (Fin i → ℝ) := Matrix.mulVecLin (R.asM i i)
      have hinj : Function.Injective T := by
        rw [← LinearMap.ker_eq_bot, LinearMap.ker_eq_bot']
        intro u hu
        let c : ℕ → ℝ := fun m => if h : m < i then u ⟨m, h⟩ else 0
        have hc0 : ∀ m < i, c m = 0 := by
          refine hind c fun j hj => ?_
          let c' : ℕ → ℝ := fun m => if m < i then c m else 0
          have hsum : ∀ F : ℕ → ℝ, ∑ m ∈ range A.nr, c' m * F m = ∑ m ∈ range i, c m * F m := by
            intro F
            rw [← Finset.sum_range_add_sum_Ico _ hi.le, Finset.sum_eq_zero (s := Finset.Ico i A.nr) fun m hm => by
              have := (Finset.mem_Ico.1 hm).1
              simp only [c']
              rw [if_neg (by omega), zero_mul], add_zero]
            exact Finset.sum_congr rfl fun m hm => by simp only [c']; rw [if_pos (mem_range.1 hm)]
          have h0 := qr_length hL A c'
          have hz : ∑ a ∈ range k, (∑ m ∈ range A.nr, R.e a m * c' m) ^ 2 = 0 := by
            refine Finset.sum_eq_zero fun a ha => ?_
            have e1 : ∑ m ∈ range A.nr, R.e a m * c' m = ∑ m ∈ range i, c m * R.e a m := by
              rw [← hsum fun m => R.e a m]
              exact Finset.sum_congr rfl fun m _ => mul_comm _ _
            rw [e1]
            by_cases hai : a < i
            · have h3 := congrFun hu ⟨a, hai⟩
              have h4 : ∑ m : Fin i, R.e a m * u m = 0 := h3
              have : ∑ m ∈ range i, c m * R.e a m = 0 := by
                rw [Finset.sum_range, ← h4]
                refine Finset.sum_congr rfl fun m _ => ?_
                simp only [c]
                rw [dif_pos m.2, mul_comm]
              rw [this]; norm_num
            · rw [Finset.sum_eq_zero fun m hm => by
                rw [hL.qr_tri A.T a m (by have := mem_range.1 hm; omega) (mem_range.1 ha), mul_zero]]
              norm_num
          have h5 := h0.trans hz
          have h6 := (Finset.sum_eq_zero_iff_of_nonneg fun _ _ => sq_nonneg _).1 h5 j (mem_range.2 hj)
          rw [← hsum fun m => A.e m j]
          exact pow_eq_zero_iff two_ne_zero |>.1 h6
        funext m
        have := hc0 m m.2
        simpa [c] using this
      obtain ⟨u, hu⟩ := LinearMap.surjective_of_injective hinj fun a => R.e a i
      let c : ℕ → ℝ := fun m => if h : m < i then u ⟨m, h⟩ else 0
      have h := hall c
      rw [hlen, Finset.sum_eq_single i] at h
      · rw [hdiag c hik, ← sq_abs (R.e i i)] at h
        exact lt_of_pow_lt_pow_left₀ 2 (abs_nonneg _) h
      · intro a ha hne
        have hak := mem_range.1 ha
        rcases Nat.lt_or_gt_of_ne hne with hai | hai
        · have h3 := congrFun hu ⟨a, hai⟩
          have h4 : ∑ m : Fin i, R.e a m * u m = R.e a i := h3
          have : ∑ m ∈ range i, c m * R.e a m = R.e a i := by
            rw [Finset.sum_range, ← h4]
            refine Finset.sum_congr rfl fun m _ => ?_
            simp only [c]
            rw [dif_pos m.2, mul_comm]
          rw [this]; norm_num
        · rw [hL.qr_tri A.T a i hai hak, Finset.sum_eq_zero fun m hm => by
            rw [hL.qr_tri A.T a m (by have := mem_range.1 hm; omega) hak, mul_zero]]
          norm_num
      · exact fun h => absurd (mem_range.2 hik) h
    · exfalso
      -- more independent rows than entries
      let T : (Fin i → ℝ) →ₗ[ℝ] (Fin A.nc → ℝ) := Matrix.mulVecLin (A.T.asM A.nc i)
      have hT : ∀ u j, T u j = ∑ m : Fin i, A.e m j * u m := fun _ _ => rfl
      have hinj : Function.Injective T := by
        rw [← LinearMap.ker_eq_bot, LinearMap.ker_eq_bot']
        intro u hu
        have h0 := hind (fun m => if h : m < i then u ⟨m, h⟩ else 0) fun j hj => by
          have h3 := congrFun hu ⟨j, hj⟩
          rw [hT, Pi.zero_apply] at h3
          rw [Finset.sum_range, ← h3]
          exact Finset.sum_congr rfl fun m _ => by rw [dif_pos m.2, mul_comm]
        funext m
        simpa using h0 m m.2
      have hle : i ≤ A.nc := by simpa using LinearMap.finrank_le_finrank_of_injective hinj
      have hin : i = A.nc := by omega
      obtain ⟨u, hu⟩ := (LinearMap.injective_iff_surjective_of_finrank_eq_finrank (f := T) (by simp [hin])).1 hinj fun j => A.e i j
      have h := hall fun m => if h : m < i then u ⟨m, h⟩ else 0
      rw [Finset.sum_eq_zero fun j hj => ?_] at h
      · exact absurd h (not_lt.2 (sq_nonneg tol))
      · have h3 := congrFun hu ⟨j, mem_range.1 hj⟩
        rw [hT] at h3
        have : ∑ m ∈ range i, (if h : m < i then u ⟨m, h⟩ else 0) * A.e m j = A.e i j := by
          rw [Finset.sum_range, ← h3]
          exact Finset.sum_congr rfl fun m _ => by rw [dif_pos m.2, mul_comm]
        rw [this]; norm_num

/-! ### matching of rows -/

theorem matchRows_sound {α β : Type} {close : α → α → Bool} (f : β → α) {as : List α} {js : List β}
    (hlen : as.length = js.length) (h : Geom.matchRows close as (js.map f) = true) :
    ∃ js', js'.Perm js ∧ List.Forall₂ (fun a j => close a (f j) = true) as js' := by
  induction as generalizing js with
  | nil =>
    have : js = [] := by simpa using hlen.symm
    subst this
    exact ⟨[], .refl _, .nil⟩
  | cons a as ih =>
    unfold Geom.matchRows at h
    split at h
    · rename_i i hi
      have him : i ∈ (List.range (js.map f).length).filter fun i => ((js.map f)[i]?).any (close a) := by
        rw [hi]; simp
      simp only [List.length_map, List.mem_filter, List.mem_range, Option.any_eq_true] at him
      obtain ⟨hil, b, hb, hab⟩ := him
      rw [List.getElem?_map, List.getElem?_eq_getElem hil, Option.map_some] at hb
      cases hb
      have he : (js.map f).eraseIdx i = (js.eraseIdx i).map f := by rw [List.eraseIdx_map]
      rw [he] at h
      have hl' : as.length = (js.eraseIdx i).length := by
        rw [List.length_eraseIdx_of_lt hil]; simp at hlen; omega
      obtain ⟨js', h1, h2⟩ := ih hl' h
      refine ⟨js[i] :: js', ?_, .cons hab h2⟩
      exact (h1.cons _).trans (List.getElem_cons_eraseIdx_perm hil)
    · cases h

theorem filter_range_unique {n k : ℕ} {p : ℕ → Bool} (hk : k < n) (hpk : p k = true)
    (hu : ∀ i < n, p i = true → i = k) : (List.range n).filter p = [k] := by
  have hnd : ((List.range n).filter p).Nodup := List.Nodup.filter _ List.nodup_range
  have hmem : ∀ i, i ∈ (List.range n).filter p ↔ i ∈ [k] := by
    intro i
    simp only [List.mem_filter, List.mem_range, List.mem_singleton]
    constructor
    · rintro ⟨h1, h2⟩; exact hu i h1 h2
    · rintro rfl; exact ⟨hk, hpk⟩
  exact List.perm_singleton.1 ((List.perm_ext_iff_of_nodup hnd (List.nodup_singleton k)).2 hmem)

theorem matchRows_complete {α β : Type} {close : α → α → Bool} (f g : β → α) {is js : List β}
    (hp : is.Perm js) (hnd : is.Nodup)
    (hc : ∀ i ∈ is, ∀ j ∈ is, close (f i) (g j) = true ↔ i = j) :
    Geom.matchRows close (is.map f) (js.map g) = true := by
  induction is generalizing js with
  | nil => rfl
  | cons a as ih =>
    have hndj : js.Nodup := hp.nodup_iff.1 hnd
    have haj : a ∈ js := hp.mem_iff.1 (by simp)
    obtain ⟨k, hk, hka⟩ := List.mem_iff_getElem.1 haj
    have hfil : (List.range (js.map g).length).filter (fun i => ((js.map g)[i]?).any (close (f a))) = [k] := by
      rw [List.length_map]
      refine filter_range_unique hk ?_ ?_
      · rw [List.getElem?_map, List.getElem?_eq_getElem hk, hka]
        simp only [Option.map_some, Option.any_some]
        exact (hc a (by simp) a (by simp)).2 rfl
      · intro i hi h
        rw [List.getElem?_map, List.getElem?_eq_getElem hi] at h
        simp only [Option.map_some, Option.any_some] at h
        have h1 := (hc a (by simp) js[i] (hp.mem_iff.2 (List.getElem_mem hi))).1 h
        exact (List.Nodup.getElem_inj_iff hndj).1 (h1.symm.trans hka.symm)
    rw [List.map_cons]
    unfold Geom.matchRows
    rw [hfil]
    simp only []
    rw [List.eraseIdx_map]
    refine ih ?_ (List.nodup_cons.1 hnd).2 (fun i hi j hj => hc i (by simp [hi]) j (by simp [hj]))
    have h1 := List.getElem_cons_eraseIdx_perm hk
    rw [hka] at h1
    exact (hp.trans h1.symm).cons_inv

/-! ### planes -/

theorem mapM_ok_iff {α β : Type} {f : α → Py β} {l : List α} {r : List β} (h : l.mapM f = .ok r) :
    r.length = l.length ∧ ∀ i (hi : i < l.length) (hi' : i < r.length), f l[i] = .ok r[i] := by
  induction l generalizing r with
  | nil =>
    rw [List.mapM_nil] at h; cases h; exact ⟨rfl, fun i hi => by simp at hi⟩
  | cons a l ih =>
    rw [List.mapM_cons] at h
    obtain ⟨b, hb, h2⟩ := Py.bind_eq_ok h
    obtain ⟨bs, hbs, h3⟩ := Py.bind_eq_ok h2
    cases h3
    obtain ⟨i1, i2⟩ := ih hbs
    refine ⟨by simp [i1], fun i hi hi' => ?_⟩
    match i with
    | 0 => exact hb
    | i + 1 => exact i2 i (by simpa using hi) (by simpa using hi')

theorem signOf_sq (d : ℝ) : Geom.signOf d * Geom.signOf d = 1 := by
  unfold Geom.signOf; split_ifs <;> norm_num

theorem div_signOf_nonneg (d : ℝ) {c : ℝ} (hc : 0 < c) : 0 ≤ d / (c * Geom.signOf d) := by
  unfold Geom.signOf
  split_ifs with h
  · have : c * -1 < 0 := by linarith
    exact (div_pos_of_neg_of_neg h this).le
  · push Not at h
    rw [mul_one]; positivity

/-- what `planeOffset` computes -/
theorem planeOffset_run {offset : Vec ℝ} {points : List (Vec ℝ)} {a : Vec ℝ} {d : ℝ}
    (hsz : ∀ p ∈ points, p.n = offset.n) (h : Geom.planeOffset offset points = .ok (a, d)) :
    ∃ (n : ℕ) (a0 : Vec ℝ), offset.n = n ∧ points.length = n ∧ 0 < n ∧ (∀ p ∈ points, p.n = n) ∧ a0.n = n ∧
      (∀ p ∈ points, ∑ j ∈ range n, a0.e j * (p.e j + offset.e j) = 1) ∧
      (∀ v : Vec ℝ, (∃ c, ∀ p ∈ points, ∑ j ∈ range n, v.e j * (p.e j + offset.e j) = c) →
        ∃ c, ∀ j < n, v.e j = c * a0.e j) ∧
      (let d0 := 1 - ∑ j ∈ range n, a0.e j * offset.e j
       let s := vnorm a0 * Geom.signOf d0
       a = a0.divS s ∧ d = d0 / s) := by
  unfold Geom.planeOffset at h
  obtain ⟨pts, hpts, h⟩ := Py.bind_eq_ok h
  obtain ⟨p0, hp0, h⟩ := Py.bind_eq_ok h
  obtain ⟨P, hP, h⟩ := Py.bind_eq_ok h
  obtain ⟨a0, ha0, h⟩ := Py.bind_eq_ok h
  obtain ⟨ao, hao, h⟩ := Py.bind_eq_ok h
  obtain ⟨hPr, hPc, hPe⟩ := vstack_ofRow hP
  obtain ⟨hl, hsh⟩ := mapM_ok_iff hpts
  unfold np.solve at ha0
  split_ifs at ha0 with h1 h2 h3
  cases ha0
  unfold np.dotVV at hao
  split_ifs at hao with h4
  cases hao
  simp only [ne_eq, not_not] at h1 h2
  have hp0' : p0 ∈ pts := by
    unfold np.listGet at hp0
    split at hp0
    · rename_i q hq
      cases hp0
      exact List.mem_of_getElem? hq
    · cases hp0
  have hlen : 0 < pts.length := List.length_pos_of_mem hp0'
  set n := P.nr with hn
  have hon : offset.n = n := h4.symm
  have hshift : ∀ i (hi : i < points.length), (points[i]).n = n ∧ pts[i]'(by omega) = (points[i]).add offset := by
    intro i hi
    have h5 := hsz _ (List.getElem_mem hi)
    have : np.addV points[i] offset = .ok ((points[i]).add offset) := if_pos h5
    have h6 := hsh i hi (by omega)
    rw [this] at h6
    exact ⟨h5.trans hon, (Except.ok.inj h6).symm⟩
  have hPshift : ∀ i (hi : i < points.length) j, P.e i j = (points[i]).e j + offset.e j := by
    intro i hi j
    rw [hPe i (by omega) j, (hshift i hi).2]; rfl
  have hu : IsUnit (P.asM n n).det := isUnit_iff_ne_zero.2 h3
  have hsolve : P.asM n n *ᵥ ((P.asM n n)⁻¹ *ᵥ (Vec.ones p0.n).asV n) = fun _ => 1 := by
    rw [mulVec_mulVec, Matrix.mul_nonsing_inv _ hu, one_mulVec]; rfl
  refine ⟨n, Vec.ofFn ((P.asM n n)⁻¹ *ᵥ (Vec.ones p0.n).asV n), hon, by omega, by omega, ?_, rfl, ?_, ?_, ?_⟩
  · intro p hp
    obtain ⟨i, hi, rfl⟩ := List.mem_iff_getElem.1 hp
    exact (hshift i hi).1
  · intro p hp
    obtain ⟨i, hi, rfl⟩ := List.mem_iff_getElem.1 hp
    have := congrFun hsolve ⟨i, by omega⟩
    rw [← this, Finset.sum_range]
    show _ = ∑ j : Fin n, P.e i j * ((P.asM n n)⁻¹ *ᵥ (Vec.ones p0.n).asV n) j
    refine Finset.sum_congr rfl fun j _ => ?_
    rw [Vec.ofFn_e, ← hPshift i hi j, mul_comm]
  · rintro v ⟨c, hv⟩
    refine ⟨c, fun j hj => ?_⟩
    have h6 : P.asM n n *ᵥ v.asV n = c • fun _ => 1 := by
      funext i
      have h7 := hv points[(i : ℕ)] (List.getElem_mem (by have := i.2; omega))
      rw [Pi.smul_apply, smul_eq_mul, mul_one, ← h7, Finset.sum_range]
      show ∑ j : Fin n, P.e i j * v.e j = _
      refine Finset.sum_congr rfl fun j _ => ?_
      rw [← hPshift i (by have := i.2; omega) j, mul_comm]
    have h8 := congrArg (fun w => (P.asM n n)⁻¹ *ᵥ w) h6
    simp only [mulVec_mulVec, Matrix.nonsing_inv_mul _ hu, one_mulVec, mulVec_smul] at h8
    have h9 := congrFun h8 ⟨j, hj⟩
    rw [Vec.ofFn_e _ ⟨j, hj⟩]
    exact h9
  · cases h
    exact ⟨rfl, rfl⟩

/-- what `plane_through_points` computes on points of the same size -/
theorem plane_run {offset : Vec ℝ} {points : List (Vec ℝ)} {a : Vec ℝ} {d : ℝ} (hsz : ∀ p ∈ points, ∀ q ∈ points, p.n = q.n)
    (h : Geom.plane_through_points offset points = .ok (a, d)) :
    ∃ (n : ℕ) (a0 : Vec ℝ), points.length = n ∧ 0 < n ∧ (∀ p ∈ points, p.n = n) ∧ a0.n = n ∧
      (∀ p ∈ points, ∑ j ∈ range n, a0.e j * (p.e j + offset.e j) = 1) ∧
      (∀ v : Vec ℝ, (∃ c, ∀ p ∈ points, ∑ j ∈ range n, v.e j * (p.e j + offset.e j) = c) →
        ∃ c, ∀ j < n, v.e j = c * a0.e j) ∧
      (let d0 := 1 - ∑ j ∈ range n, a0.e j * offset.e j
       let s := vnorm a0 * Geom.signOf d0
       a = a0.divS s ∧ d = d0 / s) := by
  unfold Geom.plane_through_points at h
  obtain ⟨p00, hp00, h⟩ := Py.bind_eq_ok h
  have hp0 : p00 ∈ points := by
    unfold np.listGet at hp00
    split at hp00
    · rename_i q hq
      cases hp00
      exact List.mem_of_getElem? hq
    · cases hp00
  obtain ⟨n, a0, -, h⟩ := planeOffset_run (offset := ⟨p00.n, offset.e⟩) (fun p hp => (hsz p hp p00 hp0 : _)) h
  exact ⟨n, a0, h⟩

/-- there are as many points as coefficients -/
theorem plane_length {offset : Vec ℝ} {points : List (Vec ℝ)} {a : Vec ℝ} {d : ℝ} (h : Geom.plane_through_points offset points = .ok (a, d)) :
    points.length = a.n := by
  unfold Geom.plane_through_points at h
  obtain ⟨p00, hp00, h⟩ := Py.bind_eq_ok h
  unfold Geom.planeOffset at h
  obtain ⟨pts, hpts, h⟩ := Py.bind_eq_ok h
  obtain ⟨p0, hp0, h⟩ := Py.bind_eq_ok h
  obtain ⟨P, hP, h⟩ := Py.bind_eq_ok h
  obtain ⟨a0, ha0, h⟩ := Py.bind_eq_ok h
  obtain ⟨ao, hao, h⟩ := Py.bind_eq_ok h
  obtain ⟨hPr, hPc, hPe⟩ := vstack_ofRow hP
  obtain ⟨hl, hsh⟩ := mapM_ok_iff hpts
  unfold np.solve at ha0
  split_ifs at ha0 with h1 h2 h3
  cases ha0
  cases h
  show points.length = P.nr
  omega

/-- when `plane_through_points` returns -/
theorem plane_ok {n : ℕ} (hn : 0 < n) {offset : Vec ℝ} {points : List (Vec ℝ)}
    (hl : points.length = n) (hp : ∀ p ∈ points, p.n = n)
    (hind : ∀ c : Fin n → ℝ, (∀ j < n, ∑ i : Fin n, c i * ((points[i]'(by omega)).e j + offset.e j) = 0) →
      c = 0) : ∃ a d, Geom.plane_through_points offset points = .ok (a, d) := by
  have h0 : np.listGet points 0 = .ok (points[0]'(by omega)) := by
    unfold np.listGet; rw [List.getElem?_eq_getElem (by omega)]
  set o : Vec ℝ := ⟨(points[0]'(by omega)).n, offset.e⟩ with ho'
  have ho : o.n = n := hp (points[0]'(by omega)) (List.getElem_mem _)
  have h1 : Geom.shiftPoints points o = .ok (points.map fun p => p.add o) := by
    have : ∀ l : List (Vec ℝ), (∀ p ∈ l, p.n = n) →
        l.mapM (fun p => np.addV p o) = .ok (l.map fun p => p.add o) := by
      intro l
      induction l with
      | nil => intro _; rfl
      | cons a l ih =>
        intro h
        have e : np.addV a o = .ok (a.add o) := if_pos ((h a (by simp)).trans ho.symm)
        rw [List.mapM_cons, e, Py.ok_bind, ih (fun p hp => h p (by simp [hp])), Py.ok_bind]
        rfl
    exact this points hp
  set pts := points.map fun p => p.add o with hpts
  have hpl : pts.length = n := by simp [hpts, hl]
  have h2 : np.listGet pts 0 = .ok (pts[0]'(by omega)) := by
    unfold np.listGet; rw [List.getElem?_eq_getElem (by omega)]
  have hsz : ∀ v ∈ pts, v.n = n := by
    intro v hv
    obtain ⟨p, hp', rfl⟩ := List.mem_map.1 hv
    exact hp p hp'
  obtain ⟨P, hP, hPn⟩ := vstack_ofRow_ok (List.ne_nil_of_length_pos (by omega)) hsz
  obtain ⟨q1, q2, q3⟩ := vstack_ofRow hP
  have hdet : (P.asM n n).det ≠ 0 := by
    intro hz
    obtain ⟨v, hv, hv0⟩ := Matrix.exists_vecMul_eq_zero_iff.2 hz
    apply hv
    apply hind
    intro j hj
    have := congrFun hv0 ⟨j, hj⟩
    refine Eq.trans (Finset.sum_congr rfl fun i _ => ?_) this
    show _ = v i * P.e i j
    rw [q3 i (by have := i.2; omega) j]
    simp [hpts, ho']
  have hnr : P.nr = n := q1.trans hpl
  have h3 : np.solve P (Vec.ones (pts[0]'(by omega)).n)
      = .ok (Vec.ofFn ((P.asM P.nr P.nr)⁻¹ *ᵥ (Vec.ones (pts[0]'(by omega)).n).asV P.nr)) := by
    unfold np.solve
    rw [if_neg (by rw [hnr, hPn]; simp), if_neg (by
      rw [hnr, Vec.ones_n, hsz _ (List.getElem_mem _)]; simp), if_neg (by rw [hnr]; exact hdet)]
  unfold Geom.plane_through_points
  rw [h0, Py.ok_bind]
  unfold Geom.planeOffset
  rw [h1, Py.ok_bind, h2, Py.ok_bind, hP, Py.ok_bind, h3, Py.ok_bind]
  have h4 : np.dotVV (Vec.ofFn ((P.asM P.nr P.nr)⁻¹ *ᵥ (Vec.ones (pts[0]'(by omega)).n).asV P.nr)) o
      = .ok _ := if_pos (hnr.trans ho.symm)
  rw [h4, Py.ok_bind]
  exact ⟨_, _, rfl⟩

theorem vnorm_sq (v : Vec ℝ) : vnorm v ^ 2 = ∑ i ∈ range v.n, v.e i ^ 2 :=
  Real.sq_sqrt (Finset.sum_nonneg fun _ _ => sq_nonneg _)

theorem vnorm_eq_zero {v : Vec ℝ} : vnorm v = 0 ↔ ∀ i < v.n, v.e i = 0 := by
  rw [vnorm, Real.sqrt_eq_zero (Finset.sum_nonneg fun _ _ => sq_nonneg _),
    Finset.sum_eq_zero_iff_of_nonneg fun _ _ => sq_nonneg _]
  simp

/-- `R = Qᵀ A` -/
theorem qr_R {L : Lib} (hL : LibSpec L) (A : Mat ℝ) :
    ∃ Q : Matrix (Fin A.nc) (Fin (min A.nc A.nr)) ℝ, Qᵀ * Q = 1 ∧
      (L.qrR A.T).asM (min A.nc A.nr) A.nr = Qᵀ * A.T.asM A.nc A.nr := by
  obtain ⟨Q, hQQ, hQR⟩ : ∃ Q : Matrix (Fin A.nc) (Fin (min A.nc A.nr)) ℝ, Qᵀ * Q = 1 ∧
      Q * (L.qrR A.T).asM (min A.nc A.nr) A.nr = A.T.asM A.nc A.nr := hL.qr_eq A.T
  exact ⟨Q, hQQ, by rw [← hQR, ← Matrix.mul_assoc, hQQ, Matrix.one_mul]⟩

/-- a positive answer of the loop gives a one to one matching -/
theorem matchRows_equiv {α : Type} {close : α → α → Bool} {n : ℕ} {f g : ℕ → α}
    (h : Geom.matchRows close ((List.range n).map f) ((List.range n).map g) = true) :
    ∃ σ : Equiv.Perm (Fin n), ∀ i : Fin n, close (f i) (g (σ i)) = true := by
  obtain ⟨js', hp, hf⟩ := matchRows_sound g (by simp) h
  have hlen : js'.length = n := by rw [hp.length_eq]; simp
  have hnd : js'.Nodup := hp.nodup_iff.2 List.nodup_range
  have hmem : ∀ i (hi : i < js'.length), js'[i] < n := fun i hi =>
    List.mem_range.1 (hp.mem_iff.1 (List.getElem_mem hi))
  let s : Fin n → Fin n := fun i => ⟨js'[i]'(by rw [hlen]; exact i.2), hmem _ _⟩
  have hs : Function.Injective s := by
    intro i j hij
    have := congrArg Fin.val hij
    exact Fin.ext ((List.Nodup.getElem_inj_iff hnd).1 this)
  refine ⟨Equiv.ofBijective s (Finite.injective_iff_bijective.1 hs), fun i => ?_⟩
  have := List.forall₂_iff_get.1 hf
  have h2 := this.2 i (by simp) (by rw [hlen]; exact i.2)
  simp only [List.get_eq_getElem, List.getElem_map, List.getElem_range] at h2
  exact h2

theorem matchRows_single {α : Type} (close : α → α → Bool) (a b : α) (h : close a b = true) : Geom.matchRows close [a] [b] = true := by
  have : (List.range [b].length).filter (fun i => ([b][i]?).any (close a)) = [0] := by
    show (List.range 1).filter _ = [0]
    simp [List.range_one, List.filter_cons, h]
  unfold Geom.matchRows
  rw [this]
  rfl

/-- the answer `True` on rows of `m` and `n` entries: a matching of the rows, as they are or repeated -/
theorem compareRows_equiv {m n k : ℕ} {f g : ℕ → Option (Vec ℝ)}
    (h : Geom.compareRows m n ((List.range k).map f) ((List.range k).map g) = .ok true) :
    ∃ σ : Equiv.Perm (Fin k), ∀ i : Fin k, (m = n ∧ Geom.allclose (f i) (g (σ i)) = true) ∨
      (m ≠ n ∧ (m = 1 ∨ n = 1) ∧ Geom.allclose (Geom.stretchRow (if n = 1 then m else n) (f i)) (Geom.stretchRow (if n = 1 then m else n) (g (σ i))) = true) := by
  unfold Geom.compareRows at h
  by_cases h1 : (List.range k).map f = [] ∨ m = n
  · rw [if_pos h1] at h
    obtain ⟨σ, hσ⟩ := matchRows_equiv (Except.ok.inj h)
    refine ⟨σ, fun i => Or.inl ⟨?_, hσ i⟩⟩
    rcases h1 with h1 | h1
    · rw [List.map_eq_nil_iff, List.range_eq_nil] at h1
      exact absurd i.2 (by omega)
    · exact h1
  · rw [if_neg h1] at h
    push Not at h1
    have key : ∀ w, np.axisSize m n = some w → (m = 1 ∨ n = 1) ∧ w = if n = 1 then m else n := by
      intro w hw
      unfold np.axisSize at hw
      by_cases hn : n = 1
      · rw [if_pos (Or.inr hn)] at hw
        rw [if_pos hn]
        exact ⟨Or.inr hn, (Option.some.inj hw).symm⟩
      · rw [if_neg (by rintro (h | h); exacts [h1.2 h, hn h])] at hw
        by_cases hm : m = 1
        · rw [if_pos hm] at hw
          rw [if_neg hn]
          exact ⟨Or.inl hm, (Option.some.inj hw).symm⟩
        · rw [if_neg hm] at hw
          cases hw
    cases hw : np.axisSize m n with
    | none => rw [hw] at h; cases h
    | some w =>
      rw [hw] at h
      obtain ⟨h2, h3⟩ := key w hw
      simp only [Except.ok.injEq, List.map_map] at h
      obtain ⟨σ, hσ⟩ := matchRows_equiv h
      exact ⟨σ, fun i => Or.inr ⟨h1.2, h2, by rw [← h3]; exact hσ i⟩⟩

theorem compareRows_same {m n : ℕ} (h : m = n) (A B : List (Option (Vec ℝ))) : Geom.compareRows m n A B = .ok (Geom.matchRows Geom.allclose A B) :=
  if_pos (Or.inr h)

/-- the loop recognises permutations when different rows are not close -/
theorem matchRows_perm {α : Type} {close : α → α → Bool} {n : ℕ} {f g : ℕ → α} (σ : Equiv.Perm (Fin n))
    (hc : ∀ i j : Fin n, close (f i) (g j) = true ↔ i = σ j) :
    Geom.matchRows close ((List.range n).map f) ((List.range n).map g) = true := by
  rw [← List.map_coe_finRange_eq_range, List.map_map, List.map_map]
  have e : (List.finRange n).map (g ∘ fun i : Fin n => (i : ℕ))
      = ((List.finRange n).map σ).map (fun i => g (σ.symm i : Fin n)) := by
    rw [List.map_map]
    exact List.map_congr_left fun i _ => by simp
  rw [e]
  refine matchRows_complete _ _ ?_ (List.nodup_finRange n) fun i _ j _ => ?_
  · refine (List.perm_ext_iff_of_nodup (List.nodup_finRange n)
      ((List.nodup_finRange n).map σ.injective)).2 fun i => ?_
    simp only [List.mem_finRange, List.mem_map, true_and, true_iff]
    exact ⟨σ.symm i, by simp⟩
  · have := hc i (σ.symm j)
    rwa [Equiv.apply_symm_apply] at this

end Verif
