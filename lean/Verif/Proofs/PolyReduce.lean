import Verif.Proofs.PolyEmpty

/- Lemmas on `_remove_equalities` and the change of coordinates. -/
namespace Verif
open Finset Matrix

theorem nullspace_matrix {L : Lib} (hL : LibSpec L) (A : Mat ℝ) {m n k : ℕ} (hm : A.nr = m) (hn : A.nc = n)
    (hk : (Geom.nullBasis L A).nc = k) :
    ((Geom.nullBasis L A).asM n k)ᵀ * (Geom.nullBasis L A).asM n k = 1 ∧
    A.asM m n * (Geom.nullBasis L A).asM n k = 0 ∧
    ∀ x, A.asM m n *ᵥ x = 0 → ∃ y, x = (Geom.nullBasis L A).asM n k *ᵥ y := by
  subst hm hn
  rw [nullspace_nc L hL] at hk
  subst hk
  exact ⟨nullspace_orth hL A, nullspace_ker hL A, fun x hx => nullspace_span hL A hx⟩

theorem rank_of_orth {n k : ℕ} {Z : Matrix (Fin n) (Fin k) ℝ} (h : Zᵀ * Z = 1) : Zᵀ.rank = k := by
  refine le_antisymm (by simpa using Matrix.rank_le_height Zᵀ) ?_
  have := Matrix.rank_mul_le_left Zᵀ Z
  rw [h, Matrix.rank_one] at this
  simpa using this

/-- `x = x0 + N y` -/
def affine (x0 : ℕ → ℝ) (N : Mat ℝ) (y : ℕ → ℝ) (j : ℕ) : ℝ := x0 j + ∑ l ∈ range N.nc, N.e j l * y l

namespace Poly

/-- the equalities are independent and leave some freedom -/
def EqRank (n : ℕ) (p : Poly) : Prop := (p.C.asM p.C.nr n).rank = p.C.nr ∧ p.C.nr < n

/-- the change of coordinates of `_remove_equalities` -/
structure Reduced (n : ℕ) (p : Poly) (E : Mat ℝ) (f : Vec ℝ) (N R : Mat ℝ) (x0 : ℕ → ℝ) : Prop where
  Enr : E.nr = p.A.nr
  Enc : E.nc = N.nc
  fn : f.n = p.A.nr
  Nnr : N.nr = n
  Nnc : N.nc + p.C.nr = n
  eqs : ∀ y, ∀ i < p.C.nr, ∑ j ∈ range n, p.C.e i j * affine x0 N y j = p.d.e i
  surj : ∀ x : ℕ → ℝ, (∀ i < p.C.nr, ∑ j ∈ range n, p.C.e i j * x j = p.d.e i) →
    ∃ y, ∀ j < n, x j = affine x0 N y j
  ker : ∀ v : ℕ → ℝ, (∀ i < p.C.nr, ∑ j ∈ range n, p.C.e i j * v j = 0) ↔
    ∃ y : ℕ → ℝ, ∀ j < n, v j = ∑ l ∈ range N.nc, N.e j l * y l
  res : ∀ y, ∀ i < p.A.nr, ∑ l ∈ range N.nc, E.e i l * y l - f.e i
    = ∑ j ∈ range n, p.A.e i j * affine x0 N y j - p.b.e i
  iso : ∀ y : ℕ → ℝ, ∑ j ∈ range n, (∑ l ∈ range N.nc, N.e j l * y l) ^ 2 = ∑ l ∈ range N.nc, y l ^ 2
  back : ∀ z : Vec ℝ, z.n = N.nc → ∃ x, backToOriginal p.C p.d N R z = .ok x ∧ x.n = n ∧
    ∀ j < n, x.e j = affine x0 N z.e j

theorem removeEqualities_error {L : Lib} (hL : LibSpec L) {n : ℕ} {p : Poly} (hp : p.Inv n)
    (hC : 0 < p.C.nr) (h : ¬ EqRank n p) : removeEqualities L p = .error .valueError := by
  obtain ⟨s1, s2, s3, s4⟩ := hp
  have hk := nullspace_nc L hL p.C
  have hr := rank_le_nc p.C
  unfold removeEqualities
  rcases Nat.eq_zero_or_pos p.C.nc with hn | hn
  · rw [nullspace_err L (.inr hn)]
    rfl
  rw [nullspace_ok L hC hn, Py.ok_bind]
  by_cases h0 : (Geom.nullBasis L p.C).nc = 0
  · rw [if_pos h0]
  · rw [if_neg h0, if_pos]
    intro h1
    apply h
    have hrk : (p.C.asM p.C.nr n).rank = np.matrix_rank p.C := by rw [← s3]; rfl
    exact ⟨by rw [hrk]; omega, by omega⟩

theorem removeEqualities_ok {L : Lib} (hL : LibSpec L) {n : ℕ} {p : Poly} (hp : p.Inv n)
    (hC : 0 < p.C.nr) (h : EqRank n p) : ∃ E f N R x0, removeEqualities L p = .ok (E, f, N, R) ∧ 0 < N.nc ∧
      Reduced n p E f N R x0 := by
  obtain ⟨s1, s2, s3, s4⟩ := hp
  obtain ⟨hrk, hlt⟩ := h
  set N := Geom.nullBasis L p.C with hN
  have hrk' : np.matrix_rank p.C = p.C.nr := by rw [← hrk, ← s3]; rfl
  have hNnr : N.nr = n := (nullspace_nr L hL p.C).trans s3
  have hNnc : N.nc = n - p.C.nr := by rw [hN, nullspace_nc L hL p.C, hrk', s3]
  obtain ⟨k, hk⟩ : ∃ k, N.nc = k := ⟨_, rfl⟩
  obtain ⟨q, hq⟩ : ∃ q, p.C.nr = q := ⟨_, rfl⟩
  have hkq : k + q = n := by omega
  obtain ⟨o1, o2, o3⟩ := nullspace_matrix hL p.C hq s3 hk
  rw [← hN] at o1 o2 o3
  set Nm := N.asM n k with hNm
  set Cm := p.C.asM q n with hCm
  set R := Geom.nullBasis L N.T with hR
  have hRnr : R.nr = n := (nullspace_nr L hL N.T).trans hNnr
  have hrN : np.matrix_rank N.T = k := by
    have := rank_of_orth o1
    unfold np.matrix_rank
    have e : ∀ {a b : ℕ}, a = k → b = n → (N.T.asM a b).rank = k := by
      rintro a b rfl rfl; exact this
    exact e hk hNnr
  have hRnc : R.nc = q := by rw [hR, nullspace_nc L hL N.T, hrN, Mat.T_nc, hNnr]; omega
  obtain ⟨r1, r2, r3⟩ := nullspace_matrix hL N.T (m := k) (n := n) (k := q) hk hNnr hRnc
  rw [← hR] at r1 r2 r3
  set Rm := R.asM n q with hRm
  rw [Mat.asM_T, ← hNm] at r2 r3
  -- C R is invertible
  have hdet : (Cm * Rm).det ≠ 0 := by
    intro h0
    obtain ⟨v, hv0, hv⟩ := Matrix.exists_mulVec_eq_zero_iff.2 h0
    rw [← mulVec_mulVec] at hv
    obtain ⟨y, hy⟩ := o3 _ hv
    have h1 : Nmᵀ *ᵥ (Rm *ᵥ v) = 0 := by rw [mulVec_mulVec, r2, zero_mulVec]
    rw [hy, mulVec_mulVec, o1, one_mulVec] at h1
    rw [h1, mulVec_zero] at hy
    have h2 : Rmᵀ *ᵥ (Rm *ᵥ v) = 0 := by rw [hy, mulVec_zero]
    rw [mulVec_mulVec, r1, one_mulVec] at h2
    exact hv0 h2
  have e1 : np.dotMM p.A N = .ok (p.A.mul N) := if_pos (s1.trans hNnr.symm)
  have e2 : np.dotMM p.C R = .ok (p.C.mul R) := if_pos (s3.trans hRnr.symm)
  have hCR : (p.C.mul R).asM q q = Cm * Rm := Mat.asM_mul _ _ _ _ s3
  obtain ⟨Ri, hRi, hRinr, hRinc, hRim⟩ : ∃ Ri, np.inv (p.C.mul R) = .ok Ri ∧ Ri.nr = q ∧ Ri.nc = q ∧
      Ri.asM q q = (Cm * Rm)⁻¹ := by
    have hnr : (p.C.mul R).nr = q := hq
    have hnc : (p.C.mul R).nc = q := hRnc
    unfold np.inv
    rw [hnr, hnc, if_neg (by simp), hCR, if_neg hdet]
    exact ⟨_, rfl, rfl, rfl, Mat.ofM_asM _⟩
  have e3 : np.dotMV Ri p.d = .ok (Ri.mulVec p.d) := if_pos (by rw [hRinc, s4, hq])
  have e4 : np.dotMV R (Ri.mulVec p.d) = .ok (R.mulVec (Ri.mulVec p.d)) := if_pos (by
    rw [hRnc, Mat.mulVec_n, hRinr])
  have e5 : np.dotMV p.A (R.mulVec (Ri.mulVec p.d)) = .ok (p.A.mulVec (R.mulVec (Ri.mulVec p.d))) :=
    if_pos (by rw [s1, Mat.mulVec_n, hRnr])
  have e6 : np.subV p.b (p.A.mulVec (R.mulVec (Ri.mulVec p.d)))
      = .ok (p.b.sub (p.A.mulVec (R.mulVec (Ri.mulVec p.d)))) := if_pos (by rw [s2]; rfl)
  have hrun : removeEqualities L p
      = .ok (p.A.mul N, p.b.sub (p.A.mulVec (R.mulVec (Ri.mulVec p.d))), N, R) := by
    unfold removeEqualities
    rw [nullspace_ok L hC (by omega), Py.ok_bind, ← hN]
    rw [if_neg (by omega), if_neg (by omega), nullspace_ok L (show 0 < N.T.nr by rw [Mat.T_nr]; omega) (by rw [Mat.T_nc]; omega), Py.ok_bind, ← hR, e1, Py.ok_bind, e2, Py.ok_bind, hRi, Py.ok_bind, e3, Py.ok_bind,
      e4, Py.ok_bind, e5, Py.ok_bind, e6, Py.ok_bind]
    rfl
  set r0 := Ri.mulVec p.d with hr0
  set xv := R.mulVec r0 with hxv
  have hr0m : r0.asV q = (Cm * Rm)⁻¹ *ᵥ p.d.asV q := by
    rw [hr0, Mat.asV_mulVec _ _ _ hRinc, hRim]
  have hx0m : xv.asV n = Rm *ᵥ r0.asV q := by rw [hxv, Mat.asV_mulVec _ _ _ hRnc]
  have haff : ∀ y : ℕ → ℝ, (fun j : Fin n => affine xv.e N y j)
      = Rm *ᵥ r0.asV q + Nm *ᵥ (fun l : Fin k => y l) := by
    intro y
    funext j
    rw [Pi.add_apply, ← hx0m]
    unfold affine
    rw [hk, Finset.sum_range]
    rfl
  have hCx0 : Cm *ᵥ (Rm *ᵥ r0.asV q) = p.d.asV q := by
    rw [mulVec_mulVec, hr0m, mulVec_mulVec, Matrix.mul_nonsing_inv _ (isUnit_iff_ne_zero.2 hdet), one_mulVec]
  have hCsum : ∀ (x : ℕ → ℝ) (i : Fin q), ∑ j ∈ range n, p.C.e i j * x j = (Cm *ᵥ fun j : Fin n => x j) i := by
    intro x i
    rw [Finset.sum_range]
    rfl
  have hext : ∀ y' : Fin k → ℝ, (fun l : Fin k => (Vec.ofFn y').e l) = y' := by
    intro y'; funext l; exact Vec.ofFn_e y' l
  refine ⟨_, _, N, R, xv.e, hrun, by omega, ⟨rfl, rfl, s2, hNnr, by omega, ?_, ?_, ?_, ?_, ?_, ?_⟩⟩
  · intro y i hi
    have := hCsum (affine xv.e N y) ⟨i, hq ▸ hi⟩
    rw [haff, mulVec_add, hCx0, mulVec_mulVec, o2, zero_mulVec, add_zero] at this
    exact this
  · intro x hx
    have hz : Cm *ᵥ ((fun j : Fin n => x j) - Rm *ᵥ r0.asV q) = 0 := by
      rw [mulVec_sub, hCx0, sub_eq_zero]
      funext i
      rw [← hCsum]
      exact hx i (hq ▸ i.2)
    obtain ⟨y', hy'⟩ := o3 _ hz
    refine ⟨(Vec.ofFn y').e, fun j hj => ?_⟩
    have := congrFun (haff (Vec.ofFn y').e) ⟨j, hj⟩
    rw [hext, ← hy', add_sub_cancel] at this
    exact this.symm
  · intro v
    constructor
    · intro hv
      obtain ⟨y', hy'⟩ := o3 (fun j : Fin n => v j) (by
        funext i; rw [← hCsum]; exact hv i (hq ▸ i.2))
      refine ⟨(Vec.ofFn y').e, fun j hj => ?_⟩
      have := congrFun hy' ⟨j, hj⟩
      rw [hk, Finset.sum_range]
      refine Eq.trans this ?_
      show ∑ l : Fin k, N.e j l * y' l = _
      exact Finset.sum_congr rfl fun l _ => by rw [Vec.ofFn_e]
    · rintro ⟨y, hy⟩ i hi
      have h1 : (fun j : Fin n => v j) = Nm *ᵥ fun l : Fin k => y l := by
        funext j
        rw [hy j j.2, hk, Finset.sum_range]; rfl
      have := hCsum v ⟨i, hq ▸ hi⟩
      rw [h1, mulVec_mulVec, o2, zero_mulVec] at this
      exact this
  · intro y i hi
    have h1 : ∑ l ∈ range N.nc, (p.A.mul N).e i l * y l
        = ∑ j ∈ range n, p.A.e i j * ∑ l ∈ range N.nc, N.e j l * y l := by
      simp only [Mat.mul_e, Finset.sum_mul, Finset.mul_sum, s1]
      rw [Finset.sum_comm]
      exact Finset.sum_congr rfl fun j _ => Finset.sum_congr rfl fun l _ => by ring
    have h2 : ∑ j ∈ range n, p.A.e i j * affine xv.e N y j
        = ∑ j ∈ range n, p.A.e i j * xv.e j + ∑ j ∈ range n, p.A.e i j * ∑ l ∈ range N.nc, N.e j l * y l := by
      rw [← Finset.sum_add_distrib]
      exact Finset.sum_congr rfl fun j _ => by unfold affine; ring
    rw [h1, h2]
    show _ - (p.b.e i - ∑ j ∈ range p.A.nc, p.A.e i j * xv.e j) = _
    rw [s1]; ring
  · intro y
    have h1 : ∀ j : Fin n, ∑ l ∈ range N.nc, N.e j l * y l = (Nm *ᵥ fun l : Fin k => y l) j := by
      intro j; rw [hk, Finset.sum_range]; rfl
    have h2 : (Nm *ᵥ fun l : Fin k => y l) ⬝ᵥ (Nm *ᵥ fun l : Fin k => y l)
        = (fun l : Fin k => y l) ⬝ᵥ (fun l : Fin k => y l) := by
      rw [dotProduct_mulVec, vecMul_mulVec, o1, vecMul_one]
    rw [Finset.sum_range]
    simp only [h1]
    rw [hk, Finset.sum_range]
    simp only [dotProduct] at h2
    simp only [sq]
    exact h2
  · intro z hz
    have g1 : np.hstack [N, R] = .ok (N.happ R) := by
      show (if N.nr = R.nr then _ else _) = _
      rw [if_pos (hNnr.trans hRnr.symm)]
    have g2 : np.concatenate [z, r0] = .ok (z.append r0) := rfl
    have g3 : np.dotMV (N.happ R) (z.append r0) = .ok ((N.happ R).mulVec (z.append r0)) := if_pos (by
      show N.nc + R.nc = z.n + r0.n
      rw [hz, hRnc]
      show _ = _ + Ri.nr
      rw [hRinr])
    refine ⟨(N.happ R).mulVec (z.append r0), ?_, hNnr, fun j _ => ?_⟩
    · unfold backToOriginal
      rw [e2, Py.ok_bind, hRi, Py.ok_bind, e3, Py.ok_bind, g1, Py.ok_bind, g2, Py.ok_bind, g3]
    · rw [Mat.happ_mulVec]
      unfold affine
      rw [add_comm]
      congr 1
      · rw [hxv]
        show _ = ∑ l ∈ range R.nc, R.e j l * r0.e l
        refine Finset.sum_congr rfl fun l _ => ?_
        rw [← hz, Vec.append_e_add]
      · show ∑ l ∈ range N.nc, N.e j l * (z.append r0).e l = _
        refine Finset.sum_congr rfl fun l hl => ?_
        rw [Vec.append_e_lt _ _ (by rw [hz]; exact mem_range.1 hl)]

end Poly
end Verif
