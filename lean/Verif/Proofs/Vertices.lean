import Verif.Model.Projection
import Verif.Proofs.PolyChebyshev
import Verif.Proofs.Gurobi

/- Helper lemmas for the vertices of polytopes: change of coordinates. -/
namespace Verif
open Finset Matrix
namespace Poly

/-- the matrix `T = [N R]` of `_remove_equalities` is orthogonal -/
theorem stack_inv {L : Lib} (hL : LibSpec L) {n : ℕ} {p : Poly} (hp : p.Inv n) (h : EqRank n p) {E : Mat ℝ} {f : Vec ℝ} {N R : Mat ℝ}
    (hrun : removeEqualities L p = .ok (E, f, N, R)) :
    ∃ Ti, np.hstack [N, R] = .ok (N.happ R) ∧ np.inv (N.happ R) = .ok Ti ∧ Ti.nr = n ∧ Ti.nc = n ∧ N.nr = n ∧ N.nc + R.nc = n ∧
      ∀ w : Vec ℝ, (∀ l < n, (Ti.mulVec ((N.happ R).mulVec w)).e l = w.e l) ∧
        ∑ j ∈ range n, ((N.happ R).mulVec w).e j ^ 2 = ∑ l ∈ range n, w.e l ^ 2 := by
  obtain ⟨s1, s2, s3, s4⟩ := hp
  obtain ⟨hrk, hlt⟩ := h
  have hNR : N = Geom.nullBasis L p.C ∧ R = Geom.nullBasis L N.T := by
    unfold removeEqualities at hrun
    obtain ⟨N', hN', hrun⟩ := Py.bind_eq_ok hrun
    have e1 := nullspace_val L hN'
    split_ifs at hrun
    obtain ⟨R', hR', hrun⟩ := Py.bind_eq_ok hrun
    have e2 := nullspace_val L hR'
    obtain ⟨_, -, hrun⟩ := Py.bind_eq_ok hrun
    obtain ⟨_, -, hrun⟩ := Py.bind_eq_ok hrun
    obtain ⟨_, -, hrun⟩ := Py.bind_eq_ok hrun
    obtain ⟨_, -, hrun⟩ := Py.bind_eq_ok hrun
    obtain ⟨_, -, hrun⟩ := Py.bind_eq_ok hrun
    obtain ⟨_, -, hrun⟩ := Py.bind_eq_ok hrun
    obtain ⟨_, -, hrun⟩ := Py.bind_eq_ok hrun
    have := Except.ok.inj hrun
    simp only [Prod.mk.injEq] at this
    obtain ⟨-, -, h1, h2⟩ := this
    exact ⟨h1.symm.trans e1, by rw [← h2, ← h1]; exact e2⟩
  obtain ⟨hN, hR⟩ := hNR
  have hrk' : np.matrix_rank p.C = p.C.nr := by rw [← hrk, ← s3]; rfl
  have hNnr : N.nr = n := by rw [hN]; exact (nullspace_nr L hL p.C).trans s3
  have hNnc : N.nc = n - p.C.nr := by rw [hN, nullspace_nc L hL p.C, hrk', s3]
  obtain ⟨k, hk⟩ : ∃ k, N.nc = k := ⟨_, rfl⟩
  obtain ⟨q, hq⟩ : ∃ q, p.C.nr = q := ⟨_, rfl⟩
  have hkq : k + q = n := by omega
  obtain ⟨o1, o2, o3⟩ := nullspace_matrix hL p.C hq s3 (k := k) (by rw [← hN]; exact hk)
  rw [← hN] at o1 o2 o3
  have hRnr : R.nr = n := by rw [hR]; exact (nullspace_nr L hL N.T).trans hNnr
  have hrN : np.matrix_rank N.T = k := by
    have := rank_of_orth o1
    unfold np.matrix_rank
    have e : ∀ {a b : ℕ}, a = k → b = n → (N.T.asM a b).rank = k := by
      rintro a b rfl rfl; exact this
    exact e hk hNnr
  have hRnc : R.nc = q := by rw [hR, nullspace_nc L hL N.T, hrN, Mat.T_nc, hNnr]; omega
  obtain ⟨r1, r2, -⟩ := nullspace_matrix hL N.T (m := k) (n := n) (k := q) hk hNnr (by rw [← hR]; exact hRnc)
  rw [← hR] at r1 r2
  rw [Mat.asM_T] at r2
  set Nm := N.asM n k with hNm
  set Rm := R.asM n q with hRm
  -- the norm is preserved
  have hnorm : ∀ w : Vec ℝ, ∑ j ∈ range n, ((N.happ R).mulVec w).e j ^ 2 = ∑ l ∈ range n, w.e l ^ 2 := by
    intro w
    set a : Fin k → ℝ := fun l => w.e l with ha
    set b : Fin q → ℝ := fun l => w.e (k + l) with hb
    have e1 : ∀ j : Fin n, ((N.happ R).mulVec w).e j = (Nm *ᵥ a + Rm *ᵥ b) j := by
      intro j
      rw [Mat.happ_mulVec, hk, hRnc, Finset.sum_range]
      show ∑ l ∈ range N.nc, N.e j l * w.e l + _ = _
      rw [hk, Finset.sum_range]
      rfl
    have e2 : (Nm *ᵥ a + Rm *ᵥ b) ⬝ᵥ (Nm *ᵥ a + Rm *ᵥ b) = a ⬝ᵥ a + b ⬝ᵥ b := by
      have c1 : (Nm *ᵥ a) ⬝ᵥ (Nm *ᵥ a) = a ⬝ᵥ a := by rw [dotProduct_mulVec, vecMul_mulVec, o1, vecMul_one]
      have c2 : (Rm *ᵥ b) ⬝ᵥ (Rm *ᵥ b) = b ⬝ᵥ b := by rw [dotProduct_mulVec, vecMul_mulVec, r1, vecMul_one]
      have c3 : (Rm *ᵥ b) ⬝ᵥ (Nm *ᵥ a) = 0 := by
        rw [dotProduct_comm, dotProduct_mulVec, vecMul_mulVec, r2]; simp
      rw [dotProduct_add, add_dotProduct, add_dotProduct, c1, c2, c3, dotProduct_comm (Nm *ᵥ a), c3]
      ring
    rw [Finset.sum_range]
    simp only [e1, sq]
    rw [show ∑ x : Fin n, (Nm *ᵥ a + Rm *ᵥ b) x * (Nm *ᵥ a + Rm *ᵥ b) x = _ from e2, ← hkq, sum_range_add, Finset.sum_range, Finset.sum_range]
    rfl
  have hsq : (N.happ R).nc = n := by show N.nc + R.nc = n; omega
  have hdet : ((N.happ R).asM n n).det ≠ 0 := by
    intro h0
    obtain ⟨v, hv0, hv⟩ := Matrix.exists_mulVec_eq_zero_iff.2 h0
    have e := hnorm (Vec.ofFn v)
    have e1 : ∑ j ∈ range n, ((N.happ R).mulVec (Vec.ofFn v)).e j ^ 2 = 0 := by
      refine Finset.sum_eq_zero fun j hj => ?_
      have := congrFun hv ⟨j, mem_range.1 hj⟩
      have e2 : ((N.happ R).mulVec (Vec.ofFn v)).e j = ((N.happ R).asM n n *ᵥ v) ⟨j, mem_range.1 hj⟩ := by
        show ∑ l ∈ range (N.happ R).nc, _ = _
        rw [hsq, Finset.sum_range]
        exact Finset.sum_congr rfl fun l _ => by rw [Vec.ofFn_e]; rfl
      rw [e2, this]; simp
    rw [e1] at e
    apply hv0
    funext l
    have := (Finset.sum_eq_zero_iff_of_nonneg (fun _ _ => sq_nonneg _)).1 e.symm l (mem_range.2 l.2)
    rw [Vec.ofFn_e] at this
    simpa using this
  have hinv : np.inv (N.happ R) = .ok (Mat.ofM ((N.happ R).asM n n)⁻¹) := by
    unfold np.inv
    have hnr : (N.happ R).nr = n := hNnr
    rw [hnr, hsq, if_neg (by simp), if_neg hdet]
  refine ⟨_, if_pos (hNnr.trans hRnr.symm), hinv, rfl, rfl, hNnr, hsq, fun w => ⟨fun l hl => ?_, hnorm w⟩⟩
  have e1 : ((Mat.ofM ((N.happ R).asM n n)⁻¹).mulVec ((N.happ R).mulVec w)).asV n = w.asV n := by
    rw [Mat.asV_mulVec _ _ _ (show (Mat.ofM ((N.happ R).asM n n)⁻¹).nc = n from rfl), Mat.ofM_asM, Mat.asV_mulVec _ _ _ hsq, mulVec_mulVec,
      Matrix.nonsing_inv_mul _ (isUnit_iff_ne_zero.2 hdet), one_mulVec]
  exact congrFun e1 ⟨l, hl⟩

/-- the polyhedron in the coordinates of a chart -/
def InRows (E : Mat ℝ) (f : Vec ℝ) (y : ℕ → ℝ) : Prop := ∀ i < E.nr, Spec.rowVal E i y ≤ f.e i

theorem isVertex_congr {n : ℕ} {S : (ℕ → ℝ) → Prop} (hS : ∀ x y, (∀ j < n, x j = y j) → S x → S y) {x y : ℕ → ℝ}
    (h : ∀ j < n, x j = y j) (hx : Spec.IsVertex n S x) : Spec.IsVertex n S y :=
  ⟨hS x y h hx.1, fun v h1 h2 => hx.2 v (hS _ _ (fun j hj => by rw [h j hj]) h1) (hS _ _ (fun j hj => by rw [h j hj]) h2)⟩

theorem affine_sub (x0 : ℕ → ℝ) (N : Mat ℝ) (y w : ℕ → ℝ) (j : ℕ) :
    affine x0 N (fun l => y l - w l) j = affine x0 N y j - ∑ l ∈ range N.nc, N.e j l * w l := by
  unfold affine
  simp only [mul_sub, Finset.sum_sub_distrib]
  ring

/-- a chart maps extreme points to extreme points -/
theorem Chart.vertex {n : ℕ} {p : Poly} (hp : p.Inv n) {E : Mat ℝ} {f : Vec ℝ} {N : Mat ℝ} {x0 : ℕ → ℝ} (h : Chart n p E f N x0) (y : ℕ → ℝ) :
    Spec.IsVertex n p.Mem (affine x0 N y) ↔ Spec.IsVertex N.nc (InRows E f) y := by
  have hz : ∀ w : ℕ → ℝ, (∀ j < n, ∑ l ∈ range N.nc, N.e j l * w l = 0) → ∀ l < N.nc, w l = 0 := by
    intro w hw l hl
    have := h.iso w
    rw [Finset.sum_eq_zero fun j hj => by rw [hw j (mem_range.1 hj)]; norm_num] at this
    have := (Finset.sum_eq_zero_iff_of_nonneg (fun _ _ => sq_nonneg _)).1 this.symm l (mem_range.2 hl)
    simpa using this
  constructor
  · rintro ⟨h1, h2⟩
    refine ⟨(h.mem y).1 h1, fun w hw hw' => hz w (h2 _ ?_ ?_)⟩
    · rw [← show affine x0 N (fun l => y l + w l) = _ from funext (affine_add x0 N y w)]
      exact (h.mem _).2 hw
    · rw [← show affine x0 N (fun l => y l - w l) = _ from funext (affine_sub x0 N y w)]
      exact (h.mem _).2 hw'
  · rintro ⟨h1, h2⟩
    refine ⟨(h.mem y).2 h1, fun v hv hv' => ?_⟩
    obtain ⟨w, hw⟩ := (h.ker v).1 fun i hi => by
      have e1 := hv.2 i hi
      have e2 := hv'.2 i hi
      have e3 : ∑ j ∈ range p.C.nc, p.C.e i j * (affine x0 N y j + v j) = Spec.rowVal p.C i (affine x0 N y) + Spec.rowVal p.C i v := by
        simp only [Spec.rowVal, mul_add, Finset.sum_add_distrib]
      have e4 : ∑ j ∈ range p.C.nc, p.C.e i j * (affine x0 N y j - v j) = Spec.rowVal p.C i (affine x0 N y) - Spec.rowVal p.C i v := by
        simp only [Spec.rowVal, mul_sub, Finset.sum_sub_distrib]
      rw [e3] at e1
      rw [e4] at e2
      linarith
    have hw0 := h2 w ((h.mem _).1 ((mem_congr hp fun j hj => by rw [affine_add, hw j hj]).1 hv))
      ((h.mem _).1 ((mem_congr hp fun j hj => by rw [affine_sub, hw j hj]).1 hv'))
    intro j hj
    rw [hw j hj]
    exact Finset.sum_eq_zero fun l hl => by rw [hw0 l (mem_range.1 hl), mul_zero]

/-- the list is the list of the extreme points of `E y ≤ f` -/
def Extreme (E : Mat ℝ) (f : Vec ℝ) (vs : List (Vec ℝ)) : Prop :=
  (∀ v ∈ vs, v.n = E.nc) ∧ ∀ y, (∃ v ∈ vs, ∀ j < E.nc, y j = v.e j) ↔ Spec.IsVertex E.nc (InRows E f) y

/-- what is known about the inequalities in the coordinates without equalities -/
structure Inner (n : ℕ) (p : Poly) (E : Mat ℝ) (f : Vec ℝ) : Prop where
  chart : ∃ N x0, Chart n p E f N x0
  dim : E.nc + p.C.nr = n
  near : Spec.NearPoint n p.A p.b p.C p.d → ∃ y, InRows E f y ∧ ∑ j ∈ range E.nc, y j ^ 2 < 1 / (1e-7 : ℝ) ^ 2 - 1

/-- the vertices in the original coordinates -/
theorem compute_ok {L : Lib} (hL : LibSpec L) {Q : Qhull} {n : ℕ} {p : Poly} (hp : p.Inv n) (heq : p.C.nr = 0 ∨ EqRank n p) {c : Vec ℝ}
    (hcn : c.n = n) (hce : Spec.EqHold p.C p.d c.e) {r : ℝ} (hr : 0 ≤ r) (hball : Spec.BallIn n p.A p.b p.C p.d c.e r)
    (hin : ∀ E f y, Inner n p E f → y.n = E.nc → Fits E f y.e r → ∃ vs, innerVertices L Q E f y = .ok vs ∧ Extreme E f vs) :
    ∃ vs, computeVertices L Q p c = .ok vs ∧ (∀ v ∈ vs, v.n = n) ∧ ∀ x, (∃ v ∈ vs, ∀ j < n, x j = v.e j) ↔ Spec.IsVertex n p.Mem x := by
  obtain ⟨s1, s2, s3, s4⟩ := id hp
  by_cases h0 : p.C.nr = 0
  · have hch := chart_id hp h0
    have haff : ∀ y : ℕ → ℝ, ∀ j < n, affine (fun _ => 0) (Mat.eye n) y j = y j := by
      intro y j hj
      show 0 + ∑ l ∈ range n, (Mat.eye n : Mat ℝ).e j l * y l = y j
      rw [eye_mulVec n y hj, zero_add]
    have hball' : Spec.BallIn n p.A p.b p.C p.d (affine (fun _ => 0) (Mat.eye n) c.e) r := fun v hv hn =>
      (mem_congr hp fun j hj => by rw [haff c.e j hj]).1 (hball v hv hn)
    obtain ⟨vs, h1, h2, h3⟩ := hin p.A p.b c ⟨⟨_, _, hch⟩, by omega, fun ⟨x, hx, hn⟩ => ⟨x, hx.1, by rw [s1]; exact hn⟩⟩ (hcn.trans s1.symm)
      ((hch.ball hp c.e hr).1 hball')
    rw [s1] at h2 h3
    refine ⟨vs, by unfold computeVertices; rw [if_neg (by omega)]; exact h1, h2, fun x => (h3 x).trans ?_⟩
    rw [show Spec.IsVertex n (InRows p.A p.b) x ↔ Spec.IsVertex (Mat.eye n : Mat ℝ).nc (InRows p.A p.b) x from Iff.rfl, ← hch.vertex hp x]
    have hS : ∀ x y, (∀ j < n, x j = y j) → p.Mem x → p.Mem y := fun x y h => (mem_congr hp h).1
    exact ⟨isVertex_congr hS (haff x), isVertex_congr hS fun j hj => (haff x j hj).symm⟩
  · have hrk := heq.resolve_left h0
    obtain ⟨E, f, N, R, x0, h1, -, h2⟩ := removeEqualities_ok hL hp (by omega) hrk
    obtain ⟨Ti, t1, t2, t3, t4, t5, t6, t7⟩ := stack_inv hL hp hrk h1
    have hch := h2.chart hp
    -- points in the two systems of coordinates
    have hback : ∀ z : Vec ℝ, z.n = N.nc → ∃ x w, backToOriginal p.C p.d N R z = .ok x ∧ x.n = n ∧ (∀ j < n, x.e j = affine x0 N z.e j) ∧
        x = (N.happ R).mulVec (z.append w) := by
      intro z hz
      obtain ⟨x, b1, b2, b3⟩ := h2.back z hz
      have b4 := b1
      unfold backToOriginal at b4
      obtain ⟨_, -, b4⟩ := Py.bind_eq_ok b4
      obtain ⟨_, -, b4⟩ := Py.bind_eq_ok b4
      obtain ⟨w, -, b4⟩ := Py.bind_eq_ok b4
      rw [t1, Py.ok_bind, show np.concatenate [z, w] = .ok (z.append w) from rfl, Py.ok_bind] at b4
      refine ⟨x, w, b1, b2, b3, ?_⟩
      unfold np.dotMV at b4
      split_ifs at b4
      exact (Except.ok.inj b4).symm
    obtain ⟨y0, hy0⟩ := hch.surj c.e hce
    obtain ⟨x1, w1, -, -, b3, b4⟩ := hback ⟨N.nc, y0⟩ rfl
    have hz : ∀ l < N.nc, (Ti.mulVec c).e l = y0 l := by
      intro l hl
      have e1 : (Ti.mulVec c).e l = (Ti.mulVec x1).e l := by
        show ∑ j ∈ range Ti.nc, Ti.e l j * c.e j = ∑ j ∈ range Ti.nc, Ti.e l j * x1.e j
        refine Finset.sum_congr rfl fun j hj => ?_
        rw [t4] at hj
        rw [b3 j (mem_range.1 hj), hy0 j (mem_range.1 hj)]
      rw [e1, b4, (t7 _).1 l (by omega), Vec.append_e_lt _ _ hl]
    set z := (Ti.mulVec c).slice 0 N.nc with hzdef
    have hzn : z.n = N.nc := by
      show min N.nc (Ti.mulVec c).n - 0 = N.nc
      rw [Mat.mulVec_n, t3]
      omega
    have hze : ∀ l < N.nc, z.e l = y0 l := fun l hl => by
      show (Ti.mulVec c).e (0 + l) = _
      rw [zero_add]
      exact hz l hl
    have hza : ∀ j, affine x0 N z.e j = affine x0 N y0 j := fun j => by
      unfold affine
      congr 1
      exact Finset.sum_congr rfl fun l hl => by rw [hze l (mem_range.1 hl)]
    have hball' : Spec.BallIn n p.A p.b p.C p.d (affine x0 N z.e) r := fun v hv hn =>
      (mem_congr hp fun j hj => by rw [hza, hy0 j hj]).1 (hball v hv hn)
    have hnear : Spec.NearPoint n p.A p.b p.C p.d → ∃ y, InRows E f y ∧ ∑ j ∈ range E.nc, y j ^ 2 < 1 / (1e-7 : ℝ) ^ 2 - 1 := by
      rintro ⟨x, hx, hn⟩
      obtain ⟨y, hy⟩ := hch.surj x hx.2
      refine ⟨y, (hch.mem y).1 ((mem_congr hp hy).1 hx), lt_of_le_of_lt ?_ hn⟩
      obtain ⟨x2, w2, -, -, c3, c4⟩ := hback ⟨N.nc, y⟩ rfl
      have e1 := (t7 ((⟨N.nc, y⟩ : Vec ℝ).append w2)).2
      rw [← c4] at e1
      have e2 : ∑ j ∈ range n, x j ^ 2 = ∑ j ∈ range n, x2.e j ^ 2 := Finset.sum_congr rfl fun j hj => by
        rw [hy j (mem_range.1 hj), c3 j (mem_range.1 hj)]
      rw [e2, e1, hch.Enc]
      have e3 : ∑ j ∈ range N.nc, y j ^ 2 = ∑ j ∈ range N.nc, ((⟨N.nc, y⟩ : Vec ℝ).append w2).e j ^ 2 :=
        Finset.sum_congr rfl fun j hj => by rw [Vec.append_e_lt _ _ (by exact mem_range.1 hj)]
      rw [e3]
      exact Finset.sum_le_sum_of_subset_of_nonneg (range_subset_range.2 (by omega)) fun _ _ _ => sq_nonneg _
    obtain ⟨vs, k1, k2, k3⟩ := hin E f z ⟨⟨_, _, hch⟩, by rw [hch.Enc]; exact h2.Nnc, hnear⟩ (hzn.trans hch.Enc.symm) ((hch.ball hp z.e hr).1 hball')
    rw [hch.Enc] at k2 k3
    have hg : ∀ v ∈ vs, ∃ x, backToOriginal p.C p.d N R v = .ok x ∧ x.n = n ∧ ∀ j < n, x.e j = affine x0 N v.e j := fun v hv => h2.back v (k2 v hv)
    choose! g g1 g2 g3 using hg
    refine ⟨vs.map g, ?_, fun v hv => ?_, fun x => ?_⟩
    · unfold computeVertices
      have d1 : np.dotMV Ti c = .ok (Ti.mulVec c) := if_pos (t4.trans hcn.symm)
      rw [if_pos (by omega), h1, Py.ok_bind]
      simp only
      rw [t1, Py.ok_bind, t2, Py.ok_bind, d1, Py.ok_bind, k1, Py.ok_bind]
      exact mapM_ok g1
    · obtain ⟨v', hv', rfl⟩ := List.mem_map.1 hv
      exact g2 v' hv'
    · have hS : ∀ x y, (∀ j < n, x j = y j) → p.Mem x → p.Mem y := fun x y h => (mem_congr hp h).1
      constructor
      · rintro ⟨v, hv, hx⟩
        obtain ⟨v', hv', rfl⟩ := List.mem_map.1 hv
        have := (hch.vertex hp v'.e).2 ((k3 v'.e).1 ⟨v', hv', fun _ _ => rfl⟩)
        exact isVertex_congr hS (fun j hj => by rw [hx j hj, g3 v' hv' j hj]) this
      · intro hx
        obtain ⟨y, hy⟩ := hch.surj x hx.1.2
        obtain ⟨v, hv, hyv⟩ := (k3 y).2 ((hch.vertex hp y).1 (isVertex_congr hS hy hx))
        refine ⟨g v, List.mem_map_of_mem hv, fun j hj => ?_⟩
        rw [hy j hj, g3 v hv j hj]
        unfold affine
        congr 1
        exact Finset.sum_congr rfl fun l hl => by rw [hyv l (mem_range.1 hl)]

/-- the chart of a bounded polyhedron is bounded -/
theorem Inner.bounded {n : ℕ} {p : Poly} {E : Mat ℝ} {f : Vec ℝ} (h : Inner n p E f) (hb : Spec.IsBounded n p.A p.b p.C p.d) :
    ∃ M, ∀ y, InRows E f y → ∀ l < E.nc, |y l| ≤ M := by
  obtain ⟨⟨N, x0, hch⟩, -, -⟩ := h
  obtain ⟨M, hM⟩ := hb
  refine ⟨Real.sqrt (∑ j ∈ range n, (M + |x0 j|) ^ 2), fun y hy l hl => ?_⟩
  rw [hch.Enc] at hl
  have hx := hM _ ((hch.mem y).2 hy)
  apply Real.abs_le_sqrt
  calc y l ^ 2 ≤ ∑ l ∈ range N.nc, y l ^ 2 := Finset.single_le_sum (f := fun l => y l ^ 2) (fun _ _ => sq_nonneg _) (mem_range.2 hl)
    _ = ∑ j ∈ range n, (∑ l ∈ range N.nc, N.e j l * y l) ^ 2 := (hch.iso y).symm
    _ ≤ _ := Finset.sum_le_sum fun j hj => by
      have h1 : ∑ l ∈ range N.nc, N.e j l * y l = affine x0 N y j - x0 j := by unfold affine; ring
      rw [h1]
      have h2 := hx j (mem_range.1 hj)
      have h3 := abs_sub (affine x0 N y j) (x0 j)
      rw [← sq_abs]
      exact pow_le_pow_left₀ (abs_nonneg _) (by linarith) 2

/-- qhull finds the extreme points of the inequalities in two or more coordinates -/
theorem inner_ok {L : Lib} {Q : Qhull} (hQ : QhullSpec Q) {E : Mat ℝ} {f y : Vec ℝ} (hf : f.n = E.nr) (hE : 2 ≤ E.nc) (hy : y.n = E.nc) {r : ℝ} (hr : 0 < r)
    (hfit : Fits E f y.e r) (hst : ∀ i < E.nr, rowNorm E i = 0 → 0 < f.e i) (hb : ∃ M, ∀ y, InRows E f y → ∀ l < E.nc, |y l| ≤ M) :
    ∃ vs, innerVertices L Q E f y = .ok vs ∧ Extreme E f vs := by
  set H : Mat ℝ := E.happ ⟨f.n, 1, fun i _ => - f.e i⟩ with hH
  have e1 : np.hstack [E, ⟨f.n, 1, fun i _ => - f.e i⟩] = .ok H := if_pos hf.symm
  have hHe : ∀ i, ∀ j < E.nc, H.e i j = E.e i j := fun i j hj => Mat.happ_e_lt _ _ _ hj
  have hHl : ∀ i, H.e i E.nc = - f.e i := fun i => Mat.happ_e_add E ⟨f.n, 1, fun i _ => - f.e i⟩ i 0
  have hsum : ∀ i (x : ℕ → ℝ), ∑ j ∈ range E.nc, H.e i j * x j = Spec.rowVal E i x := fun i x =>
    Finset.sum_congr rfl fun j hj => by rw [hHe i j (mem_range.1 hj)]
  have hS : Spec.InHalfspaces E.nc H = InRows E f := by
    funext x
    refine propext (forall₂_congr fun i _ => ?_)
    rw [hsum, hHl]
    constructor <;> intro h <;> linarith
  obtain ⟨V, v1, v2, v3⟩ := hQ.half H y (by omega) (by rw [hy]; rfl) (fun i hi => by
    rw [hy, hsum, hHl]
    have h1 := hfit i hi
    rcases eq_or_ne (rowNorm E i) 0 with h2 | h2
    · have h3 := hst i hi h2
      have h4 := rowVal_le_norm E i y.e
      rw [h2, zero_mul] at h4
      linarith
    · have h3 := lt_of_le_of_ne (rowNorm_nonneg E i) (Ne.symm h2)
      have h4 := mul_pos hr h3
      linarith) (by rw [hy, hS]; exact hb)
  rw [hy] at v2 v3
  refine ⟨Geom.rowList V, ?_, fun v hv => ?_, fun x => ?_⟩
  · unfold innerVertices
    rw [if_neg (by omega), e1, Py.ok_bind, v1, Py.ok_bind]
    rfl
  · obtain ⟨k, -, rfl⟩ := List.mem_map.1 hv
    exact v2
  · rw [← hS, ← v3 x]
    constructor
    · rintro ⟨v, hv, hx⟩
      obtain ⟨k, hk, rfl⟩ := List.mem_map.1 hv
      exact ⟨k, List.mem_range.1 hk, hx⟩
    · rintro ⟨k, hk, hx⟩
      exact ⟨V.row k, List.mem_map.2 ⟨k, List.mem_range.2 hk, rfl⟩, hx⟩

end Poly
end Verif
