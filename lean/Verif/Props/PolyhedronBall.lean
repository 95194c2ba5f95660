import Verif.Proofs.PolyChebyshev
import Verif.Props.PolyhedronRedundancy

/- Properties of `radius` and `center` of `/repo/pympc/geometry/polyhedron.py` (C18), and of the
cached answers (C20). -/
namespace Verif.Props
open Finset

theorem radius_run (L : Lib) {p : Poly} (h : p._radius = none) :
    Poly.radius L p = match Poly.chebyshev L p.A p.b p.C p.d with
      | .ok s => (.ok (s.map (·.1)), { p with _radius := s.map (·.1), _center := s.map (·.2) })
      | .error e => (.error e, p) := by
  unfold Poly.radius
  rw [PyM.bind_ok (PyM.get_apply p)]
  simp only [h, PyM.bind_apply, PyM.lift_apply]
  cases Poly.chebyshev L p.A p.b p.C p.d <;> rfl

theorem center_run (L : Lib) {p : Poly} (h : p._center = none) :
    Poly.center L p = match Poly.chebyshev L p.A p.b p.C p.d with
      | .ok s => (.ok (s.map (·.2)), { p with _radius := s.map (·.1), _center := s.map (·.2) })
      | .error e => (.error e, p) := by
  unfold Poly.center
  rw [PyM.bind_ok (PyM.get_apply p)]
  simp only [h, PyM.bind_apply, PyM.lift_apply]
  cases Poly.chebyshev L p.A p.b p.C p.d <;> rfl

/-- an inequality that does not restrict any direction of the affine subspace `C x = d` holds on it
(automatic if the polyhedron has a point) -/
def ConstantRowsHold (A : Mat ℝ) (b : Vec ℝ) (C : Mat ℝ) (d : Vec ℝ) : Prop :=
  ∀ i < A.nr, (∀ v, (∀ k < C.nr, Spec.rowVal C k v = 0) → Spec.rowVal A i v = 0) →
    ∀ x, Spec.EqHold C d x → Spec.rowVal A i x ≤ b.e i

/-- C18, what holds: if the radii of the balls in the polyhedron (relative to the equalities) are
bounded, `radius` and `center` are numbers `r`, `c`; for `r ≥ 0` the ball of radius `r` about `c` is in
the polyhedron and there is no larger one, and `r < 0` exactly when the polyhedron is empty.
The two properties give the same ball in any order of the calls.
Missing with respect to C18: if the radii are not bounded there may be an answer, see `C18_false`. -/
theorem C18_partial (L : Lib) (hL : LibSpec L) (n : ℕ) (p : Poly) (hp : p.Inv n)
    (heq : p.C.nr = 0 ∨ Spec.EqIndep n p.C) (hr : p._radius = none) (hc : p._center = none)
    (hrows : ConstantRowsHold p.A p.b p.C p.d)
    (hbd : ∃ M, ∀ c r, 0 ≤ r → Spec.BallIn n p.A p.b p.C p.d c r → r ≤ M) :
    ∃ r c q, Poly.radius L p = (.ok (some r), q) ∧ Poly.center L p = (.ok (some c), q) ∧
      Poly.radius L q = (.ok (some r), q) ∧ Poly.center L q = (.ok (some c), q) ∧ c.n = n ∧
      (0 ≤ r → Spec.BallIn n p.A p.b p.C p.d c.e r ∧
        ∀ c' r', 0 ≤ r' → Spec.BallIn n p.A p.b p.C p.d c' r' → r' ≤ r) ∧
      (r < 0 ↔ ∀ x, ¬ p.Mem x) := by
  obtain ⟨r, c, k1, k2, -, k3, k4, k5⟩ := Poly.chebyshev_ok hL hp (heq.imp_right Poly.eqRank_iff.2) hrows hbd
  refine ⟨r, c, { p with _radius := some r, _center := some c }, ?_, ?_, rfl, rfl, k2, fun h => ⟨k3 h, k4⟩, k5⟩
  · rw [radius_run L hr, k1]; rfl
  · rw [center_run L hc, k1]; rfl

/-- in a polyhedron with a point constant rows hold -/
theorem constantRows_of_mem {A : Mat ℝ} {b : Vec ℝ} {C : Mat ℝ} {d : Vec ℝ} {x0 : ℕ → ℝ}
    (h : Spec.InPoly A b C d x0) : ConstantRowsHold A b C d := by
  intro i hi hv x hx
  have e1 := hv (fun j => x j - x0 j) (fun k hk => by
    have h1 := hx k hk
    have h2 : Spec.rowVal C k x0 = d.e k := h.2 k hk
    have : Spec.rowVal C k (fun j => x j - x0 j) = Spec.rowVal C k x - Spec.rowVal C k x0 := by
      simp only [Spec.rowVal, mul_sub, Finset.sum_sub_distrib]
    rw [this, h1, h2, sub_self])
  have : Spec.rowVal A i (fun j => x j - x0 j) = Spec.rowVal A i x - Spec.rowVal A i x0 := by
    simp only [Spec.rowVal, mul_sub, Finset.sum_sub_distrib]
  rw [this] at e1
  have h2 : Spec.rowVal A i x0 ≤ b.e i := h.1 i hi
  linarith

/-- the interval `[0, a]` -/
noncomputable def interval (a : ℝ) : Poly :=
  Poly.fresh ⟨2, 1, fun i _ => if i = 0 then 1 else -1⟩ ⟨2, fun i => if i = 0 then a else 0⟩ (Mat.zeros 0 1) (Vec.zeros 0)

/-- a ball in a one dimensional set without equalities -/
theorem ball_one {A : Mat ℝ} {b : Vec ℝ} (hA : A.nc = 1) {c : ℕ → ℝ} {r : ℝ} (hr : 0 ≤ r) :
    Spec.BallIn 1 A b (Mat.zeros 0 1) (Vec.zeros 0) c r ↔
      (∀ i < A.nr, A.e i 0 * (c 0 + r) ≤ b.e i) ∧ ∀ i < A.nr, A.e i 0 * (c 0 - r) ≤ b.e i := by
  constructor
  · intro h
    have h1 := (h (fun _ => r) (fun i hi => absurd hi (by simp [Mat.zeros])) (by simp [Real.sqrt_sq hr])).1
    have h2 := (h (fun _ => -r) (fun i hi => absurd hi (by simp [Mat.zeros])) (by simp [Real.sqrt_sq hr])).1
    simp only [hA, Finset.sum_range_one] at h1 h2
    exact ⟨h1, fun i hi => by have := h2 i hi; linarith⟩
  · rintro ⟨h1, h2⟩ v _ hv
    refine ⟨fun i hi => ?_, fun i hi => absurd hi (by simp [Mat.zeros])⟩
    simp only [hA, Finset.sum_range_one]
    have hv' : |v 0| ≤ r := by simpa [Real.sqrt_sq_eq_abs] using hv
    obtain ⟨a1, a2⟩ := abs_le.1 hv'
    rcases le_total 0 (A.e i 0) with h | h
    · have := h1 i hi
      nlinarith
    · have := h2 i hi
      nlinarith

/-- intervals meet the hypotheses of `C18_partial` -/
example : let p := interval 2
    p.Inv 1 ∧ p.C.nr = 0 ∧ ConstantRowsHold p.A p.b p.C p.d ∧
      ∃ M, ∀ c r, 0 ≤ r → Spec.BallIn 1 p.A p.b p.C p.d c r → r ≤ M := by
  refine ⟨⟨rfl, rfl, rfl, rfl⟩, rfl, constantRows_of_mem (x0 := fun _ => 1) ⟨fun i hi => ?_, fun i hi => ?_⟩, 2,
    fun c r hr h => ?_⟩
  · have : i < 2 := hi
    interval_cases i <;> simp [interval, Poly.fresh]
  · exact absurd hi (by simp [interval, Poly.fresh, Mat.zeros])
  · obtain ⟨h1, h2⟩ := (ball_one rfl hr).1 h
    have a1 := h1 0 (by norm_num [interval, Poly.fresh])
    have a2 := h2 1 (by norm_num [interval, Poly.fresh])
    simp [interval, Poly.fresh] at a1 a2
    linarith

/-- C18 is false of the code: the wedge `{x ≤ 0, 1e-8 y ≤ x}` contains arbitrarily large balls, but
`radius` is a number. -/
theorem C18_false : ∃ p : Poly, p.Inv 2 ∧ p._radius = none ∧ p._center = none ∧
    ∀ L, LibSpec L → ∃ r c q, Poly.radius L p = (.ok (some r), q) ∧ Poly.center L p = (.ok (some c), q) ∧
      (¬ (r < 0 → ∀ x, ¬ p.Mem x) ∨
      ¬ (0 ≤ r → ∀ c' r', 0 ≤ r' → Spec.BallIn 2 p.A p.b p.C p.d c' r' → r' ≤ r)) := by
  let A : Mat ℝ := ⟨2, 2, fun i j => if i = 0 then (if j = 0 then 1 else 0) else (if j = 0 then -1 else 1e-8)⟩
  let p := Poly.fresh A ⟨2, fun _ => 0⟩ (Mat.zeros 0 2) (Vec.zeros 0)
  have hp : p.Inv 2 := ⟨rfl, rfl, rfl, rfl⟩
  have n0 : rowNorm A 0 = 1 := by simp [rowNorm, A]
  have n1 : rowNorm A 1 ≤ 2 := by
    unfold rowNorm
    rw [Real.sqrt_le_left (by norm_num)]
    simp [A, Finset.sum_range_succ]
    norm_num
  have hball : ∀ r : ℝ, 0 ≤ r → ∃ c, Spec.BallIn 2 p.A p.b p.C p.d c r := by
    intro r hr
    refine ⟨fun j => if j = 0 then -r else -1e9 * r, fun v _ hv => ⟨?_, fun i hi => absurd hi (by simp [p, Poly.fresh, Mat.zeros])⟩⟩
    refine (ball_iff_fits A ⟨2, fun _ => 0⟩ _ hr).2 (fun i hi => ?_) v hv
    have : i < 2 := hi
    interval_cases i
    · rw [n0]
      simp [Spec.rowVal, A, Finset.sum_range_succ]
    · have e : Spec.rowVal A 1 (fun j => if j = 0 then -r else -1e9 * r) = r - 10 * r := by
        simp [Spec.rowVal, A, Finset.sum_range_succ]
        ring
      rw [e]
      have := mul_le_mul_of_nonneg_left n1 hr
      show _ ≤ (0 : ℝ)
      linarith
  refine ⟨p, hp, rfl, rfl, fun L hL => ?_⟩
  -- the linear program is answered
  set ν := rowNorm A 1 with hν
  have hν0 : 0 ≤ ν := rowNorm_nonneg A 1
  obtain ⟨x, lam, h1, h2, -⟩ := lp_answers hL (n := 3) (f := (Vec.zeros 2).append (Vec.ones 1))
    (A := A.happ (Poly.rowNorms A).neg) (b := ⟨2, fun _ => 0⟩) rfl rfl rfl (show 0 < 2 by norm_num) (tol := 1e-7) (by norm_num)
    (y := fun _ => 1 / (1 + ν)) (s := fun _ => 0) (x' := fun _ => 0) (fun i _ => by positivity) (fun _ _ => le_rfl) (by
      have e0 : (A.happ (Poly.rowNorms A).neg).nc = 3 := rfl
      have e1 : (A.happ (Poly.rowNorms A).neg).nr = 2 := rfl
      have f0 : ((Vec.zeros 2 : Vec ℝ).append (Vec.ones 1)).e 0 = 0 := rfl
      have f1 : ((Vec.zeros 2 : Vec ℝ).append (Vec.ones 1)).e 1 = 0 := rfl
      have f2 : ((Vec.zeros 2 : Vec ℝ).append (Vec.ones 1)).e 2 = 1 := rfl
      have a00 : (A.happ (Poly.rowNorms A).neg).e 0 0 = 1 := rfl
      have a01 : (A.happ (Poly.rowNorms A).neg).e 0 1 = 0 := rfl
      have a02 : (A.happ (Poly.rowNorms A).neg).e 0 2 = -1 := by rw [← n0]; rfl
      have a10 : (A.happ (Poly.rowNorms A).neg).e 1 0 = -1 := rfl
      have a11 : (A.happ (Poly.rowNorms A).neg).e 1 1 = 1e-8 := rfl
      have a12 : (A.happ (Poly.rowNorms A).neg).e 1 2 = -ν := rfl
      unfold lpRes
      rw [e0, e1]
      simp only [Finset.sum_range_succ, Finset.sum_range_zero, f0, f1, f2, a00, a01, a02, a10, a11, a12]
      have hpos : 0 < 1 + ν := by linarith
      have hinv : 1 / (1 + ν) ≤ 1 := by rw [div_le_one hpos]; linarith
      have hinv0 : 0 ≤ 1 / (1 + ν) := by positivity
      have hst : -1 * (1 / (1 + ν)) + -ν * (1 / (1 + ν)) + 1 = 0 := by field_simp; ring
      have hsq : (1 / (1 + ν)) ^ 2 ≤ 1 := by nlinarith
      have : (0 + -1 * (1 / (1 + ν)) + -ν * (1 / (1 + ν)) + 1) ^ 2 = 0 := by rw [zero_add, hst]; ring
      rw [this]
      norm_num
      rw [one_div] at hsq
      nlinarith)
  have hcheb : Poly.chebyshev L p.A p.b p.C p.d
      = .ok (some (-Spec.lpCost ((Vec.zeros 2).append (Vec.ones 1)) x, x.slice 0 (x.n - 1))) := by
    unfold Poly.chebyshev
    rw [if_neg (by simp [p, Poly.fresh, Mat.zeros]), Poly.chebyshevLP_eq]
    unfold lpDefault
    rw [show p.A = A from rfl, show p.b = ⟨2, fun _ => 0⟩ from rfl, show A.nc = 2 from rfl, h1]
    rfl
  set r := -Spec.lpCost ((Vec.zeros 2 : Vec ℝ).append (Vec.ones 1)) x
  refine ⟨r, x.slice 0 (x.n - 1), { p with _radius := some r, _center := some (x.slice 0 (x.n - 1)) }, ?_⟩
  refine ⟨by rw [radius_run L rfl, hcheb]; rfl, by rw [center_run L rfl, hcheb]; rfl, ?_⟩
  by_cases hr : 0 ≤ r
  · right
    intro h
    obtain ⟨c, hc⟩ := hball (r + 1) (by linarith)
    have := h hr c (r + 1) (by linarith) hc
    linarith
  · left
    intro h
    obtain ⟨c, hc⟩ := hball 0 le_rfl
    have := hc (fun _ => 0) (fun i _ => by simp [Spec.rowVal]) (by simp)
    exact h (not_le.1 hr) _ this

end Verif.Props
