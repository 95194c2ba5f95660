import Verif.Model.Systems
import Verif.Spec.Dyn
import Verif.Math.LinearOde

/- Properties of `/repo/pympc/dynamics/utils.py` and `/repo/pympc/dynamics/discretization_methods.py`. -/
namespace Verif.Props
open Finset Dyn Matrix

/-- the data that `check_affine_system` should accept -/
def ValidSystem (A B : Mat ℝ) (c : Option (NDArr ℝ)) (h : Option ℝ) : Prop :=
  A.nr = A.nc ∧ A.nr = B.nr ∧ (∀ c', c = some c' → ∃ v : Vec ℝ, c' = .d1 v ∧ v.n = A.nr) ∧
    ∀ h', h = some h' → 0 ≤ h'

/-- C47: `check_affine_system` accepts exactly the data of consistent sizes with nonnegative time step
and raises `ValueError` otherwise. -/
theorem C47 (A B : Mat ℝ) (c : Option (NDArr ℝ)) (h : Option ℝ) :
    (ValidSystem A B c h → check_affine_system A B c h = .ok ()) ∧
      (¬ ValidSystem A B c h → check_affine_system A B c h = .error .valueError) := by
  classical
  have hh : checkStep h = if (∀ h', h = some h' → 0 ≤ h') then .ok () else .error .valueError := by
    cases h with
    | none => rw [if_pos (fun _ e => by cases e)]; rfl
    | some h =>
      by_cases hlt : h < 0
      · rw [if_neg (fun hh => absurd (hh h rfl) (not_le.2 hlt))]; exact if_pos hlt
      · rw [if_pos (fun h' he => by cases he; exact not_lt.1 hlt)]; exact if_neg hlt
  have hc : checkOffset A.nr c = if (∀ c', c = some c' → ∃ v : Vec ℝ, c' = .d1 v ∧ v.n = A.nr) then .ok ()
      else .error .valueError := by
    cases c with
    | none => rw [if_pos (fun _ e => by cases e)]; rfl
    | some c =>
      cases c with
      | d2 M => rw [if_neg (fun h => by obtain ⟨v, hv, -⟩ := h _ rfl; cases hv)]; rfl
      | d1 v =>
        by_cases h3 : A.nr = v.n
        · rw [if_pos (fun _ e => by cases e; exact ⟨v, rfl, h3.symm⟩)]
          exact if_neg (not_not.2 h3)
        · rw [if_neg (fun h => by obtain ⟨w, hw, hw'⟩ := h _ rfl; cases hw; exact h3 hw'.symm)]
          exact if_pos h3
  unfold check_affine_system ValidSystem
  rw [hh, hc]
  by_cases h1 : A.nr = A.nc <;> by_cases h2 : A.nr = B.nr <;>
    by_cases h3 : (∀ c', c = some c' → ∃ v : Vec ℝ, c' = .d1 v ∧ v.n = A.nr) <;>
    by_cases h4 : (∀ h', h = some h' → 0 ≤ h')
  all_goals
    constructor
    · rintro ⟨k1, k2, k3, k4⟩
      first
        | (rw [if_neg (not_not.2 k1), if_neg (not_not.2 k2), if_pos k3, if_pos k4]; rfl)
    · intro hv
      first
        | (rw [if_pos h1])
        | (rw [if_neg (not_not.2 h1), if_pos h2])
        | (rw [if_neg (not_not.2 h1), if_neg (not_not.2 h2), if_neg h3]; rfl)
        | (rw [if_neg (not_not.2 h1), if_neg (not_not.2 h2), if_pos h3, if_neg h4]; rfl)
        | exact absurd ⟨h1, h2, h3, h4⟩ hv

/-- the double integrator is valid -/
example : ValidSystem ⟨2, 2, fun i j => if i = 0 ∧ j = 1 then 1 else 0⟩ ⟨2, 1, fun i _ => i⟩
    (some (.d1 (Vec.zeros 2))) (some 0.1) :=
  ⟨rfl, rfl, fun c h => by cases h; exact ⟨_, rfl, rfl⟩, fun h e => by cases e; norm_num⟩

theorem check_ok {nx nu : ℕ} {A B : Mat ℝ} {c : Vec ℝ} {h : ℝ} (hS : Spec.SystemShape nx nu A B c) (hh : 0 ≤ h) :
    check_affine_system A B (some (.d1 c)) (some h) = .ok () :=
  (C47 _ _ _ _).1 ⟨hS.1.trans hS.2.1.symm, hS.1.trans hS.2.2.1.symm,
    fun _ e => by cases e; exact ⟨c, rfl, hS.2.2.2.2.trans hS.1.symm⟩, fun _ e => by cases e; exact hh⟩

theorem check_ok' {nx nu : ℕ} {A B : Mat ℝ} {c : Vec ℝ} (hS : Spec.SystemShape nx nu A B c) :
    check_affine_system A B (some (.d1 c)) none = .ok () :=
  (C47 _ _ _ _).1 ⟨hS.1.trans hS.2.1.symm, hS.1.trans hS.2.2.1.symm,
    fun _ e => by cases e; exact ⟨c, rfl, hS.2.2.2.2.trans hS.1.symm⟩, fun _ e => by cases e⟩

/-- C48: the system returned by `explicit_euler` maps `(x, u)` to `x + h (A x + B u + c)`. -/
theorem C48 (nx nu : ℕ) (A B : Mat ℝ) (c : Vec ℝ) (h : ℝ) (hS : Spec.SystemShape nx nu A B c) (hh : 0 ≤ h) :
    ∃ Ad Bd cd, explicit_euler A B (.d1 c) h = .ok (Ad, Bd, cd) ∧ Spec.SystemShape nx nu Ad Bd cd ∧
      ∀ x u : ℕ → ℝ, ∀ i < nx, Spec.affine Ad Bd cd x u i = x i + h * Spec.affine A B c x u i := by
  obtain ⟨h1, h2, h3, h4, h5⟩ := hS
  have hadd : np.addM (A.smul h) (Mat.eye A.nr) = .ok ((A.smul h).add (Mat.eye A.nr)) :=
    if_pos ⟨rfl, by simp [h1, h2]⟩
  refine ⟨(A.smul h).add (Mat.eye A.nr), B.smul h, c.smul h, ?_, ⟨h1, h2, h3, h4, h5⟩, fun x u i hi => ?_⟩
  · unfold explicit_euler
    rw [check_ok ⟨h1, h2, h3, h4, h5⟩ hh, hadd]
    rfl
  · simp only [Spec.affine, Mat.add_nc, Mat.smul_nc, Mat.add_e, Mat.smul_e, Mat.eye_e, Vec.smul_e, add_mul,
      Finset.sum_add_distrib, mul_add, Finset.mul_sum, mul_assoc, ite_mul, one_mul, zero_mul]
    rw [Finset.sum_ite_eq, if_pos (by rw [h2]; exact mem_range.2 hi)]
    ring

/-- `x` solves `dx/dt = A x + B u + c` on `[0, h]` with the constant input `u` -/
def SolvesOde (nx : ℕ) (A B : Mat ℝ) (c : Vec ℝ) (u : ℕ → ℝ) (h : ℝ) (x : ℝ → ℕ → ℝ) : Prop :=
  ∀ t ∈ Set.Icc 0 h, ∀ i < nx, HasDerivWithinAt (fun s => x s i) (Spec.affine A B c (x t) u i) (Set.Icc 0 h) t

/-- the matrix whose exponential is computed -/
def zohMat (A B : Mat ℝ) (c : Vec ℝ) : Mat ℝ :=
  ((A.happ (B.happ (Mat.ofCol c)))).vapp (Mat.zeros (B.nc + 1) (A.nr + B.nc + 1))

/-- state, input and the constant one -/
def zohVec (nx nu : ℕ) (x u : ℕ → ℝ) (i : ℕ) : ℝ := if i < nx then x i else if i < nx + nu then u (i - nx) else 1

theorem zohMat_top {nx nu : ℕ} {A B : Mat ℝ} {c : Vec ℝ} (hS : Spec.SystemShape nx nu A B c) (x u : ℕ → ℝ) {i : ℕ}
    (hi : i < nx) : ∑ j ∈ range (nx + nu + 1), (zohMat A B c).e i j * zohVec nx nu x u j = Spec.affine A B c x u i := by
  obtain ⟨h1, h2, h3, h4, h5⟩ := hS
  rw [Finset.sum_range_succ, Finset.sum_range_add]
  have e0 : ∀ j, (zohMat A B c).e i j = (A.happ (B.happ (Mat.ofCol c))).e i j := fun j =>
    Mat.vapp_e_lt _ _ _ (by simpa [h1] using hi)
  unfold Spec.affine
  rw [h2, h4]
  congr 1
  · congr 1
    · refine Finset.sum_congr rfl fun j hj => ?_
      have hj := mem_range.1 hj
      rw [e0, Mat.happ_e_lt _ _ _ (by omega), zohVec, if_pos hj]
    · refine Finset.sum_congr rfl fun j hj => ?_
      have hj := mem_range.1 hj
      rw [e0, ← h2, Mat.happ_e_add, Mat.happ_e_lt _ _ _ (by omega), zohVec, if_neg (by omega), if_pos (by omega)]
      congr 2
      omega
  · rw [e0, show nx + nu = A.nc + (B.nc + 0) by omega, Mat.happ_e_add, Mat.happ_e_add, zohVec, if_neg (by omega),
      if_neg (by omega), mul_one]
    rfl

theorem zohMat_bottom {nx nu : ℕ} {A B : Mat ℝ} {c : Vec ℝ} (hS : Spec.SystemShape nx nu A B c) {i : ℕ}
    (hi : nx ≤ i) (j : ℕ) : (zohMat A B c).e i j = 0 := by
  obtain ⟨h1, h2, h3, h4, h5⟩ := hS
  obtain ⟨k, rfl⟩ := Nat.exists_eq_add_of_le hi
  have : nx = (A.happ (B.happ (Mat.ofCol c))).nr := h1.symm
  unfold zohMat
  rw [this, Mat.vapp_e_add]
  rfl

/-- the three blocks of the exponential -/
theorem zero_order_hold_run {nx nu : ℕ} {A B : Mat ℝ} {c : Vec ℝ} {h : ℝ} (hS : Spec.SystemShape nx nu A B c)
    (hh : 0 ≤ h) : ∃ Ad Bd cd, zero_order_hold A B (.d1 c) h = .ok (Ad, Bd, cd) ∧ Spec.SystemShape nx nu Ad Bd cd ∧
      ∀ x u : ℕ → ℝ, ∀ i : Fin (nx + nu + 1), (i : ℕ) < nx → Spec.affine Ad Bd cd x u i =
        (NormedSpace.exp (h • (zohMat A B c).asM (nx + nu + 1) (nx + nu + 1)) *ᵥ fun j => zohVec nx nu x u j) i := by
  obtain ⟨h1, h2, h3, h4, h5⟩ := id hS
  subst h1 h4
  have t1 : np.hstack [A, B, Mat.ofCol c] = .ok (A.happ (B.happ (Mat.ofCol c))) := by
    show (np.hstack2 B (Mat.ofCol c) >>= fun C => np.hstack2 A C) = _
    rw [show np.hstack2 B (Mat.ofCol c) = .ok (B.happ (Mat.ofCol c)) from if_pos (by simp [h3, h5])]
    exact if_pos (by simp [h3])
  have t2 : np.vstack [A.happ (B.happ (Mat.ofCol c)), Mat.zeros (B.nc + 1) (A.nr + B.nc + 1)] = .ok (zohMat A B c) :=
    if_pos (by simp [h2]; omega)
  have hnr : ((zohMat A B c).smul h).nr = A.nr + B.nc + 1 := by simp [zohMat]; omega
  have hnc : ((zohMat A B c).smul h).nc = A.nr + B.nc + 1 := by simp [zohMat, h2]; omega
  set E := NormedSpace.exp (h • (zohMat A B c).asM (A.nr + B.nc + 1) (A.nr + B.nc + 1)) with hE
  have t3 : np.expm ((zohMat A B c).smul h) = .ok (Mat.ofM E) := by
    unfold np.expm
    rw [if_pos (hnr.trans hnc.symm)]
    have : ∀ k, ((zohMat A B c).smul h).nr = k → Mat.ofM (NormedSpace.exp (((zohMat A B c).smul h).asM
        ((zohMat A B c).smul h).nr ((zohMat A B c).smul h).nr))
        = Mat.ofM (NormedSpace.exp (h • (zohMat A B c).asM k k)) := by rintro k rfl; rfl
    rw [this _ hnr]
  refine ⟨(Mat.ofM E).block 0 A.nr 0 A.nr, (Mat.ofM E).block 0 A.nr A.nr (A.nr + B.nc),
    ((Mat.ofM E).col (A.nr + B.nc)).slice 0 A.nr, ?_, ?_, fun x u i hi => ?_⟩
  · unfold zero_order_hold
    rw [check_ok hS hh]
    simp only [Py.ok_bind]
    rw [t1, Py.ok_bind, t2, Py.ok_bind, t3]
    rfl
  · refine ⟨?_, ?_, ?_, ?_, ?_⟩ <;> simp [Mat.block] <;> omega
  · have key : ∀ j : Fin (A.nr + B.nc + 1), (Mat.ofM E).e i j = E i j := fun j => by
      have := congrFun (congrFun (Mat.ofM_asM E) i) j
      exact this
    show _ = ∑ j : Fin (A.nr + B.nc + 1), E i j * zohVec A.nr B.nc x u j
    have e1 : ∑ j : Fin (A.nr + B.nc + 1), E i j * zohVec A.nr B.nc x u j
        = ∑ j ∈ range (A.nr + B.nc + 1), (Mat.ofM E).e i j * zohVec A.nr B.nc x u j := by
      rw [Finset.sum_range]
      exact Finset.sum_congr rfl fun j _ => by rw [key]
    rw [e1, Finset.sum_range_succ, Finset.sum_range_add]
    unfold Spec.affine
    congr 1
    · have hb1 : ((Mat.ofM E).block 0 A.nr 0 A.nr).nc = A.nr := by simp [Mat.block]; omega
      have hb2 : ((Mat.ofM E).block 0 A.nr A.nr (A.nr + B.nc)).nc = B.nc := by simp [Mat.block]
      rw [hb1, hb2]
      congr 1
      · refine Finset.sum_congr rfl fun j hj => ?_
        have hj := mem_range.1 hj
        rw [zohVec, if_pos hj]
        simp [Mat.block]
      · refine Finset.sum_congr rfl fun j hj => ?_
        have hj := mem_range.1 hj
        rw [zohVec, if_neg (by omega), if_pos (by omega)]
        simp [Mat.block]
    · rw [zohVec, if_neg (by omega), if_neg (by omega), mul_one]
      simp

theorem asM_mulVec_sum (M : Mat ℝ) (k : ℕ) (z : ℕ → ℝ) (i : Fin k) :
    (M.asM k k *ᵥ fun j => z j) i = ∑ j ∈ range k, M.e i j * z j := by
  rw [Finset.sum_range]
  rfl

/-- C49: with the matrices of `zero_order_hold`, `A_d x0 + B_d u + c_d` is the value at time `h` of every
solution of `dx/dt = A x + B u + c` on `[0, h]` with `x(0) = x0` and constant `u`, and there is a solution;
discretizing with step `h1` and then with `h2` is discretizing with `h1 + h2`. -/
theorem C49 (nx nu : ℕ) (A B : Mat ℝ) (c : Vec ℝ) (hS : Spec.SystemShape nx nu A B c) :
    (∀ h, 0 ≤ h → ∃ Ad Bd cd, zero_order_hold A B (.d1 c) h = .ok (Ad, Bd, cd) ∧ Spec.SystemShape nx nu Ad Bd cd ∧
      ∀ x0 u : ℕ → ℝ,
        (∃ x, SolvesOde nx A B c u h x ∧ ∀ i < nx, x 0 i = x0 i) ∧
        ∀ x, SolvesOde nx A B c u h x → (∀ i < nx, x 0 i = x0 i) →
          ∀ i < nx, x h i = Spec.affine Ad Bd cd x0 u i) ∧
    ∀ h1 h2, 0 ≤ h1 → 0 ≤ h2 → ∃ A1 B1 c1 A2 B2 c2 A3 B3 c3,
      zero_order_hold A B (.d1 c) h1 = .ok (A1, B1, c1) ∧ zero_order_hold A B (.d1 c) h2 = .ok (A2, B2, c2) ∧
      zero_order_hold A B (.d1 c) (h1 + h2) = .ok (A3, B3, c3) ∧
      ∀ x u : ℕ → ℝ, ∀ i < nx, Spec.affine A2 B2 c2 (Spec.affine A1 B1 c1 x u) u i = Spec.affine A3 B3 c3 x u i := by
  set k := nx + nu + 1 with hk
  set M := (zohMat A B c).asM k k with hM
  have hbot : ∀ i : Fin k, nx ≤ (i : ℕ) → ∀ t (y : Fin k → ℝ), (NormedSpace.exp (t • M) *ᵥ y) i = y i :=
    fun i hi t y => Math.exp_row_zero M (fun j => zohMat_bottom hS hi j) t y
  constructor
  · intro h hh
    obtain ⟨Ad, Bd, cd, h1, h2, h3⟩ := zero_order_hold_run hS hh
    refine ⟨Ad, Bd, cd, h1, h2, fun x0 u => ⟨?_, fun x hx hx0 i hi => ?_⟩⟩
    · set y : Fin k → ℝ := fun j => zohVec nx nu x0 u j with hy
      let x : ℝ → ℕ → ℝ := fun t i => if hi : i < k then (NormedSpace.exp (t • M) *ᵥ y) ⟨i, hi⟩ else 0
      have hxe : ∀ t (i : Fin k), x t i = (NormedSpace.exp (t • M) *ᵥ y) i := fun t i => dif_pos i.2
      refine ⟨x, fun t ht i hi => ?_, fun i hi => ?_⟩
      · have hik : i < k := by omega
        have hd := Math.hasDerivAt_exp_mulVec M y t ⟨i, hik⟩
        have hz : NormedSpace.exp (t • M) *ᵥ y = fun j : Fin k => zohVec nx nu (x t) u j := by
          funext j
          by_cases hj : (j : ℕ) < nx
          · rw [zohVec, if_pos hj, hxe]
          · rw [hbot j (not_lt.1 hj), hy]
            simp only [zohVec, if_neg hj]
        have e2 : (M *ᵥ (NormedSpace.exp (t • M) *ᵥ y)) ⟨i, hik⟩ = Spec.affine A B c (x t) u i := by
          rw [hz, asM_mulVec_sum]
          exact zohMat_top hS (x t) u hi
        rw [e2] at hd
        have : (fun s => x s i) = fun s => (NormedSpace.exp (s • M) *ᵥ y) ⟨i, hik⟩ :=
          funext fun s => hxe s ⟨i, hik⟩
        rw [this]
        exact hd.hasDerivWithinAt
      · have := hxe 0 ⟨i, by omega⟩
        simp only at this
        rw [this]
        simp [hy, zohVec, hi]
    · have hu := Math.linear_ode_unique M hh (fun t (j : Fin k) => zohVec nx nu (x t) u j) (fun t ht j => by
        by_cases hj : (j : ℕ) < nx
        · have := hx t ht j hj
          rw [asM_mulVec_sum, zohMat_top hS (x t) u hj]
          simpa only [zohVec, if_pos hj] using this
        · have e0 : (M *ᵥ fun j : Fin k => zohVec nx nu (x t) u j) j = 0 := by
            rw [asM_mulVec_sum]
            exact Finset.sum_eq_zero fun l _ => by rw [zohMat_bottom hS (not_lt.1 hj), zero_mul]
          rw [e0]
          simp only [zohVec, if_neg hj]
          exact hasDerivWithinAt_const _ _ _)
      have := congrFun hu ⟨i, by omega⟩
      simp only [zohVec, if_pos hi] at this
      rw [this, h3 x0 u ⟨i, by omega⟩ hi]
      congr 1
      funext j
      by_cases hj : (j : ℕ) < nx
      · simp only [zohVec, if_pos hj, hx0 j hj]
      · simp only [zohVec, if_neg hj]
  · intro s t hs ht
    obtain ⟨A1, B1, c1, e1, -, f1⟩ := zero_order_hold_run hS hs
    obtain ⟨A2, B2, c2, e2, -, f2⟩ := zero_order_hold_run hS ht
    obtain ⟨A3, B3, c3, e3, -, f3⟩ := zero_order_hold_run hS (add_nonneg hs ht)
    refine ⟨A1, B1, c1, A2, B2, c2, A3, B3, c3, e1, e2, e3, fun x u i hi => ?_⟩
    rw [f2 _ u ⟨i, by omega⟩ hi, f3 x u ⟨i, by omega⟩ hi, add_comm s t, Math.exp_add_smul, ← mulVec_mulVec]
    congr 1
    funext j
    by_cases hj : (j : ℕ) < nx
    · rw [zohVec, if_pos hj, f1 x u j hj]
    · rw [hbot j (not_lt.1 hj)]
      simp only [zohVec, if_neg hj]

/-- the double integrator with an offset -/
example : Spec.SystemShape 2 1 ⟨2, 2, fun i j => if i = 0 ∧ j = 1 then 1 else 0⟩ ⟨2, 1, fun i _ => i⟩ (Vec.ones 2) :=
  ⟨rfl, rfl, rfl, rfl, rfl⟩

/-- C83: `from_continuous` of affine and linear systems gives the system with the discretized matrices, for
both methods, and raises `ValueError` for other methods. -/
theorem C83 (nx nu : ℕ) (A B : Mat ℝ) (c : Vec ℝ) (h : ℝ) (hS : Spec.SystemShape nx nu A B c) (hh : 0 ≤ h) :
    (∃ Ad Bd cd, zero_order_hold A B (.d1 c) h = .ok (Ad, Bd, cd) ∧
      AffineSystem.from_continuous A B (.d1 c) h .zeroOrderHold = .ok ⟨Ad, Bd, cd, nx, nu⟩) ∧
    (∃ Ad Bd cd, explicit_euler A B (.d1 c) h = .ok (Ad, Bd, cd) ∧
      AffineSystem.from_continuous A B (.d1 c) h .explicitEuler = .ok ⟨Ad, Bd, cd, nx, nu⟩) ∧
    AffineSystem.from_continuous A B (.d1 c) h .other = .error .valueError ∧
    (∃ Ad Bd cd, zero_order_hold A B (.d1 (Vec.zeros nx)) h = .ok (Ad, Bd, cd) ∧ (∀ i < nx, cd.e i = 0) ∧
      LinearSystem.from_continuous A B h .zeroOrderHold = .ok ⟨Ad, Bd, nx, nu, none⟩) ∧
    (∃ Ad Bd cd, explicit_euler A B (.d1 (Vec.zeros nx)) h = .ok (Ad, Bd, cd) ∧ (∀ i < nx, cd.e i = 0) ∧
      LinearSystem.from_continuous A B h .explicitEuler = .ok ⟨Ad, Bd, nx, nu, none⟩) ∧
    LinearSystem.from_continuous A B h .other = .error .valueError := by
  have hS0 : Spec.SystemShape nx nu A B (Vec.zeros nx) := ⟨hS.1, hS.2.1, hS.2.2.1, hS.2.2.2.1, rfl⟩
  have hchk : check_affine_system A B none (some h) = .ok () :=
    (C47 _ _ _ _).1 ⟨hS.1.trans hS.2.1.symm, hS.1.trans hS.2.2.1.symm, fun _ e => (by cases e), fun _ e => by cases e; exact hh⟩
  have hchk' : ∀ A' B' (c' : Vec ℝ), Spec.SystemShape nx nu A' B' c' → check_affine_system A' B' none none = .ok () :=
    fun A' B' c' h' => (C47 _ _ _ _).1 ⟨h'.1.trans h'.2.1.symm, h'.1.trans h'.2.2.1.symm, fun _ e => (by cases e), fun _ e => by cases e⟩
  have haff : ∀ m Ad Bd cd, discretize A B (.d1 c) h m = .ok (Ad, Bd, cd) → Spec.SystemShape nx nu Ad Bd cd →
      AffineSystem.from_continuous A B (.d1 c) h m = .ok ⟨Ad, Bd, cd, nx, nu⟩ := by
    intro m Ad Bd cd h1 h2
    unfold AffineSystem.from_continuous AffineSystem.init
    rw [check_ok hS hh, h1]
    simp only [Py.ok_bind]
    rw [check_ok' h2]
    obtain ⟨-, -, rfl, rfl, -⟩ := h2
    rfl
  have hlin : ∀ m Ad Bd cd, discretize A B (.d1 (Vec.zeros nx)) h m = .ok (Ad, Bd, cd) → Spec.SystemShape nx nu Ad Bd cd →
      LinearSystem.from_continuous A B h m = .ok ⟨Ad, Bd, nx, nu, none⟩ := by
    intro m Ad Bd cd h1 h2
    unfold LinearSystem.from_continuous LinearSystem.init
    rw [hchk, hS.1, h1]
    simp only [Py.ok_bind]
    rw [hchk' _ _ _ h2]
    obtain ⟨-, -, rfl, rfl, -⟩ := h2
    rfl
  obtain ⟨A1, B1, c1, a1, a2, -⟩ := zero_order_hold_run hS hh
  obtain ⟨A2, B2, c2, b1, b2, -⟩ := C48 nx nu A B c h hS hh
  obtain ⟨A3, B3, c3, d1, d2, d3⟩ := (C49 nx nu A B _ hS0).1 h hh
  obtain ⟨A4, B4, c4, e1, e2, e3⟩ := C48 nx nu A B _ h hS0 hh
  refine ⟨⟨A1, B1, c1, a1, haff .zeroOrderHold _ _ _ a1 a2⟩, ⟨A2, B2, c2, b1, haff .explicitEuler _ _ _ b1 b2⟩, ?_,
    ⟨A3, B3, c3, d1, fun i hi => ?_, hlin .zeroOrderHold _ _ _ d1 d2⟩,
    ⟨A4, B4, c4, e1, fun i hi => ?_, hlin .explicitEuler _ _ _ e1 e2⟩, ?_⟩
  · unfold AffineSystem.from_continuous
    rw [check_ok hS hh]; rfl
  · -- the solution from the origin without input is zero
    have := (d3 (fun _ => 0) (fun _ => 0)).2 (fun _ _ => 0) (fun t _ i _ => by
      have : Spec.affine A B (Vec.zeros nx) (fun _ => 0) (fun _ => 0) i = 0 := by simp [Spec.affine]
      rw [this]
      exact hasDerivWithinAt_const _ _ _) (fun _ _ => rfl) i hi
    simp [Spec.affine] at this
    exact this.symm
  · have := e3 (fun _ => 0) (fun _ => 0) i hi
    simpa [Spec.affine] using this
  · unfold LinearSystem.from_continuous
    rw [hchk]; rfl

end Verif.Props
