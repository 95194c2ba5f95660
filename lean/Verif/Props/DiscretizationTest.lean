import Mathlib.Analysis.Calculus.Deriv.Pow
import Verif.Model.TestSuite
import Verif.Props.EulerConvergence

/- The loop of `/repo/pympc/test/test_dynamics/test_discretization_methods.py` ends (C157). -/
namespace Verif.Props
open Finset Dyn TestSuite

/-- the entries of `A`, `B` and `c` from the map -/
theorem affine_entry {nx nu : ℕ} {A B : Mat ℝ} {c : Vec ℝ} (hS : Spec.SystemShape nx nu A B c) (i : ℕ) :
    (∀ j < nx, A.e i j = Spec.affine A B c (fun k => if k = j then 1 else 0) (fun _ => 0) i - Spec.affine A B c (fun _ => 0) (fun _ => 0) i) ∧
    (∀ j < nu, B.e i j = Spec.affine A B c (fun _ => 0) (fun k => if k = j then 1 else 0) i - Spec.affine A B c (fun _ => 0) (fun _ => 0) i) ∧
    c.e i = Spec.affine A B c (fun _ => 0) (fun _ => 0) i := by
  obtain ⟨h1, h2, h3, h4, h5⟩ := hS
  refine ⟨fun j hj => ?_, fun j hj => ?_, ?_⟩
  · simp [Spec.affine, h2, hj]
  · simp [Spec.affine, h4, hj]
  · simp [Spec.affine]

theorem unit_sum {n j : ℕ} (hj : j < n) : ∑ k ∈ range n, |(if k = j then (1 : ℝ) else 0)| = 1 := by
  rw [Finset.sum_eq_single j]
  · simp
  · intro k _ hk
    rw [if_neg hk, abs_zero]
  · exact fun h => absurd (mem_range.2 hj) h

/-- `|a - b| ≤ 1e-8 + 1e-5 |b|` for all the entries of two systems -/
def CloseSystems (nx nu : ℕ) (A B : Mat ℝ) (c : Vec ℝ) (A' B' : Mat ℝ) (c' : Vec ℝ) : Prop :=
  ∀ i < nx, (∀ j < nx, |A.e i j - A'.e i j| ≤ 1e-8 + 1e-5 * |A'.e i j|) ∧ (∀ j < nu, |B.e i j - B'.e i j| ≤ 1e-8 + 1e-5 * |B'.e i j|) ∧
    |c.e i - c'.e i| ≤ 1e-8 + 1e-5 * |c'.e i|

/-- the two discretizations with the step `h` agree up to the tolerances of `np.allclose` -/
def StepClose (nx nu : ℕ) (A B : Mat ℝ) (c : Vec ℝ) (h : ℝ) : Prop :=
  ∃ Ae Be ce Az Bz cz, explicit_euler A B (.d1 c) h = .ok (Ae, Be, ce) ∧ zero_order_hold A B (.d1 c) h = .ok (Az, Bz, cz) ∧
    CloseSystems nx nu Ae Be ce Az Bz cz

/-- one pass of the loop -/
theorem reduceStep_succ {nx nu : ℕ} {A B : Mat ℝ} {c : Vec ℝ} (hS : Spec.SystemShape nx nu A B c) {h : ℝ} (h0 : 0 < h) (fuel : ℕ) :
    (StepClose nx nu A B c h → reduceStep A B (.d1 c) (fuel + 1) h = .ok (some h)) ∧
    (¬ StepClose nx nu A B c h → reduceStep A B (.d1 c) (fuel + 1) h = reduceStep A B (.d1 c) fuel (h / 10)) := by
  obtain ⟨Ae, Be, ce, e1, e2, -⟩ := C48 nx nu A B c h hS h0.le
  obtain ⟨Az, Bz, cz, z1, z2, -⟩ := zero_order_hold_run hS h0.le
  have key : (allcloseM Ae Az && allcloseM Be Bz && Geom.allclose (some ce) (some cz)) = true ↔ StepClose nx nu A B c h := by
    simp only [allcloseM, Geom.allclose, Bool.and_eq_true, decide_eq_true_eq, e2.1, e2.2.1, e2.2.2.1, e2.2.2.2.1, e2.2.2.2.2]
    constructor
    · rintro ⟨⟨k1, k2⟩, k3⟩
      exact ⟨_, _, _, _, _, _, e1, z1, fun i hi => ⟨k1 i hi, k2 i hi, k3 i hi⟩⟩
    · rintro ⟨_, _, _, _, _, _, f1, f2, f3⟩
      rw [e1] at f1
      rw [z1] at f2
      cases f1
      cases f2
      exact ⟨⟨fun i hi => (f3 i hi).1, fun i hi => (f3 i hi).2.1⟩, fun i hi => (f3 i hi).2.2⟩
  constructor
  · intro hc
    rw [reduceStep, e1, Py.ok_bind]
    simp only [z1, Py.ok_bind, if_pos (key.2 hc)]
    rfl
  · intro hc
    rw [reduceStep, e1, Py.ok_bind]
    simp only [z1, Py.ok_bind, if_neg (mt key.1 hc)]

theorem reduceStep_run {nx nu : ℕ} {A B : Mat ℝ} {c : Vec ℝ} (hS : Spec.SystemShape nx nu A B c) :
    ∀ (k : ℕ) (h : ℝ), 0 < h → StepClose nx nu A B c (h / 10 ^ k) → (∀ j < k, ¬ StepClose nx nu A B c (h / 10 ^ j)) →
      ∀ fuel, k < fuel → reduceStep A B (.d1 c) fuel h = .ok (some (h / 10 ^ k)) := by
  intro k
  induction k with
  | zero =>
    intro h h0 hc _ fuel hf
    obtain ⟨f, rfl⟩ : ∃ f, fuel = f + 1 := ⟨fuel - 1, by omega⟩
    rw [pow_zero, div_one] at hc ⊢
    exact (reduceStep_succ hS h0 f).1 hc
  | succ k ih =>
    intro h h0 hc hn fuel hf
    obtain ⟨f, rfl⟩ : ∃ f, fuel = f + 1 := ⟨fuel - 1, by omega⟩
    have e : ∀ j, h / 10 / 10 ^ j = h / 10 ^ (j + 1) := fun j => by rw [pow_succ', div_div]
    rw [(reduceStep_succ hS h0 f).2 (by simpa using hn 0 (by omega)), ← e]
    exact ih (h / 10) (by positivity) (by rw [e]; exact hc) (fun j hj => by rw [e]; exact hn (j + 1) (by omega)) f (by omega)

/-- below some step the two discretizations are always close -/
theorem stepClose_small {nx nu : ℕ} {A B : Mat ℝ} {c : Vec ℝ} (hS : Spec.SystemShape nx nu A B c) :
    ∃ η, 0 < η ∧ ∀ h, 0 < h → h ≤ η → StepClose nx nu A B c h := by
  obtain ⟨K, hK, hz⟩ := zoh_euler_step hS 1
  refine ⟨min 1 (1e-8 / (3 * K + 1)), by positivity, fun h h0 hη => ?_⟩
  obtain ⟨Ae, Be, ce, e1, e2, e3⟩ := C48 nx nu A B c h hS h0.le
  obtain ⟨Az, Bz, cz, z1, z2, z4⟩ := hz h h0.le (hη.trans (min_le_left _ _))
  have z3 : ∀ x u : ℕ → ℝ, ∀ i < nx, |Spec.affine Az Bz cz x u i - Spec.affine Ae Be ce x u i| ≤ K * h ^ 2 * (∑ j ∈ range nx, |x j| + ∑ j ∈ range nu, |u j| + 1) :=
    fun x u i hi => by rw [e3 x u i hi]; exact z4 x u i hi
  have hb : 3 * K * h ^ 2 ≤ 1e-8 := by
    have t1 : h ^ 2 ≤ h := by
      have := hη.trans (min_le_left _ _)
      nlinarith
    have t2 : h * (3 * K + 1) ≤ 1e-8 := by
      have := hη.trans (min_le_right _ _)
      rwa [le_div_iff₀ (by positivity)] at this
    nlinarith [mul_le_mul_of_nonneg_left t1 hK]
  have z0 := z3 (fun _ => 0) (fun _ => 0)
  have hKh : 0 ≤ K * h ^ 2 := by positivity
  simp only [abs_zero, Finset.sum_const_zero, zero_add, mul_one] at z0
  refine ⟨_, _, _, _, _, _, e1, z1, fun i hi => ?_⟩
  have g0 := z0 i hi
  obtain ⟨a1, b1, c1⟩ := affine_entry e2 i
  obtain ⟨a2, b2, c2⟩ := affine_entry z2 i
  refine ⟨fun j hj => ?_, fun j hj => ?_, ?_⟩
  · have g1 := z3 (fun k => if k = j then 1 else 0) (fun _ => 0) i hi
    simp only [unit_sum hj, abs_zero, Finset.sum_const_zero, add_zero] at g1
    rw [a1 j hj, a2 j hj]
    rw [abs_le] at g0 g1
    have : |Spec.affine Ae Be ce (fun k => if k = j then 1 else 0) (fun _ => 0) i - Spec.affine Ae Be ce (fun _ => 0) (fun _ => 0) i -
      (Spec.affine Az Bz cz (fun k => if k = j then 1 else 0) (fun _ => 0) i - Spec.affine Az Bz cz (fun _ => 0) (fun _ => 0) i)| ≤ 1e-8 := by
      rw [abs_le]
      constructor <;> linarith
    exact this.trans (le_add_of_nonneg_right (by positivity))
  · have g1 := z3 (fun _ => 0) (fun k => if k = j then 1 else 0) i hi
    simp only [unit_sum hj, abs_zero, Finset.sum_const_zero, zero_add] at g1
    rw [b1 j hj, b2 j hj]
    rw [abs_le] at g0 g1
    have : |Spec.affine Ae Be ce (fun _ => 0) (fun k => if k = j then 1 else 0) i - Spec.affine Ae Be ce (fun _ => 0) (fun _ => 0) i -
      (Spec.affine Az Bz cz (fun _ => 0) (fun k => if k = j then 1 else 0) i - Spec.affine Az Bz cz (fun _ => 0) (fun _ => 0) i)| ≤ 1e-8 := by
      rw [abs_le]
      constructor <;> linarith
    exact this.trans (le_add_of_nonneg_right (by positivity))
  · rw [c1, c2, abs_sub_comm]
    exact (g0.trans (by linarith)).trans (le_add_of_nonneg_right (by positivity))

/-- C157: the loop of the test of the discretizations ends for every system, whatever its sizes and entries, and raises nothing: it divides the step
`.01` by ten exactly until the entries of `explicit_euler` and `zero_order_hold` agree up to the tolerances of `np.allclose`. -/
theorem C157 (nx nu : ℕ) (A B : Mat ℝ) (c : Vec ℝ) (hS : Spec.SystemShape nx nu A B c) :
    ∃ k : ℕ, (∀ fuel, k < fuel → reduceStep A B (.d1 c) fuel 0.01 = .ok (some (0.01 / 10 ^ k))) ∧ (∀ fuel, fuel ≤ k → reduceStep A B (.d1 c) fuel 0.01 = .ok none) ∧
      StepClose nx nu A B c (0.01 / 10 ^ k) ∧ ∀ j < k, ¬ StepClose nx nu A B c (0.01 / 10 ^ j) := by
  classical
  obtain ⟨η, h0, hη⟩ := stepClose_small hS
  have hex : ∃ k : ℕ, StepClose nx nu A B c (0.01 / 10 ^ k) := by
    obtain ⟨k, hk⟩ := exists_pow_lt_of_lt_one h0 (by norm_num : (1 / 10 : ℝ) < 1)
    refine ⟨k, hη _ (by positivity) ?_⟩
    rw [one_div_pow, one_div] at hk
    rw [div_eq_mul_inv]
    have : (0 : ℝ) < ((10 : ℝ) ^ k)⁻¹ := by positivity
    nlinarith
  have hn : ∀ j < Nat.find hex, ¬ StepClose nx nu A B c (0.01 / 10 ^ j) := fun j hj => Nat.find_min hex hj
  refine ⟨Nat.find hex, reduceStep_run hS _ _ (by norm_num) (Nat.find_spec hex) hn, ?_, Nat.find_spec hex, hn⟩
  have none_run : ∀ (fuel : ℕ) (h : ℝ), 0 < h → (∀ j < fuel, ¬ StepClose nx nu A B c (h / 10 ^ j)) → reduceStep A B (.d1 c) fuel h = .ok none := by
    intro fuel
    induction fuel with
    | zero => exact fun h _ _ => rfl
    | succ f ih =>
      intro h h0 hf
      rw [(reduceStep_succ hS h0 f).2 (by simpa using hf 0 (by omega))]
      refine ih _ (by positivity) fun j hj => ?_
      rw [show h / 10 / 10 ^ j = h / 10 ^ (j + 1) by rw [pow_succ', div_div]]
      exact hf (j + 1) (by omega)
  exact fun fuel hf => none_run fuel _ (by norm_num) fun j hj => hn j (by omega)

/-- the matrices of the double integrator (test_discretization_methods.py:14-17) -/
def dblA : Mat ℝ := ⟨2, 2, fun i j => if i = 0 ∧ j = 1 then 1 else 0⟩
def dblB : Mat ℝ := ⟨2, 1, fun i _ => if i = 1 then 1 else 0⟩

theorem dbl_shape : Spec.SystemShape 2 1 dblA dblB (Vec.zeros 2) := ⟨rfl, rfl, rfl, rfl, rfl⟩

theorem dbl_affine (x u : ℕ → ℝ) : Spec.affine dblA dblB (Vec.zeros 2) x u 0 = x 1 ∧ Spec.affine dblA dblB (Vec.zeros 2) x u 1 = u 0 := by
  constructor <;> simp [Spec.affine, dblA, dblB, Vec.zeros, Finset.sum_range_succ]

/-- the two discretizations of the double integrator, in closed form (test_discretization_methods.py:20-33) -/
theorem C157_double (h : ℝ) (h0 : 0 ≤ h) :
    (∃ Ad Bd cd, explicit_euler dblA dblB (.d1 (Vec.zeros 2)) h = .ok (Ad, Bd, cd) ∧ Spec.SystemShape 2 1 Ad Bd cd ∧
      Ad.e 0 0 = 1 ∧ Ad.e 0 1 = h ∧ Ad.e 1 0 = 0 ∧ Ad.e 1 1 = 1 ∧ Bd.e 0 0 = 0 ∧ Bd.e 1 0 = h ∧ cd.e 0 = 0 ∧ cd.e 1 = 0) ∧
    ∃ Ad Bd cd, zero_order_hold dblA dblB (.d1 (Vec.zeros 2)) h = .ok (Ad, Bd, cd) ∧ Spec.SystemShape 2 1 Ad Bd cd ∧
      Ad.e 0 0 = 1 ∧ Ad.e 0 1 = h ∧ Ad.e 1 0 = 0 ∧ Ad.e 1 1 = 1 ∧ Bd.e 0 0 = h ^ 2 / 2 ∧ Bd.e 1 0 = h ∧ cd.e 0 = 0 ∧ cd.e 1 = 0 := by
  constructor
  · obtain ⟨Ad, Bd, cd, e1, e2, e3⟩ := C48 2 1 dblA dblB (Vec.zeros 2) h dbl_shape h0
    obtain ⟨a0, b0, c0⟩ := affine_entry e2 0
    obtain ⟨a1, b1, c1⟩ := affine_entry e2 1
    refine ⟨Ad, Bd, cd, e1, e2, ?_, ?_, ?_, ?_, ?_, ?_, ?_, ?_⟩
    · rw [a0 0 (by omega), e3 _ _ 0 (by omega), e3 _ _ 0 (by omega), (dbl_affine _ _).1, (dbl_affine _ _).1]; simp
    · rw [a0 1 (by omega), e3 _ _ 0 (by omega), e3 _ _ 0 (by omega), (dbl_affine _ _).1, (dbl_affine _ _).1]; simp
    · rw [a1 0 (by omega), e3 _ _ 1 (by omega), e3 _ _ 1 (by omega), (dbl_affine _ _).2, (dbl_affine _ _).2]; simp
    · rw [a1 1 (by omega), e3 _ _ 1 (by omega), e3 _ _ 1 (by omega), (dbl_affine _ _).2, (dbl_affine _ _).2]; simp
    · rw [b0 0 (by omega), e3 _ _ 0 (by omega), e3 _ _ 0 (by omega), (dbl_affine _ _).1, (dbl_affine _ _).1]; simp
    · rw [b1 0 (by omega), e3 _ _ 1 (by omega), e3 _ _ 1 (by omega), (dbl_affine _ _).2, (dbl_affine _ _).2]; simp
    · rw [c0, e3 _ _ 0 (by omega), (dbl_affine _ _).1]; simp
    · rw [c1, e3 _ _ 1 (by omega), (dbl_affine _ _).2]; simp
  · obtain ⟨Ad, Bd, cd, e1, e2, e3⟩ := (C49 2 1 dblA dblB (Vec.zeros 2) dbl_shape).1 h h0
    have sol : ∀ x0 u : ℕ → ℝ, Spec.affine Ad Bd cd x0 u 0 = x0 0 + x0 1 * h + u 0 * h ^ 2 / 2 ∧ Spec.affine Ad Bd cd x0 u 1 = x0 1 + u 0 * h := by
      intro x0 u
      have k := (e3 x0 u).2 (fun t i => if i = 0 then x0 0 + x0 1 * t + u 0 * t ^ 2 / 2 else x0 1 + u 0 * t) ?_ ?_
      · exact ⟨(k 0 (by omega)).symm, (k 1 (by omega)).symm⟩
      · intro t _ i hi
        interval_cases i
        · rw [(dbl_affine _ _).1]
          simp only [if_pos trivial, one_ne_zero, if_false]
          refine HasDerivAt.hasDerivWithinAt ?_
          have := (((hasDerivAt_id t).const_mul (x0 1)).const_add (x0 0)).add (((hasDerivAt_pow 2 t).const_mul (u 0)).div_const 2)
          exact this.congr_deriv (by push_cast; ring)
        · rw [(dbl_affine _ _).2]
          simp only [one_ne_zero, if_false]
          refine HasDerivAt.hasDerivWithinAt ?_
          have := (((hasDerivAt_id t).const_mul (u 0)).const_add (x0 1))
          exact this.congr_deriv (by norm_num)
      · intro i hi
        interval_cases i <;> simp
    obtain ⟨a0, b0, c0⟩ := affine_entry e2 0
    obtain ⟨a1, b1, c1⟩ := affine_entry e2 1
    refine ⟨Ad, Bd, cd, e1, e2, ?_, ?_, ?_, ?_, ?_, ?_, ?_, ?_⟩
    · rw [a0 0 (by omega), (sol _ _).1, (sol _ _).1]; simp
    · rw [a0 1 (by omega), (sol _ _).1, (sol _ _).1]; simp
    · rw [a1 0 (by omega), (sol _ _).2, (sol _ _).2]; simp
    · rw [a1 1 (by omega), (sol _ _).2, (sol _ _).2]; simp
    · rw [b0 0 (by omega), (sol _ _).1, (sol _ _).1]; simp
    · rw [b1 0 (by omega), (sol _ _).2, (sol _ _).2]; simp
    · rw [c0, (sol _ _).1]; simp
    · rw [c1, (sol _ _).2]; simp

/-- on the double integrator two divisions are needed: the step ends at `.0001` -/
example : reduceStep dblA dblB (.d1 (Vec.zeros 2)) 3 0.01 = .ok (some (0.01 / 10 ^ 2)) := by
  have key : ∀ h : ℝ, 0 ≤ h → (StepClose 2 1 dblA dblB (Vec.zeros 2) h ↔ h ^ 2 / 2 ≤ 1e-8 + 1e-5 * (h ^ 2 / 2)) := by
    intro h h0
    obtain ⟨⟨Ae, Be, ce, e1, -, e2⟩, Az, Bz, cz, z1, -, z2⟩ := C157_double h h0
    obtain ⟨a1, a2, a3, a4, a5, a6, a7, a8⟩ := e2
    obtain ⟨b1, b2, b3, b4, b5, b6, b7, b8⟩ := z2
    constructor
    · rintro ⟨_, _, _, _, _, _, f1, f2, f3⟩
      rw [e1] at f1
      rw [z1] at f2
      cases f1
      cases f2
      have := (f3 0 (by omega)).2.1 0 (by omega)
      rw [a5, b5, zero_sub, abs_neg, abs_of_nonneg (by positivity)] at this
      exact this
    · intro hh
      refine ⟨_, _, _, _, _, _, e1, z1, fun i hi => ⟨fun j hj => ?_, fun j hj => ?_, ?_⟩⟩
      · interval_cases i <;> interval_cases j <;> simp only [a1, a2, a3, a4, b1, b2, b3, b4, sub_self, abs_zero] <;> positivity
      · interval_cases i <;> interval_cases j
        · rw [a5, b5, zero_sub, abs_neg, abs_of_nonneg (by positivity)]
          exact hh
        · rw [a6, b6, sub_self, abs_zero]
          positivity
      · interval_cases i <;> simp only [a7, a8, b7, b8, sub_self, abs_zero] <;> positivity
  refine reduceStep_run dbl_shape 2 0.01 (by norm_num) ((key _ (by norm_num)).2 (by norm_num)) (fun j hj => ?_) 3 (by omega)
  rw [key _ (by positivity)]
  interval_cases j <;> norm_num

end Verif.Props
