import Verif.Math.ExpSecondOrder
import Verif.Props.Discretization
import Verif.Props.Simulation

/- The two discretizations of `/repo/pympc/dynamics/discretization_methods.py` agree to first order (C149). -/
namespace Verif.Props
open Finset Dyn Matrix

/-- discrete Gronwall inequality -/
theorem gronwall_steps {r : ℕ → ℝ} {q w : ℝ} {N : ℕ} (hq : 0 ≤ q) (hw : 0 ≤ w) (h0 : 0 ≤ r 0) (h : ∀ t < N, r (t + 1) ≤ (1 + q) * r t + w) :
    ∀ t ≤ N, r t ≤ Real.exp (q * t) * (r 0 + t * w) := by
  have h1 : ∀ t ≤ N, r t ≤ (1 + q) ^ t * (r 0 + t * w) := by
    intro t
    induction t with
    | zero => intro _; simp
    | succ t ih =>
      intro ht
      have i1 := ih (by omega)
      have i2 := h t (by omega)
      have i3 : (1 : ℝ) ≤ (1 + q) ^ (t + 1) := one_le_pow₀ (by linarith)
      have i4 := mul_le_mul_of_nonneg_left i1 (by linarith : 0 ≤ 1 + q)
      calc r (t + 1) ≤ (1 + q) * r t + w := i2
        _ ≤ (1 + q) * ((1 + q) ^ t * (r 0 + t * w)) + (1 + q) ^ (t + 1) * w := by nlinarith
        _ = _ := by push_cast; ring
  intro t ht
  refine (h1 t ht).trans (mul_le_mul_of_nonneg_right ?_ (by positivity))
  calc (1 + q) ^ t ≤ Real.exp q ^ t := pow_le_pow_left₀ (by linarith) (by linarith [Real.add_one_le_exp q]) t
    _ = _ := by rw [← Real.exp_nat_mul, mul_comm]

theorem sum_zohVec (nx nu : ℕ) (x u : ℕ → ℝ) : ∑ j ∈ range (nx + nu + 1), |zohVec nx nu x u j| = ∑ j ∈ range nx, |x j| + ∑ j ∈ range nu, |u j| + 1 := by
  rw [Finset.sum_range_succ, Finset.sum_range_add]
  congr 1
  · congr 1
    · exact Finset.sum_congr rfl fun j hj => by rw [zohVec, if_pos (mem_range.1 hj)]
    · refine Finset.sum_congr rfl fun j hj => ?_
      have hj := mem_range.1 hj
      rw [zohVec, if_neg (by omega), if_pos (by omega)]
      congr 2
      omega
  · rw [zohVec, if_neg (by omega), if_neg (by omega), abs_one]

/-- one step of `zero_order_hold` is one step of `explicit_euler` up to `O(h²)` -/
theorem zoh_euler_step {nx nu : ℕ} {A B : Mat ℝ} {c : Vec ℝ} (hS : Spec.SystemShape nx nu A B c) (H : ℝ) :
    ∃ K, 0 ≤ K ∧ ∀ h, 0 ≤ h → h ≤ H → ∃ Ad Bd cd, zero_order_hold A B (.d1 c) h = .ok (Ad, Bd, cd) ∧ Spec.SystemShape nx nu Ad Bd cd ∧
      ∀ x u : ℕ → ℝ, ∀ i < nx, |Spec.affine Ad Bd cd x u i - (x i + h * Spec.affine A B c x u i)| ≤
        K * h ^ 2 * (∑ j ∈ range nx, |x j| + ∑ j ∈ range nu, |u j| + 1) := by
  set k := nx + nu + 1 with hk
  set M := (zohMat A B c).asM k k with hM
  obtain ⟨K, hK, hb⟩ := Math.exp_second_order M H
  refine ⟨K, hK, fun h h0 hH => ?_⟩
  obtain ⟨Ad, Bd, cd, h1, h2, h3⟩ := zero_order_hold_run hS h0
  refine ⟨Ad, Bd, cd, h1, h2, fun x u i hi => ?_⟩
  have hik : i < k := by omega
  have e1 := h3 x u ⟨i, hik⟩ hi
  simp only at e1
  have e2 : x i + h * Spec.affine A B c x u i = ∑ j : Fin k, ((1 : Matrix (Fin k) (Fin k) ℝ) ⟨i, hik⟩ j + h * M ⟨i, hik⟩ j) * zohVec nx nu x u j := by
    simp only [add_mul, Finset.sum_add_distrib]
    congr 1
    · rw [Finset.sum_eq_single ⟨i, hik⟩]
      · simp [zohVec, hi]
      · intro j _ hj
        rw [Matrix.one_apply_ne hj.symm, zero_mul]
      · exact fun hn => absurd (mem_univ _) hn
    · rw [← zohMat_top hS x u hi, Finset.sum_range, Finset.mul_sum]
      exact Finset.sum_congr rfl fun j _ => (mul_assoc _ _ _).symm
  rw [e1, e2]
  show |∑ j : Fin k, NormedSpace.exp (h • M) ⟨i, hik⟩ j * zohVec nx nu x u j - _| ≤ _
  rw [← Finset.sum_sub_distrib]
  refine (Finset.abs_sum_le_sum_abs _ _).trans ?_
  rw [← sum_zohVec nx nu x u, Finset.sum_range, Finset.mul_sum]
  refine Finset.sum_le_sum fun j _ => ?_
  rw [← sub_mul, abs_mul]
  exact mul_le_mul_of_nonneg_right (hb h ⟨h0, hH⟩ _ j) (abs_nonneg _)

/-- the size of `A x + B u + c` -/
theorem affine_size {nx nu : ℕ} {A B : Mat ℝ} {c : Vec ℝ} (hS : Spec.SystemShape nx nu A B c) (x u : ℕ → ℝ) :
    ∑ i ∈ range nx, |Spec.affine A B c x u i| ≤ (∑ i ∈ range nx, ∑ j ∈ range nx, |A.e i j|) * ∑ j ∈ range nx, |x j| +
      (∑ i ∈ range nx, ∑ j ∈ range nu, |B.e i j|) * ∑ j ∈ range nu, |u j| + ∑ i ∈ range nx, |c.e i| := by
  obtain ⟨h1, h2, h3, h4, h5⟩ := hS
  have row : ∀ (n : ℕ) (M : Mat ℝ) (v : ℕ → ℝ) (i : ℕ), |∑ j ∈ range n, M.e i j * v j| ≤ (∑ j ∈ range n, |M.e i j|) * ∑ j ∈ range n, |v j| := by
    intro n M v i
    refine (Finset.abs_sum_le_sum_abs _ _).trans ?_
    rw [Finset.sum_mul]
    refine Finset.sum_le_sum fun j hj => ?_
    rw [abs_mul]
    exact mul_le_mul_of_nonneg_left (Finset.single_le_sum (f := fun j => |v j|) (fun _ _ => abs_nonneg _) hj) (abs_nonneg _)
  rw [Finset.sum_mul, Finset.sum_mul, ← Finset.sum_add_distrib, ← Finset.sum_add_distrib]
  refine Finset.sum_le_sum fun i _ => ?_
  unfold Spec.affine
  rw [h2, h4]
  refine (abs_add_le _ _).trans (add_le_add ((abs_add_le _ _).trans (add_le_add (row _ _ _ _) (row _ _ _ _))) le_rfl)

theorem grow_alg {s s' w f K n h T U a b d : ℝ} (h1 : s' ≤ s + h * f + n * (K * h ^ 2 * (s + U + 1))) (h2 : f ≤ a * s + b * w + d) (hw : w ≤ U) (hs : 0 ≤ s)
    (hU : 0 ≤ U) (hK : 0 ≤ K) (hn : 0 ≤ n) (hb : 0 ≤ b) (h0 : 0 ≤ h) (hT : h ≤ T) : s' ≤ (1 + (a + n * K * T) * h) * s + (b * U + d + n * K * T * (U + 1)) * h := by
  have k1 : h * f ≤ h * (a * s + b * U + d) := mul_le_mul_of_nonneg_left (h2.trans (by linarith [mul_le_mul_of_nonneg_left hw hb])) h0
  have k2 : n * K * (s + U + 1) * h * h ≤ n * K * (s + U + 1) * h * T := mul_le_mul_of_nonneg_left hT (by positivity)
  calc s' ≤ s + h * f + n * (K * h ^ 2 * (s + U + 1)) := h1
    _ ≤ s + h * (a * s + b * U + d) + n * K * (s + U + 1) * h * T := by linarith
    _ = _ := by ring

/-- C149: over a fixed time `T`, with bounds for the initial state and the inputs, the simulations of the two discretizations of a system differ by at most a constant times the step `h`. -/
theorem C149 (nx nu : ℕ) (A B : Mat ℝ) (c : Vec ℝ) (hS : Spec.SystemShape nx nu A B c) (T X U : ℝ) :
    ∃ K, 0 ≤ K ∧ ∀ (h : ℝ) (x0 : Vec ℝ) (u : List (Vec ℝ)), 0 ≤ h → x0.n = nx → (∀ v ∈ u, v.n = nu) → u.length * h ≤ T →
      ∑ i ∈ range nx, |x0.e i| ≤ X → (∀ v ∈ u, ∑ s ∈ range nu, |v.e s| ≤ U) →
      ∃ Sz Se xs ys, AffineSystem.from_continuous A B (.d1 c) h .zeroOrderHold = .ok Sz ∧ AffineSystem.from_continuous A B (.d1 c) h .explicitEuler = .ok Se ∧
        Sz.simulate x0 u = .ok xs ∧ Se.simulate x0 u = .ok ys ∧ xs.length = u.length + 1 ∧ ys.length = u.length + 1 ∧
        ∀ (t : ℕ) (x y : Vec ℝ), xs[t]? = some x → ys[t]? = some y → ∀ i < nx, |x.e i - y.e i| ≤ K * h := by
  obtain ⟨K, hK, hstep⟩ := zoh_euler_step hS T
  set a := ∑ i ∈ range nx, ∑ j ∈ range nx, |A.e i j| with ha
  set b := ∑ i ∈ range nx, ∑ j ∈ range nu, |B.e i j| with hb
  set d := ∑ i ∈ range nx, |c.e i| with hd
  have ha0 : 0 ≤ a := Finset.sum_nonneg fun _ _ => Finset.sum_nonneg fun _ _ => abs_nonneg _
  have hb0 : 0 ≤ b := Finset.sum_nonneg fun _ _ => Finset.sum_nonneg fun _ _ => abs_nonneg _
  have hd0 : 0 ≤ d := Finset.sum_nonneg fun _ _ => abs_nonneg _
  set T' := max T 0 with hT'
  set U' := max U 0 with hU'
  set X' := max X 0 with hX'
  have hT0 : 0 ≤ T' := le_max_right _ _
  have hU0 : 0 ≤ U' := le_max_right _ _
  have hX0 : 0 ≤ X' := le_max_right _ _
  have hn0 : (0 : ℝ) ≤ nx := Nat.cast_nonneg nx
  set α := a + nx * K * T' with hα
  set β := b * U' + d + nx * K * T' * (U' + 1) with hβ
  have hα0 : 0 ≤ α := by positivity
  have hβ0 : 0 ≤ β := by positivity
  set Sm := Real.exp (α * T') * (X' + T' * β) with hSm
  have hSm0 : 0 ≤ Sm := by positivity
  set γ := nx * K * (Sm + U' + 1) with hγ
  have hγ0 : 0 ≤ γ := by positivity
  refine ⟨Real.exp (a * T') * (T' * γ), by positivity, fun h x0 u h0 hx0 hu hT hX hU => ?_⟩
  obtain ⟨⟨Az, Bz, cz, z1, z2⟩, ⟨Ae, Be, ce, e1, e2⟩, -⟩ := C83 nx nu A B c h hS h0
  obtain ⟨Ae', Be', ce', e3, e4, e5⟩ := C48 nx nu A B c h hS h0
  rw [e1] at e3
  cases e3
  have hzs : Spec.SystemShape nx nu Az Bz cz := by
    obtain ⟨_, _, _, k1, k2, -⟩ := zero_order_hold_run hS h0
    rw [z1] at k1
    cases k1
    exact k2
  obtain ⟨xs, s1, ⟨s2, s3, -, s4⟩⟩ := ((C50 nx nu Az Bz cz hzs x0 hx0 none).1 u hu).1
  obtain ⟨ys, r1, ⟨r2, r3, -, r4⟩⟩ := ((C50 nx nu Ae Be ce e4 x0 hx0 none).1 u hu).1
  refine ⟨_, _, xs, ys, z2, e2, s1, r1, s2, r2, ?_⟩
  -- the states
  let x : ℕ → ℕ → ℝ := fun t => (xs.getD t (Vec.zeros 0)).e
  let y : ℕ → ℕ → ℝ := fun t => (ys.getD t (Vec.zeros 0)).e
  let v : ℕ → ℕ → ℝ := fun t => (u.getD t (Vec.zeros 0)).e
  have get : ∀ (l : List (Vec ℝ)) t, t < l.length → l[t]? = some (l.getD t (Vec.zeros 0)) := fun l t ht => by
    rw [List.getD_eq_getElem?_getD, List.getElem?_eq_getElem ht]
    rfl
  have hx00 : x 0 = x0.e := by
    show (xs.getD 0 _).e = _
    rw [List.getD_eq_getElem?_getD, s3]
    rfl
  have hy00 : y 0 = x0.e := by
    show (ys.getD 0 _).e = _
    rw [List.getD_eq_getElem?_getD, r3]
    rfl
  have hv : ∀ t < u.length, ∑ s ∈ range nu, |v t s| ≤ U' := fun t ht =>
    (hU _ (List.mem_of_getElem? (get u t ht))).trans (le_max_left _ _)
  have hxn : ∀ t < u.length, ∀ i < nx, x (t + 1) i = Spec.affine Az Bz cz (x t) (v t) i := fun t ht =>
    s4 t _ _ _ (get xs t (by omega)) (get xs (t + 1) (by omega)) (get u t ht)
  have hyn : ∀ t < u.length, ∀ i < nx, y (t + 1) i = y t i + h * Spec.affine A B c (y t) (v t) i := fun t ht i hi => by
    rw [← e5 _ _ i hi]
    exact r4 t _ _ _ (get ys t (by omega)) (get ys (t + 1) (by omega)) (get u t ht) i hi
  have hth : ∀ t ≤ u.length, (t : ℝ) * h ≤ T' := fun t ht => by
    have : (t : ℝ) ≤ u.length := Nat.cast_le.2 ht
    exact (mul_le_mul_of_nonneg_right this h0).trans (hT.trans (le_max_left _ _))
  have hhT : ∀ t < u.length, h ≤ T := fun t ht => by
    have : (1 : ℝ) ≤ u.length := by exact_mod_cast (by omega : 1 ≤ u.length)
    nlinarith
  have hloc : ∀ t < u.length, ∀ i < nx, |x (t + 1) i - (x t i + h * Spec.affine A B c (x t) (v t) i)| ≤
      K * h ^ 2 * (∑ j ∈ range nx, |x t j| + U' + 1) := by
    intro t ht i hi
    obtain ⟨_, _, _, k1, -, k2⟩ := hstep h h0 (hhT t ht)
    rw [z1] at k1
    cases k1
    rw [hxn t ht i hi]
    refine (k2 _ _ i hi).trans (mul_le_mul_of_nonneg_left ?_ (by positivity))
    linarith [hv t ht]
  -- the states of the first simulation are bounded
  have hs : ∀ t ≤ u.length, ∑ j ∈ range nx, |x t j| ≤ Sm := by
    have hg := gronwall_steps (r := fun t => ∑ j ∈ range nx, |x t j|) (q := α * h) (w := β * h) (N := u.length) (by positivity) (by positivity)
      (Finset.sum_nonneg fun _ _ => abs_nonneg _) fun t ht => by
        have hs0 : 0 ≤ ∑ j ∈ range nx, |x t j| := Finset.sum_nonneg fun _ _ => abs_nonneg _
        have hhT' : h ≤ T' := (hhT t ht).trans (le_max_left _ _)
        have k1 : ∀ i ∈ range nx, |x (t + 1) i| ≤ |x t i| + h * |Spec.affine A B c (x t) (v t) i| + K * h ^ 2 * (∑ j ∈ range nx, |x t j| + U' + 1) := by
          intro i hi
          have := hloc t ht i (mem_range.1 hi)
          have e : x (t + 1) i = x t i + h * Spec.affine A B c (x t) (v t) i + (x (t + 1) i - (x t i + h * Spec.affine A B c (x t) (v t) i)) := by ring
          have k2 := abs_add_le (x t i + h * Spec.affine A B c (x t) (v t) i) (x (t + 1) i - (x t i + h * Spec.affine A B c (x t) (v t) i))
          have k3 := abs_add_le (x t i) (h * Spec.affine A B c (x t) (v t) i)
          rw [← e] at k2
          rw [abs_mul, abs_of_nonneg h0] at k3
          linarith
        have k4 := Finset.sum_le_sum k1
        rw [Finset.sum_add_distrib, Finset.sum_add_distrib, ← Finset.mul_sum, Finset.sum_const, card_range, nsmul_eq_mul] at k4
        exact grow_alg k4 (affine_size hS (x t) (v t)) (hv t ht) hs0 hU0 hK hn0 hb0 h0 hhT'
    intro t ht
    refine (hg t ht).trans ?_
    have i1 := hth t ht
    have i2 : α * h * t ≤ α * T' := by
      rw [mul_assoc, mul_comm h]
      exact mul_le_mul_of_nonneg_left i1 hα0
    have i3 : ∑ j ∈ range nx, |x 0 j| ≤ X' := by
      rw [hx00]
      exact hX.trans (le_max_left _ _)
    have i4 : (t : ℝ) * (β * h) ≤ T' * β := by linarith [mul_le_mul_of_nonneg_right i1 hβ0]
    have i5 : 0 ≤ ∑ j ∈ range nx, |x 0 j| := Finset.sum_nonneg fun _ _ => abs_nonneg _
    rw [hSm]
    exact mul_le_mul (Real.exp_le_exp.2 i2) (by linarith) (by positivity) (Real.exp_nonneg _)
  -- the differences
  have he : ∀ t ≤ u.length, ∑ j ∈ range nx, |x t j - y t j| ≤ Real.exp (a * T') * (T' * γ) * h := by
    have hg := gronwall_steps (r := fun t => ∑ j ∈ range nx, |x t j - y t j|) (q := a * h) (w := γ * h ^ 2) (N := u.length) (by positivity) (by positivity)
      (Finset.sum_nonneg fun _ _ => abs_nonneg _) fun t ht => by
        have k1 : ∀ i ∈ range nx, |x (t + 1) i - y (t + 1) i| ≤
            |x t i - y t i| + h * |Spec.affine A (Mat.zeros nx nu) (Vec.zeros nx) (fun j => x t j - y t j) (v t) i| + K * h ^ 2 * (Sm + U' + 1) := by
          intro i hi
          have k2 := hloc t ht i (mem_range.1 hi)
          have k3 : K * h ^ 2 * (∑ j ∈ range nx, |x t j| + U' + 1) ≤ K * h ^ 2 * (Sm + U' + 1) :=
            mul_le_mul_of_nonneg_left (by linarith [hs t ht.le]) (by positivity)
          have k4 : Spec.affine A B c (x t) (v t) i - Spec.affine A B c (y t) (v t) i =
              Spec.affine A (Mat.zeros nx nu) (Vec.zeros nx) (fun j => x t j - y t j) (v t) i := by
            simp [Spec.affine, mul_sub, Finset.sum_sub_distrib, Vec.zeros, Mat.zeros]
          rw [hyn t ht i (mem_range.1 hi)]
          have e : x (t + 1) i - (y t i + h * Spec.affine A B c (y t) (v t) i) =
              (x t i - y t i) + h * Spec.affine A (Mat.zeros nx nu) (Vec.zeros nx) (fun j => x t j - y t j) (v t) i +
                (x (t + 1) i - (x t i + h * Spec.affine A B c (x t) (v t) i)) := by
            rw [← k4]; ring
          rw [e]
          refine (abs_add_le _ _).trans (add_le_add ((abs_add_le _ _).trans (add_le_add le_rfl ?_)) (k2.trans k3))
          rw [abs_mul, abs_of_nonneg h0]
        have k4 := Finset.sum_le_sum k1
        rw [Finset.sum_add_distrib, Finset.sum_add_distrib, ← Finset.mul_sum, Finset.sum_const, card_range, nsmul_eq_mul] at k4
        have k5 := mul_le_mul_of_nonneg_left (affine_size (nx := nx) (nu := nu) (A := A) (B := Mat.zeros nx nu) (c := Vec.zeros nx)
          ⟨hS.1, hS.2.1, rfl, rfl, rfl⟩ (fun j => x t j - y t j) (v t)) h0
        have z1 : ∑ i ∈ range nx, ∑ j ∈ range nu, |(Mat.zeros nx nu : Mat ℝ).e i j| = 0 := by simp [Mat.zeros]
        have z2 : ∑ i ∈ range nx, |(Vec.zeros nx : Vec ℝ).e i| = 0 := by simp [Vec.zeros]
        rw [z1, z2, ← ha] at k5
        show ∑ j ∈ range nx, |x (t + 1) j - y (t + 1) j| ≤ (1 + a * h) * ∑ j ∈ range nx, |x t j - y t j| + γ * h ^ 2
        rw [hγ]
        linarith
    intro t ht
    refine (hg t ht).trans ?_
    have i0 : ∑ j ∈ range nx, |x 0 j - y 0 j| = 0 := by
      rw [hx00, hy00]
      simp
    have i1 := hth t ht
    have i2 : a * h * t ≤ a * T' := by
      rw [mul_assoc, mul_comm h]
      exact mul_le_mul_of_nonneg_left i1 ha0
    have i4 : (t : ℝ) * (γ * h ^ 2) ≤ T' * γ * h := by linarith [mul_le_mul_of_nonneg_right i1 (mul_nonneg hγ0 h0)]
    rw [i0, zero_add]
    exact (mul_le_mul (Real.exp_le_exp.2 i2) i4 (by positivity) (Real.exp_nonneg _)).trans_eq (mul_assoc _ _ _).symm
  intro t p q hp hq i hi
  have ht : t < xs.length := (List.getElem?_eq_some_iff.1 hp).1
  have ex : x t = p.e := by
    show (xs.getD t _).e = _
    rw [List.getD_eq_getElem?_getD, hp]
    rfl
  have ey : y t = q.e := by
    show (ys.getD t _).e = _
    rw [List.getD_eq_getElem?_getD, hq]
    rfl
  have := he t (by omega)
  refine le_trans ?_ this
  rw [ex, ey]
  exact Finset.single_le_sum (f := fun j => |p.e j - q.e j|) (fun _ _ => abs_nonneg _) (mem_range.2 hi)

/-- C149 on `dx/dt = -x + u` over the time 1, from `x = 3` with inputs between -1 and 1: one constant for all numbers `N` of steps of length `1/N` -/
example : ∃ K, 0 ≤ K ∧ ∀ (N : ℕ) (u : List (Vec ℝ)), 0 < N → u.length = N → (∀ v ∈ u, v.n = 1 ∧ |v.e 0| ≤ 1) →
    ∃ Sz Se xs ys, AffineSystem.from_continuous ⟨1, 1, fun _ _ => -1⟩ ⟨1, 1, fun _ _ => 1⟩ (.d1 ⟨1, fun _ => 0⟩) (1 / N) .zeroOrderHold = .ok Sz ∧
      AffineSystem.from_continuous ⟨1, 1, fun _ _ => -1⟩ ⟨1, 1, fun _ _ => 1⟩ (.d1 ⟨1, fun _ => 0⟩) (1 / N) .explicitEuler = .ok Se ∧
      Sz.simulate ⟨1, fun _ => 3⟩ u = .ok xs ∧ Se.simulate ⟨1, fun _ => 3⟩ u = .ok ys ∧ xs.length = N + 1 ∧ ys.length = N + 1 ∧
      ∀ (t : ℕ) (x y : Vec ℝ), xs[t]? = some x → ys[t]? = some y → |x.e 0 - y.e 0| ≤ K / N := by
  obtain ⟨K, hK, h⟩ := C149 1 1 ⟨1, 1, fun _ _ => -1⟩ ⟨1, 1, fun _ _ => 1⟩ ⟨1, fun _ => 0⟩ ⟨rfl, rfl, rfl, rfl, rfl⟩ 1 3 1
  refine ⟨K, hK, fun N u hN hl hu => ?_⟩
  have hN' : (0 : ℝ) < N := by exact_mod_cast hN
  obtain ⟨Sz, Se, xs, ys, h1, h2, h3, h4, h5, h6, h7⟩ := h (1 / N) ⟨1, fun _ => 3⟩ u (by positivity) rfl (fun v hv => (hu v hv).1)
    (by rw [hl]; exact (mul_one_div_cancel hN'.ne').le) (by simp) (fun v hv => by simpa using (hu v hv).2)
  refine ⟨Sz, Se, xs, ys, h1, h2, h3, h4, by rw [h5, hl], by rw [h6, hl], fun t x y hx hy => ?_⟩
  have := h7 t x y hx hy 0 one_pos
  rwa [mul_one_div] at this

end Verif.Props
