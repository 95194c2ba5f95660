import Verif.Model.RoundingLoop
import Verif.Props.RoundedSimulation
import Verif.Props.LinearNotebooks
import Verif.Props.McaisTest
import Mathlib.Analysis.SpecialFunctions.Pow.Real

/- `simulate_closed_loop` in floating point arithmetic. -/
namespace Verif.Props
open Finset Spec Dyn Filter
open scoped Topology

/-- the factor of the state in the error of a pass of `simulate_closed_loop`; `h` bounds the row sums of `|A| + |B| |K|` -/
noncomputable def loopRel (u η : ℝ) (nx nu : ℕ) (h : ℝ) : ℝ := ((1 + u) ^ (nx + nu + 1) - 1) * h + nx * ((2 * nu + 1) * (1 + u) ^ (nx + nu + 1) * η)

/-- the part of the error of a pass that does not depend on the state -/
noncomputable def loopAbs (u η : ℝ) (nx : ℕ) : ℝ := 2 * nx * (1 + u) ^ nx * η

/-- the entries of `|A| + |B| |K|` -/
noncomputable def loopEntry (S : LinearSystem) (K : Mat ℝ) (i j : ℕ) : ℝ := |S.A.e i j| + ∑ k ∈ range S.nu, |S.B.e i k * K.e k j|

theorem loopEntry_nonneg (S : LinearSystem) (K : Mat ℝ) (i j : ℕ) : 0 ≤ loopEntry S K i j :=
  add_nonneg (abs_nonneg _) (Finset.sum_nonneg fun _ _ => abs_nonneg _)

/-- the rounding error of the matrix of the closed loop -/
theorem loopMat_err {fl : ℝ → ℝ} {u η : ℝ} (hr : Rounds fl u η) {S : LinearSystem} (hS : SystemShape S.nx S.nu S.A S.B (Vec.zeros S.nx)) {K G : Mat ℝ} (h : Fl.LoopMat fl S K G)
    {i j : ℕ} (hi : i < S.nx) (hj : j < S.nx) :
    |G.e i j - (S.A.e i j + ∑ k ∈ range S.nu, S.B.e i k * K.e k j)|
      ≤ ((1 + u) ^ (S.nu + 1) - 1) * loopEntry S K i j + (2 * S.nu + 1) * (1 + u) ^ (S.nu + 1) * η := by
  obtain ⟨a1, a2, -, b2, -⟩ := hS
  obtain ⟨-, -, W, hW⟩ := h
  obtain ⟨h1, h2⟩ := hW i (by omega) j (by omega)
  have hu := hr.u0
  have hη := hr.η0
  rw [b2] at h1
  have h3 := dot_err hr h1
  set T := ∑ k ∈ range S.nu, |S.B.e i k * K.e k j| with hT
  set s := ∑ k ∈ range S.nu, S.B.e i k * K.e k j
  have t1 : |s| ≤ T := Finset.abs_sum_le_sum_abs _ _
  have h4 : |S.A.e i j + W i j - (S.A.e i j + s)| ≤ ((1 + u) ^ S.nu - 1) * T + 2 * S.nu * (1 + u) ^ S.nu * η := by
    rw [show S.A.e i j + W i j - (S.A.e i j + s) = W i j - s by ring]
    exact h3
  have h5 := Rounds.step hr ((abs_add_le (S.A.e i j) s).trans (add_le_add le_rfl t1)) h4
  rw [h2]
  refine h5.trans ?_
  have p1 : 1 ≤ (1 + u) ^ S.nu := one_le_pow₀ (by linarith)
  have p2 : 1 ≤ (1 + u) ^ (S.nu + 1) := one_le_pow₀ (by linarith)
  have e1 : (1 + u) ^ (S.nu + 1) = (1 + u) ^ S.nu * (1 + u) := pow_succ _ _
  have q1 : 0 ≤ ((1 + u) ^ S.nu - 1) * (1 + u) * |S.A.e i j| := by
    have := abs_nonneg (S.A.e i j)
    have : 0 ≤ (1 + u) ^ S.nu - 1 := by linarith
    positivity
  have q2 : η ≤ (1 + u) ^ (S.nu + 1) * η := le_mul_of_one_le_left hη p2
  unfold loopEntry
  rw [← hT]
  rw [e1] at q2 ⊢
  linarith

/-- the rounding error of one pass of `simulate_closed_loop` -/
theorem loopStep_err {fl : ℝ → ℝ} {u η : ℝ} (hr : Rounds fl u η) {S : LinearSystem} (hS : SystemShape S.nx S.nu S.A S.B (Vec.zeros S.nx)) {K : Mat ℝ} {x x' : ℕ → ℝ}
    (h : Fl.LoopStep fl S K x x') {H X : ℝ} (hH : ∀ i < S.nx, ∑ j ∈ range S.nx, loopEntry S K i j ≤ H) (hX : ∀ j < S.nx, |x j| ≤ X) {i : ℕ} (hi : i < S.nx) :
    |x' i - ∑ j ∈ range S.nx, (S.A.e i j + ∑ k ∈ range S.nu, S.B.e i k * K.e k j) * x j| ≤ loopRel u η S.nx S.nu H * X + loopAbs u η S.nx := by
  obtain ⟨G, hG, hm⟩ := h
  have hu := hr.u0
  have hη := hr.η0
  have hX0 : 0 ≤ X := (abs_nonneg _).trans (hX i hi)
  have h1 := dot_err hr (hm i (by rw [hG.1, hS.1]; exact hi))
  rw [hG.2.1, hS.2.1] at h1
  set E := fun j => S.A.e i j + ∑ k ∈ range S.nu, S.B.e i k * K.e k j with hE
  set T := fun j => loopEntry S K i j with hT
  set g := (2 * S.nu + 1) * (1 + u) ^ (S.nu + 1) * η with hg
  have hg0 : 0 ≤ g := by positivity
  have hErr : ∀ j ∈ range S.nx, |G.e i j - E j| ≤ ((1 + u) ^ (S.nu + 1) - 1) * T j + g := fun j hj => loopMat_err hr hS hG hi (Finset.mem_range.1 hj)
  have hET : ∀ j, |E j| ≤ T j := fun j => (abs_add_le _ _).trans (add_le_add le_rfl (Finset.abs_sum_le_sum_abs _ _))
  have hGT : ∀ j ∈ range S.nx, |G.e i j| ≤ (1 + u) ^ (S.nu + 1) * T j + g := by
    intro j hj
    have h2 := hErr j hj
    have h3 := hET j
    have h4 := abs_add_le (G.e i j - E j) (E j)
    rw [sub_add_cancel] at h4
    linarith
  have h5 : |∑ j ∈ range S.nx, G.e i j * x j - ∑ j ∈ range S.nx, E j * x j| ≤ ∑ j ∈ range S.nx, (((1 + u) ^ (S.nu + 1) - 1) * T j + g) * X := by
    rw [← Finset.sum_sub_distrib]
    refine (Finset.abs_sum_le_sum_abs _ _).trans (Finset.sum_le_sum fun j hj => ?_)
    rw [← sub_mul, abs_mul]
    exact mul_le_mul (hErr j hj) (hX j (Finset.mem_range.1 hj)) (abs_nonneg _) ((abs_nonneg _).trans (hErr j hj))
  have h6 : ∑ j ∈ range S.nx, |G.e i j * x j| ≤ ∑ j ∈ range S.nx, ((1 + u) ^ (S.nu + 1) * T j + g) * X :=
    Finset.sum_le_sum fun j hj => by
      rw [abs_mul]
      exact mul_le_mul (hGT j hj) (hX j (Finset.mem_range.1 hj)) (abs_nonneg _) ((abs_nonneg _).trans (hGT j hj))
  have p1 : 1 ≤ (1 + u) ^ S.nx := one_le_pow₀ (by linarith)
  have h7 := mul_le_mul_of_nonneg_left h6 (sub_nonneg.2 p1)
  have h8 := abs_add_le (x' i - ∑ j ∈ range S.nx, G.e i j * x j) (∑ j ∈ range S.nx, G.e i j * x j - ∑ j ∈ range S.nx, E j * x j)
  rw [sub_add_sub_cancel] at h8
  have e1 : ∀ c : ℝ, ∑ j ∈ range S.nx, (c * T j + g) * X = (c * ∑ j ∈ range S.nx, T j + S.nx * g) * X := by
    intro c
    rw [← Finset.sum_mul, Finset.sum_add_distrib, ← Finset.mul_sum, Finset.sum_const, Finset.card_range, nsmul_eq_mul]
  rw [e1] at h5 h7
  have hs := hH i hi
  have hs0 : 0 ≤ ∑ j ∈ range S.nx, T j := Finset.sum_nonneg fun j _ => loopEntry_nonneg S K i j
  have hp : 0 ≤ (1 + u) ^ (S.nx + S.nu + 1) - 1 := by
    have : 1 ≤ (1 + u) ^ (S.nx + S.nu + 1) := one_le_pow₀ (by linarith)
    linarith
  have h9 : ((1 + u) ^ (S.nx + S.nu + 1) - 1) * (∑ j ∈ range S.nx, T j) * X ≤ ((1 + u) ^ (S.nx + S.nu + 1) - 1) * H * X :=
    mul_le_mul_of_nonneg_right (mul_le_mul_of_nonneg_left hs hp) hX0
  have e2 : (1 + u) ^ (S.nx + S.nu + 1) = (1 + u) ^ S.nx * (1 + u) ^ (S.nu + 1) := by rw [← pow_add]; congr 1
  unfold loopRel loopAbs
  refine (h8.trans (add_le_add h1 h5)).trans ?_
  refine le_trans ?_ (add_le_add (add_le_add h9 (le_refl (S.nx * ((2 * S.nu + 1) * (1 + u) ^ (S.nx + S.nu + 1) * η) * X)) |>.trans (le_of_eq ?_)) le_rfl)
  · rw [e2]
    have e3 : (S.nx : ℝ) * ((2 * S.nu + 1) * ((1 + u) ^ S.nx * (1 + u) ^ (S.nu + 1)) * η) * X = (1 + u) ^ S.nx * (S.nx * g) * X := by rw [hg]; ring
    rw [e3]
    linarith
  · ring

/-- the closed loop without rounding: the states shrink like `M r^t` -/
def LoopDecays (S : LinearSystem) (K : Mat ℝ) (M r : ℝ) : Prop :=
  ∀ (x0 : ℕ → ℝ) (x : ℕ → ℕ → ℝ), ClosedLoopTraj S K x0 x → ∀ X, (∀ i < S.nx, |x0 i| ≤ X) → ∀ t, ∀ i < S.nx, |x t i| ≤ M * r ^ t * X

theorem orbit_plus (A : Mat ℝ) (x d : ℕ → ℝ) : ∀ t, orbit A (fun i => x i + d i) t = fun i => orbit A x t i + orbit A d t i
  | 0 => rfl
  | t + 1 => by
    funext i
    rw [orbit, orbit_plus A x d t, orbit, orbit, ← Finset.sum_add_distrib]
    exact Finset.sum_congr rfl fun j _ => mul_add _ _ _

/-- the trajectory of the closed loop from any state -/
theorem loop_orbit {S : LinearSystem} (hS : SystemShape S.nx S.nu S.A S.B (Vec.zeros S.nx)) {K : Mat ℝ} (k2 : K.nc = S.nx) (x0 : ℕ → ℝ) :
    ClosedLoopTraj S K x0 (orbit (S.A.add (S.B.mul K)) x0) := by
  obtain ⟨a1, a2, -, b2, -⟩ := hS
  refine ⟨fun _ _ => rfl, fun t i _ => ?_⟩
  set x := orbit (S.A.add (S.B.mul K)) x0 t with hx
  show ∑ j ∈ range S.A.nc, (S.A.e i j + ∑ k ∈ range S.B.nc, S.B.e i k * K.e k j) * x j = _
  simp only [add_mul, Finset.sum_add_distrib, a2, b2, Finset.sum_mul, Finset.mul_sum]
  congr 1
  rw [Finset.sum_comm]
  exact Finset.sum_congr rfl fun k _ => Finset.sum_congr rfl fun j _ => mul_assoc _ _ _

/-- a sequence that follows the closed loop up to errors of at most `e |y| + a` -/
theorem loop_perturbed {n : ℕ} {A : Mat ℝ} (h2 : A.nc = n) {M r e a X0 : ℝ} (hr0 : 0 ≤ r) (hM : 0 ≤ M) (he : 0 ≤ e)
    (hdec : ∀ (x : ℕ → ℝ) X, (∀ i < n, |x i| ≤ X) → ∀ t, ∀ i < n, |orbit A x t i| ≤ M * r ^ t * X) {N : ℕ} {y : ℕ → ℕ → ℝ} (hX0 : ∀ i < n, |y 0 i| ≤ X0)
    (hy : ∀ t < N, ∀ X, (∀ j < n, |y t j| ≤ X) → ∀ i < n, |y (t + 1) i - orbit A (y t) 1 i| ≤ e * X + a) :
    ∀ t ≤ N, ∀ k, ∀ i < n, |orbit A (y t) k i| ≤ r ^ k * (M * (r + M * e) ^ t * X0 + M * a * ∑ s ∈ range t, (r + M * e) ^ s) := by
  intro t
  induction t with
  | zero =>
    intro _ k i hi
    have := hdec (y 0) X0 hX0 k i hi
    simp only [pow_zero, Finset.range_zero, Finset.sum_empty, mul_zero, add_zero, mul_one]
    linarith
  | succ t ih =>
    intro ht k i hi
    have ih := ih (by omega)
    set z := M * (r + M * e) ^ t * X0 + M * a * ∑ s ∈ range t, (r + M * e) ^ s with hz
    have h0 : ∀ j < n, |y t j| ≤ z := fun j hj => by simpa [orbit] using ih 0 j hj
    have hd := hdec (fun j => y (t + 1) j - orbit A (y t) 1 j) (e * z + a) (hy t (by omega) z h0) k i hi
    have h1 := ih (k + 1) i hi
    have e1 : orbit A (y (t + 1)) k i = orbit A (y t) (k + 1) i + orbit A (fun j => y (t + 1) j - orbit A (y t) 1 j) k i := by
      have := congrFun (orbit_plus A (orbit A (y t) 1) (fun j => y (t + 1) j - orbit A (y t) 1 j) k) i
      simp only [add_sub_cancel] at this
      rw [this, orbit_shift]
    rw [e1]
    refine (abs_add_le _ _).trans ((add_le_add h1 hd).trans (le_of_eq ?_))
    rw [Finset.sum_range_succ', pow_zero, Finset.sum_congr rfl fun s _ => pow_succ (r + M * e) s, ← Finset.sum_mul, pow_succ, pow_succ, hz]
    ring

/-- the distance of that sequence from the closed loop -/
theorem loop_distance {n : ℕ} {A : Mat ℝ} {M r c : ℝ}
    (hdec : ∀ (x : ℕ → ℝ) X, (∀ i < n, |x i| ≤ X) → ∀ t, ∀ i < n, |orbit A x t i| ≤ M * r ^ t * X) {y : ℕ → ℕ → ℝ} :
    ∀ N, (∀ t < N, ∀ i < n, |y (t + 1) i - orbit A (y t) 1 i| ≤ c) →
      ∀ k, ∀ i < n, |orbit A (y N) k i - orbit A (y 0) (N + k) i| ≤ r ^ k * (M * c * ∑ s ∈ range N, r ^ s) := by
  intro N
  induction N with
  | zero => intro _ k i _; simp
  | succ N ih =>
    intro hy k i hi
    have ih := ih (fun t ht => hy t (by omega)) (k + 1) i hi
    have hd := hdec (fun j => y (N + 1) j - orbit A (y N) 1 j) c (hy N (by omega)) k i hi
    have e1 : orbit A (y (N + 1)) k i = orbit A (y N) (k + 1) i + orbit A (fun j => y (N + 1) j - orbit A (y N) 1 j) k i := by
      have := congrFun (orbit_plus A (orbit A (y N) 1) (fun j => y (N + 1) j - orbit A (y N) 1 j) k) i
      simp only [add_sub_cancel] at this
      rw [this, orbit_shift]
    rw [e1, show N + 1 + k = N + (k + 1) by omega]
    have h3 := abs_add_le (orbit A (y N) (k + 1) i - orbit A (y 0) (N + (k + 1)) i) (orbit A (fun j => y (N + 1) j - orbit A (y N) 1 j) k i)
    rw [show orbit A (y N) (k + 1) i - orbit A (y 0) (N + (k + 1)) i + orbit A (fun j => y (N + 1) j - orbit A (y N) 1 j) k i
      = orbit A (y N) (k + 1) i + orbit A (fun j => y (N + 1) j - orbit A (y N) 1 j) k i - orbit A (y 0) (N + (k + 1)) i by ring] at h3
    refine h3.trans ((add_le_add ih hd).trans (le_of_eq ?_))
    rw [Finset.sum_range_succ', pow_zero, Finset.sum_congr rfl fun s _ => pow_succ r s, ← Finset.sum_mul, pow_succ]
    ring

/-- C190: let the states of the closed loop `x' = (A + B K) x` without rounding shrink like `M r^t` and let `H` bound the row sums of `|A| + |B| |K|`.  Each state that
`simulate_closed_loop` computes in floating point arithmetic is at most `M q^t X0 + M a (1 + q + ... + q^(t-1))`, with `q = r + M e`, `e` about `(nx + nu + 1) u H` and `a` the error of numbers
too small for the format; and its distance from the state without rounding is at most `M (e Y + a) (1 + r + ... + r^(t-1))`, if the computed states before it are at most `Y`. -/
theorem C190 (fl : ℝ → ℝ) (u η : ℝ) (hr : Rounds fl u η) (S : LinearSystem) (hS : SystemShape S.nx S.nu S.A S.B (Vec.zeros S.nx)) (K : Mat ℝ) (k1 : K.nr = S.nu) (k2 : K.nc = S.nx)
    (x0 : Vec ℝ) (hx0 : x0.n = S.nx) (N : ℕ) (y : ℕ → ℕ → ℝ) (hy0 : ∀ i < S.nx, y 0 i = x0.e i) (hy : ∀ t < N, Fl.LoopStep fl S K (y t) (y (t + 1)))
    (H M r X0 : ℝ) (hH : ∀ i < S.nx, ∑ j ∈ range S.nx, loopEntry S K i j ≤ H) (hr0 : 0 ≤ r) (hM : 0 ≤ M) (hdec : LoopDecays S K M r) (hX0 : ∀ i < S.nx, |x0.e i| ≤ X0) :
    ∃ xs, S.simulate_closed_loop x0 N K = .ok xs ∧ xs.length = N + 1 ∧ ∀ t x, xs[t]? = some x → ∀ i < S.nx,
      |y t i| ≤ M * (r + M * loopRel u η S.nx S.nu H) ^ t * X0 + M * loopAbs u η S.nx * ∑ s ∈ range t, (r + M * loopRel u η S.nx S.nu H) ^ s ∧
      ∀ Y, (∀ s < t, ∀ j < S.nx, |y s j| ≤ Y) → |y t i - x.e i| ≤ M * (loopRel u η S.nx S.nu H * Y + loopAbs u η S.nx) * ∑ s ∈ range t, r ^ s := by
  obtain ⟨x, x1, x2, x3⟩ := closedLoop_run hS k1 k2 x0 hx0
  set A := S.A.add (S.B.mul K) with hA
  have hnc : A.nc = S.nx := hS.2.1
  have hor := fun z => loop_orbit hS k2 z
  have hD : ∀ (z : ℕ → ℝ) X, (∀ i < S.nx, |z i| ≤ X) → ∀ t, ∀ i < S.nx, |orbit A z t i| ≤ M * r ^ t * X := fun z X hz => hdec z _ (hor z) X hz
  have hcong : ∀ (p q : ℕ → ℝ), (∀ i < S.nx, p i = q i) → ∀ t, ∀ i < S.nx, orbit A p t i = orbit A q t i := by
    intro p q hpq t
    induction t with
    | zero => exact hpq
    | succ t ih =>
      intro i _
      rw [orbit, orbit, hnc]
      exact Finset.sum_congr rfl fun j hj => by rw [ih j (Finset.mem_range.1 hj)]
  have hxt : ∀ t, ∀ i < S.nx, (x t).e i = orbit A x0.e t i := by
    intro t
    induction t with
    | zero => intro i _; rw [x1]; rfl
    | succ t ih =>
      intro i hi
      rw [x3 t i hi, (hor x0.e).step t i hi]
      unfold Spec.affine rowVal
      rw [hS.2.1, hS.2.2.2.1, k2, show (Vec.zeros S.nx : Vec ℝ).e i = 0 from rfl, add_zero]
      congr 1
      · exact Finset.sum_congr rfl fun j hj => by rw [ih j (Finset.mem_range.1 hj)]
      · exact Finset.sum_congr rfl fun k _ => by
          congr 1
          exact Finset.sum_congr rfl fun j hj => by rw [ih j (Finset.mem_range.1 hj)]
  have hstep : ∀ t < N, ∀ X, (∀ j < S.nx, |y t j| ≤ X) → ∀ i < S.nx, |y (t + 1) i - orbit A (y t) 1 i| ≤ loopRel u η S.nx S.nu H * X + loopAbs u η S.nx := by
    intro t ht X hX i hi
    have := loopStep_err hr hS (hy t ht) hH hX hi
    have e1 : orbit A (y t) 1 i = ∑ j ∈ range S.nx, (S.A.e i j + ∑ k ∈ range S.nu, S.B.e i k * K.e k j) * y t j := by
      show ∑ j ∈ range A.nc, (S.A.e i j + ∑ k ∈ range S.B.nc, S.B.e i k * K.e k j) * y t j = _
      rw [hnc, hS.2.2.2.1]
    rw [e1]
    exact this
  refine ⟨_, x2 N, by simp, fun t v hv i hi => ?_⟩
  have hlt : t < N + 1 := by
    by_contra hlt
    rw [List.getElem?_eq_none (by simp; omega)] at hv
    cases hv
  have hvt : v = x t := by
    rw [List.getElem?_map, List.getElem?_range hlt] at hv
    exact (Option.some.inj hv).symm
  subst hvt
  have hH0 : 0 ≤ H := (Finset.sum_nonneg fun j _ => loopEntry_nonneg S K i j).trans (hH i hi)
  have hu := hr.u0
  have hη := hr.η0
  have he : 0 ≤ loopRel u η S.nx S.nu H := by
    have : 1 ≤ (1 + u) ^ (S.nx + S.nu + 1) := one_le_pow₀ (by linarith)
    have : 0 ≤ (1 + u) ^ (S.nx + S.nu + 1) - 1 := by linarith
    unfold loopRel
    positivity
  refine ⟨?_, fun Y hY => ?_⟩
  · have := loop_perturbed hnc hr0 hM he hD (fun i hi => by rw [hy0 i hi]; exact hX0 i hi) hstep t (by omega) 0 i hi
    simpa [orbit] using this
  · have := loop_distance hD t (c := loopRel u η S.nx S.nu H * Y + loopAbs u η S.nx) (y := y) (fun s hs j hj => hstep s (by omega) Y (hY s hs) j hj) 0 i hi
    rw [pow_zero, one_mul, Nat.add_zero, hcong (y 0) x0.e hy0 t i hi, ← hxt t i hi] at this
    exact this

/-- a matrix whose trajectories go to the origin shrinks states like `M r^t` -/
theorem decay_of_stable {n : ℕ} {A : Mat ℝ} (h2 : A.nc = n) (hs : Stable n A) :
    ∃ M r : ℝ, 0 ≤ M ∧ 0 < r ∧ r < 1 ∧ ∀ (x : ℕ → ℝ) X, (∀ i < n, |x i| ≤ X) → ∀ t, ∀ i < n, |orbit A x t i| ≤ M * r ^ t * X := by
  have key : ∀ i < n, ∀ᶠ T in atTop, ∑ k ∈ range n, |orbit A (fun j => if j = k then 1 else 0) T i| ≤ 1 / 2 := by
    intro i hi
    have t1 : Tendsto (fun t => ∑ k ∈ range n, |orbit A (fun j => if j = k then 1 else 0) t i|) atTop (𝓝 0) := by
      have := tendsto_finsetSum (range n) fun k _ => (hs (fun j => if j = k then 1 else 0) i hi).abs
      simpa using this
    exact t1.eventually (ge_mem_nhds (by norm_num))
  have key2 : ∀ᶠ T in atTop, ∀ i ∈ range n, ∑ k ∈ range n, |orbit A (fun j => if j = k then 1 else 0) T i| ≤ 1 / 2 :=
    (Finset.eventually_all (range n)).2 fun i hi => key i (Finset.mem_range.1 hi)
  obtain ⟨T, h1, hT⟩ := (key2.and (eventually_ge_atTop 1)).exists
  have half : ∀ (x : ℕ → ℝ) X, (∀ i < n, |x i| ≤ X) → ∀ i < n, |orbit A x T i| ≤ 1 / 2 * X := by
    intro x X hx i hi
    have hX : 0 ≤ X := (abs_nonneg _).trans (hx i hi)
    rw [orbit_linear h2 x T i hi]
    refine (Finset.abs_sum_le_sum_abs _ _).trans (le_trans ?_ (mul_le_mul_of_nonneg_right (h1 i (Finset.mem_range.2 hi)) hX))
    rw [Finset.sum_mul]
    refine Finset.sum_le_sum fun k hk => ?_
    rw [abs_mul, mul_comm]
    exact mul_le_mul_of_nonneg_left (hx k (Finset.mem_range.1 hk)) (abs_nonneg _)
  set q : ℝ := 1 + ∑ i ∈ range n, ∑ j ∈ range n, |A.e i j| with hq
  have hq1 : 1 ≤ q := le_add_of_nonneg_right (Finset.sum_nonneg fun i _ => Finset.sum_nonneg fun j _ => abs_nonneg _)
  have hrow : RowsBelow n A q := by
    intro i hi
    have := Finset.single_le_sum (f := fun i => ∑ j ∈ range n, |A.e i j|) (fun i _ => Finset.sum_nonneg fun j _ => abs_nonneg _) (Finset.mem_range.2 hi)
    linarith
  set r : ℝ := (1 / 2 : ℝ) ^ ((T : ℝ)⁻¹) with hr
  have hrT : r ^ T = 1 / 2 := Real.rpow_inv_natCast_pow (by norm_num) (by omega)
  have hr0 : 0 < r := Real.rpow_pos_of_pos (by norm_num) _
  have hr1 : r < 1 := Real.rpow_lt_one (by norm_num) (by norm_num) (by positivity)
  refine ⟨2 * q ^ T, r, by positivity, hr0, hr1, fun x X hx t => ?_⟩
  induction t using Nat.strong_induction_on generalizing x X with
  | _ t ih =>
    intro i hi
    have hX : 0 ≤ X := (abs_nonneg _).trans (hx i hi)
    by_cases htT : t < T
    · have h3 := rowsBelow_orbit h2 hrow hX hx (by linarith) t i hi
      have h4 : q ^ t ≤ q ^ T := pow_le_pow_right₀ hq1 htT.le
      have h5 : 1 / 2 ≤ r ^ t := by rw [← hrT]; exact pow_le_pow_of_le_one hr0.le hr1.le htT.le
      have h6 : q ^ t * X ≤ q ^ T * X := mul_le_mul_of_nonneg_right h4 hX
      have h7 : 0 ≤ q ^ T * X := by positivity
      have h8 := mul_le_mul_of_nonneg_left h5 h7
      linarith
    · obtain ⟨s, rfl⟩ : ∃ s, t = T + s := ⟨t - T, by omega⟩
      have e1 : orbit A x (T + s) = orbit A (orbit A x T) s := by
        clear ih
        induction s with
        | zero => rfl
        | succ s ih => rw [← Nat.add_assoc, orbit, ih (by omega)]; rfl
      rw [e1]
      have := ih s (by omega) (orbit A x T) (1 / 2 * X) (half x X hx) i hi
      rw [pow_add, hrT]
      linarith

theorem loopRel_mono {u η ε : ℝ} (hu : 0 ≤ u) (hη : 0 ≤ η) (h1 : u ≤ ε) (h2 : η ≤ ε) (nx nu : ℕ) {H : ℝ} (hH : 0 ≤ H) : loopRel u η nx nu H ≤ loopRel ε ε nx nu H := by
  unfold loopRel
  have hp : (1 + u) ^ (nx + nu + 1) ≤ (1 + ε) ^ (nx + nu + 1) := pow_le_pow_left₀ (by linarith) (by linarith) _
  have hε : 0 ≤ ε := hu.trans h1
  gcongr

/-- C190, stability: if all trajectories of the closed loop go to the origin then there are `M`, `C`, `q < 1` and a precision `ε` such that the states that `simulate_closed_loop` computes in any floating point arithmetic
of at least that precision are at most `M q^t |x0| + C η`, where `η` is the error of numbers too small for the format; in particular, without such numbers the computed states go to the origin. -/
theorem C190_stable (S : LinearSystem) (hS : SystemShape S.nx S.nu S.A S.B (Vec.zeros S.nx)) (K : Mat ℝ) (k1 : K.nr = S.nu) (k2 : K.nc = S.nx)
    (hst : ∀ x0 x, ClosedLoopTraj S K x0 x → ∀ i < S.nx, Tendsto (fun t => x t i) atTop (𝓝 0)) :
    ∃ M C q ε : ℝ, 0 ≤ q ∧ q < 1 ∧ 0 < ε ∧ ∀ (fl : ℝ → ℝ) (u η : ℝ), Rounds fl u η → u ≤ ε → η ≤ ε →
      ∀ (y : ℕ → ℕ → ℝ) (X0 : ℝ), (∀ i < S.nx, |y 0 i| ≤ X0) → (∀ t, Fl.LoopStep fl S K (y t) (y (t + 1))) → ∀ t, ∀ i < S.nx, |y t i| ≤ M * q ^ t * X0 + C * η := by
  have hnc : (S.A.add (S.B.mul K)).nc = S.nx := hS.2.1
  obtain ⟨M, r, hM, hr0, hr1, hD⟩ := decay_of_stable hnc fun x => hst x _ (loop_orbit hS k2 x)
  have hdec : LoopDecays S K M r := by
    intro x0 x hx X hX t i hi
    have h1 : ∀ t, ∀ i < S.nx, x t i = orbit (S.A.add (S.B.mul K)) x0 t i := by
      intro t
      induction t with
      | zero => exact hx.start
      | succ t ih =>
        intro i hi
        rw [hx.step t i hi, (loop_orbit hS k2 x0).step t i hi]
        congr 1
        · exact Finset.sum_congr rfl fun j hj => by rw [ih j (Finset.mem_range.1 hj)]
        · exact Finset.sum_congr rfl fun k _ => by
            congr 1
            exact Finset.sum_congr rfl fun j hj => by rw [ih j (Finset.mem_range.1 hj)]
    rw [h1 t i hi]
    exact hD x0 X hX t i hi
  set H := ∑ i ∈ range S.nx, ∑ j ∈ range S.nx, loopEntry S K i j with hHdef
  have hrow0 : ∀ i ∈ range S.nx, 0 ≤ ∑ j ∈ range S.nx, loopEntry S K i j := fun i _ => Finset.sum_nonneg fun j _ => loopEntry_nonneg S K i j
  have hH0 : 0 ≤ H := Finset.sum_nonneg hrow0
  have hH : ∀ i < S.nx, ∑ j ∈ range S.nx, loopEntry S K i j ≤ H := fun i hi => Finset.single_le_sum (f := fun i => ∑ j ∈ range S.nx, loopEntry S K i j) hrow0 (Finset.mem_range.2 hi)
  set q := (1 + r) / 2 with hq
  have hq1 : q < 1 := by rw [hq]; linarith
  have hq0 : 0 ≤ q := by rw [hq]; linarith
  have hcont : Tendsto (fun ε => r + M * loopRel ε ε S.nx S.nu H) (𝓝[>] 0) (𝓝 r) := by
    have h1 : Continuous fun ε => r + M * loopRel ε ε S.nx S.nu H := by unfold loopRel; fun_prop
    have h2 := h1.tendsto 0
    have e : r + M * loopRel 0 0 S.nx S.nu H = r := by simp [loopRel]
    rw [e] at h2
    exact h2.mono_left nhdsWithin_le_nhds
  have hev : ∀ᶠ ε in 𝓝[>] (0 : ℝ), r + M * loopRel ε ε S.nx S.nu H ≤ q := hcont.eventually (ge_mem_nhds (by rw [hq]; linarith))
  obtain ⟨ε, hε, hεpos⟩ := (hev.and self_mem_nhdsWithin).exists
  have hεpos : 0 < ε := hεpos
  refine ⟨M, M * (2 * S.nx * (1 + ε) ^ S.nx) * (1 - q)⁻¹, q, ε, hq0, hq1, hεpos, fun fl u η hr hu hη y X0 hX0 hy t i hi => ?_⟩
  obtain ⟨xs, g1, g2, g3⟩ := C190 fl u η hr S hS K k1 k2 ⟨S.nx, y 0⟩ rfl t y (fun _ _ => rfl) (fun s _ => hy s) H M r X0 hH hr0.le hM hdec hX0
  obtain ⟨x, hx⟩ : ∃ x, xs[t]? = some x := ⟨_, List.getElem?_eq_getElem (by omega)⟩
  have h4 := (g3 t x hx i hi).1
  set p := r + M * loopRel u η S.nx S.nu H with hp
  have hpq : p ≤ q := le_trans (add_le_add le_rfl (mul_le_mul_of_nonneg_left (loopRel_mono hr.u0 hr.η0 hu hη _ _ hH0) hM)) hε
  have hp0 : 0 ≤ p := by
    have h1 := loopRel_mono le_rfl le_rfl hr.u0 hr.u0 S.nx S.nu hH0
    have : 0 ≤ loopRel u η S.nx S.nu H := by
      have h5 : 1 ≤ (1 + u) ^ (S.nx + S.nu + 1) := one_le_pow₀ (by linarith [hr.u0])
      have h6 : 0 ≤ (1 + u) ^ (S.nx + S.nu + 1) - 1 := by linarith
      have := hr.u0
      have := hr.η0
      unfold loopRel
      positivity
    positivity
  have hX : 0 ≤ X0 := (abs_nonneg _).trans (hX0 i hi)
  have s1 : p ^ t ≤ q ^ t := pow_le_pow_left₀ hp0 hpq t
  have s2 : ∑ s ∈ range t, p ^ s ≤ (1 - q)⁻¹ := by
    refine (Finset.sum_le_sum fun s _ => pow_le_pow_left₀ hp0 hpq s).trans ?_
    rw [← tsum_geometric_of_lt_one hq0 hq1]
    exact (summable_geometric_of_lt_one hq0 hq1).sum_le_tsum _ fun s _ => pow_nonneg hq0 s
  have s3 : loopAbs u η S.nx ≤ 2 * S.nx * (1 + ε) ^ S.nx * η := by
    unfold loopAbs
    have := hr.u0
    have := hr.η0
    gcongr
  have s4 : 0 ≤ loopAbs u η S.nx := by
    have := hr.u0
    have := hr.η0
    unfold loopAbs
    positivity
  have s5 : 0 ≤ (1 - q)⁻¹ := inv_nonneg.2 (by linarith)
  refine h4.trans (add_le_add (mul_le_mul_of_nonneg_right (mul_le_mul_of_nonneg_left s1 hM) hX) ?_)
  have s6 : loopAbs u η S.nx * ∑ s ∈ range t, p ^ s ≤ 2 * S.nx * (1 + ε) ^ S.nx * η * (1 - q)⁻¹ :=
    mul_le_mul s3 s2 (Finset.sum_nonneg fun s _ => pow_nonneg hp0 s) (s4.trans s3)
  have := mul_le_mul_of_nonneg_left s6 hM
  linarith

/-- C190, with the gain of `solve_dare`: under the hypotheses of C98 the states that `simulate_closed_loop` computes are those of a stable loop, as in `C190_stable`. -/
theorem C190_dare (S : LinearSystem) (Q R P K : Mat ℝ) (h : DareArgs S Q R)
    (dare : Mat ℝ → Mat ℝ → Mat ℝ → Mat ℝ → Py (Mat ℝ)) (hdare : ∀ P, dare S.A S.B Q R = .ok P → DareSpec S.nx S.nu S.A S.B Q R P)
    (hPK : (LinearSystem.solve_dare dare Q R S).1 = .ok (P, K)) :
    ∃ M C q ε : ℝ, 0 ≤ q ∧ q < 1 ∧ 0 < ε ∧ ∀ (fl : ℝ → ℝ) (u η : ℝ), Rounds fl u η → u ≤ ε → η ≤ ε →
      ∀ (y : ℕ → ℕ → ℝ) (X0 : ℝ), (∀ i < S.nx, |y 0 i| ≤ X0) → (∀ t, Fl.LoopStep fl S K (y t) (y (t + 1))) → ∀ t, ∀ i < S.nx, |y t i| ≤ M * q ^ t * X0 + C * η := by
  obtain ⟨-, k1, k2, -⟩ := solve_dare_ok h hdare hPK
  exact C190_stable S h.sys K k1 k2 fun x0 x hx => (C98 S Q R P K h dare hdare hPK x0 x hx).1

/-- a pass of the loop has a result -/
theorem loopStep_exists (fl : ℝ → ℝ) (S : LinearSystem) (K : Mat ℝ) (x : ℕ → ℝ) : ∃ x', Fl.LoopStep fl S K x x' := by
  choose W hW using fun i j => dotVal_exists fl (S.B.e i) (fun k => K.e k j) S.B.nc
  choose x' hx' using fun i => dotVal_exists fl (fun j => fl (S.A.e i j + W i j)) x S.A.nc
  exact ⟨x', ⟨S.A.nr, S.A.nc, fun i j => fl (S.A.e i j + W i j)⟩, ⟨rfl, rfl, W, fun i _ j _ => ⟨hW i j, rfl⟩⟩, fun i _ => hx' i⟩

/-- there are runs of any length -/
theorem loopRun_exists (fl : ℝ → ℝ) (S : LinearSystem) (K : Mat ℝ) (x : ℕ → ℝ) : ∃ y : ℕ → ℕ → ℝ, y 0 = x ∧ ∀ t, Fl.LoopStep fl S K (y t) (y (t + 1)) := by
  choose f hf using loopStep_exists fl S K
  exact ⟨fun t => f^[t] x, rfl, fun t => by
    show Fl.LoopStep fl S K (f^[t] x) (f^[t + 1] x)
    rw [Function.iterate_succ_apply']
    exact hf _⟩

/-- the gain `-1/2` -/
noncomputable def halfGain : Mat ℝ := ⟨1, 1, fun _ _ => -1 / 2⟩

theorem halfGain_decays : LoopDecays integrator halfGain 1 (1 / 2) := by
  intro x0 x hx X hX t i hi
  obtain rfl : i = 0 := by simpa [integrator] using hi
  have h0 : ∀ t, x t 0 = (1 / 2) ^ t * x0 0 := by
    intro t
    induction t with
    | zero => simpa using hx.start 0 (by norm_num [integrator])
    | succ t ih =>
      rw [hx.step t 0 (by norm_num [integrator])]
      simp only [integrator, one1, halfGain, Finset.sum_range_one, ih]
      ring
  rw [h0, abs_mul, abs_of_nonneg (by positivity), one_mul]
  exact mul_le_mul_of_nonneg_left (hX 0 (by norm_num [integrator])) (by positivity)

/-- the integrator with the gain -1/2 in double precision, from the state 1: the computed states shrink by 0.51 in each step and stay within `1e-14` of `1/2^t` -/
example : ∃ y : ℕ → ℕ → ℝ, y 0 = (fun _ => 1) ∧ (∀ t, Fl.LoopStep (binary 52) integrator halfGain (y t) (y (t + 1))) ∧
    ∀ t, |y t 0| ≤ 0.51 ^ t ∧ |y t 0 - (1 / 2) ^ t| ≤ 1e-14 := by
  obtain ⟨y, y0, hy⟩ := loopRun_exists (binary 52) integrator halfGain fun _ => 1
  have hb := binary_rounds 52
  have hH : ∀ i < integrator.nx, ∑ j ∈ range integrator.nx, loopEntry integrator halfGain i j ≤ 3 / 2 := by
    intro i _
    simp only [loopEntry, integrator, one1, halfGain, Finset.sum_range_one]
    norm_num
  have hrel : loopRel (2⁻¹ ^ 53) 0 1 1 (3 / 2) ≤ 2e-15 := by unfold loopRel; norm_num
  have hrel0 : 0 ≤ loopRel (2⁻¹ ^ 53) 0 1 1 (3 / 2) := by unfold loopRel; norm_num
  have habs : loopAbs (2⁻¹ ^ 53) 0 1 = 0 := by unfold loopAbs; ring
  have main : ∀ t, |y t 0| ≤ (1 / 2 + loopRel (2⁻¹ ^ 53) 0 1 1 (3 / 2)) ^ t := by
    intro t
    obtain ⟨xs, -, g2, g3⟩ := C190 (binary 52) _ _ hb integrator integrator_dareArgs.sys halfGain rfl rfl ⟨1, fun _ => 1⟩ rfl t y (fun i _ => by rw [y0])
      (fun s _ => hy s) (3 / 2) 1 (1 / 2) 1 hH (by norm_num) (by norm_num) halfGain_decays (fun i _ => by norm_num)
    have := (g3 t _ (List.getElem?_eq_getElem (by omega)) 0 (by norm_num [integrator])).1
    rw [show integrator.nx = 1 from rfl, show integrator.nu = 1 from rfl, habs] at this
    simpa using this
  have hsmall : ∀ t, |y t 0| ≤ 0.51 ^ t := by
    intro t
    exact (main t).trans (pow_le_pow_left₀ (by linarith) (by linarith) t)
  refine ⟨y, y0, hy, fun t => ⟨hsmall t, ?_⟩⟩
  have hone : ∀ s, |y s 0| ≤ 1 := fun s => (hsmall s).trans (pow_le_one₀ (by norm_num) (by norm_num))
  obtain ⟨xs, g1, g2, g3⟩ := C190 (binary 52) _ _ hb integrator integrator_dareArgs.sys halfGain rfl rfl ⟨1, fun _ => 1⟩ rfl t y (fun i _ => by rw [y0])
      (fun s _ => hy s) (3 / 2) 1 (1 / 2) 1 hH (by norm_num) (by norm_num) halfGain_decays (fun i _ => by norm_num)
  obtain ⟨x, x1, x2, x3⟩ := closedLoop_run integrator_dareArgs.sys (K := halfGain) rfl rfl ⟨1, fun _ => 1⟩ rfl
  have hxt : ∀ t, (x t).e 0 = (1 / 2) ^ t := by
    intro t
    induction t with
    | zero => rw [x1]; norm_num
    | succ t ih =>
      rw [x3 t 0 (by norm_num [integrator])]
      simp only [Spec.affine, rowVal, integrator, one1, halfGain, Finset.sum_range_one, ih, Vec.zeros]
      ring
  rw [x2 t] at g1
  cases g1
  have h6 := (g3 t (x t) (by simp) 0 (by norm_num [integrator])).2 1 (fun s _ j hj => by
    obtain rfl : j = 0 := by simpa [integrator] using hj
    exact hone s)
  rw [show integrator.nx = 1 from rfl, show integrator.nu = 1 from rfl, habs, hxt] at h6
  refine h6.trans ?_
  have hg : ∑ s ∈ range t, (1 / 2 : ℝ) ^ s ≤ 2 := by
    have := (summable_geometric_of_lt_one (r := (1 / 2 : ℝ)) (by norm_num) (by norm_num)).sum_le_tsum (range t) fun s _ => by positivity
    rw [tsum_geometric_of_lt_one (by norm_num) (by norm_num)] at this
    norm_num at this ⊢
    exact this
  have hg0 : 0 ≤ ∑ s ∈ range t, (1 / 2 : ℝ) ^ s := Finset.sum_nonneg fun _ _ => by positivity
  calc _ = loopRel (2⁻¹ ^ 53) 0 1 1 (3 / 2) * ∑ s ∈ range t, (1 / 2 : ℝ) ^ s := by ring
    _ ≤ 2e-15 * 2 := mul_le_mul hrel hg hg0 (by norm_num)
    _ ≤ 1e-14 := by norm_num

end Verif.Props
