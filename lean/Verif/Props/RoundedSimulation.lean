import Verif.Props.RoundedContains
import Verif.Props.Simulation
import Verif.Props.MpcRobust
import Verif.Props.MpcStabilityExamples

/- `simulate`, and the loop of the linear controller, with a system in floating point arithmetic. -/
namespace Verif.Props
open Finset Spec Dyn Control

/-- the relative error of a step: about `(max nx nu + 1) u` -/
noncomputable def stepRel (u : ℝ) (nx nu : ℕ) : ℝ := (1 + u) ^ (max nx nu + 1) - 1

/-- the absolute error of a step, below the smallest numbers -/
noncomputable def stepAbs (u η : ℝ) (nx nu : ℕ) : ℝ := (2 * (nx + nu) + 1) * (1 + u) ^ (max nx nu + 1) * η

theorem stepRel_nonneg {u : ℝ} (hu : 0 ≤ u) (nx nu : ℕ) : 0 ≤ stepRel u nx nu := by
  have : 1 ≤ (1 + u) ^ (max nx nu + 1) := one_le_pow₀ (by linarith)
  unfold stepRel
  linarith

theorem stepAbs_nonneg {u η : ℝ} (hu : 0 ≤ u) (hη : 0 ≤ η) (nx nu : ℕ) : 0 ≤ stepAbs u η nx nu := by unfold stepAbs; positivity

/-- the rounding error of one step of `simulate` -/
theorem step_err {fl : ℝ → ℝ} {u η : ℝ} (hr : Rounds fl u η) {S : LinearSystem} (hS : SystemShape S.nx S.nu S.A S.B (Vec.zeros S.nx)) {x v x' : ℕ → ℝ}
    (h : Fl.Step fl S x v x') {i : ℕ} (hi : i < S.nx) :
    |x' i - (∑ j ∈ range S.nx, S.A.e i j * x j + ∑ j ∈ range S.nu, S.B.e i j * v j)|
      ≤ stepRel u S.nx S.nu * (∑ j ∈ range S.nx, |S.A.e i j * x j| + ∑ j ∈ range S.nu, |S.B.e i j * v j|) + stepAbs u η S.nx S.nu := by
  obtain ⟨a1, a2, b1, b2, -⟩ := hS
  obtain ⟨y, z, hy, hz, hx'⟩ := h
  have hu := hr.u0
  have hη := hr.η0
  have h1 := dot_err hr (hy i (by omega))
  have h2 := dot_err hr (hz i (by omega))
  rw [a2] at h1
  rw [b2] at h2
  set k := max S.nx S.nu with hk
  set T1 := ∑ j ∈ range S.nx, |S.A.e i j * x j|
  set T2 := ∑ j ∈ range S.nu, |S.B.e i j * v j|
  set s1 := ∑ j ∈ range S.nx, S.A.e i j * x j
  set s2 := ∑ j ∈ range S.nu, S.B.e i j * v j
  have t1 : |s1| ≤ T1 := Finset.abs_sum_le_sum_abs _ _
  have t2 : |s2| ≤ T2 := Finset.abs_sum_le_sum_abs _ _
  have hT1 : 0 ≤ T1 := (abs_nonneg _).trans t1
  have hT2 : 0 ≤ T2 := (abs_nonneg _).trans t2
  have p1 : (1 + u) ^ S.nx ≤ (1 + u) ^ k := pow_err hu (le_max_left _ _)
  have p2 : (1 + u) ^ S.nu ≤ (1 + u) ^ k := pow_err hu (le_max_right _ _)
  have c1 : (0 : ℝ) ≤ 2 * S.nx := by positivity
  have c2 : (0 : ℝ) ≤ 2 * S.nu := by positivity
  have q1 := mul_le_mul_of_nonneg_right p1 hT1
  have q2 := mul_le_mul_of_nonneg_right p2 hT2
  have q3 := mul_le_mul_of_nonneg_right (mul_le_mul_of_nonneg_left p1 c1) hη
  have q4 := mul_le_mul_of_nonneg_right (mul_le_mul_of_nonneg_left p2 c2) hη
  have h3 : |y i + z i - (s1 + s2)| ≤ ((1 + u) ^ k - 1) * (T1 + T2) + 2 * (S.nx + S.nu) * (1 + u) ^ k * η := by
    have := abs_add_le (y i - s1) (z i - s2)
    rw [show y i - s1 + (z i - s2) = y i + z i - (s1 + s2) by ring] at this
    refine this.trans ?_
    linarith
  have h4 := Rounds.step hr ((abs_add_le s1 s2).trans (add_le_add t1 t2)) h3
  rw [hx' i hi]
  refine h4.trans ?_
  have p3 : 1 ≤ (1 + u) ^ (k + 1) := one_le_pow₀ (by linarith)
  unfold stepRel stepAbs
  rw [← hk]
  rw [pow_succ] at p3 ⊢
  have := mul_le_mul_of_nonneg_right p3 hη
  nlinarith

/-- C164: let the entries of the computed states and of the inputs be at most `X` and `U` in absolute value, and the absolute row sums of `A` and `B` at most `α` and `β`.  Then the states
that `simulate` computes in floating point arithmetic, whatever the order of the sums, differ from the exact ones at time `t` by at most `(1 + α + … + α^(t-1)) δ`, where `δ` is the error of one
step: about `(max nx nu + 1) u (α X + β U)`. -/
theorem C164 (fl : ℝ → ℝ) (u η : ℝ) (hr : Rounds fl u η) (S : LinearSystem) (hS : SystemShape S.nx S.nu S.A S.B (Vec.zeros S.nx)) (x0 : Vec ℝ) (hx0 : x0.n = S.nx)
    (us : List (Vec ℝ)) (hus : ∀ v ∈ us, v.n = S.nu) (y : ℕ → ℕ → ℝ) (hy0 : ∀ i < S.nx, y 0 i = x0.e i)
    (hy : ∀ t v, us[t]? = some v → Fl.Step fl S (y t) v.e (y (t + 1))) (α β X U : ℝ) (hα : ∀ i < S.nx, ∑ j ∈ range S.nx, |S.A.e i j| ≤ α)
    (hβ : ∀ i < S.nx, ∑ j ∈ range S.nu, |S.B.e i j| ≤ β) (hX : ∀ t < us.length, ∀ j < S.nx, |y t j| ≤ X) (hU : ∀ v ∈ us, ∀ j < S.nu, |v.e j| ≤ U)
    (hX0 : 0 ≤ X) (hU0 : 0 ≤ U) :
    ∃ xs, S.simulate x0 us = .ok xs ∧ xs.length = us.length + 1 ∧ ∀ t x, xs[t]? = some x → ∀ i < S.nx,
      |y t i - x.e i| ≤ (∑ s ∈ range t, α ^ s) * (stepRel u S.nx S.nu * (α * X + β * U) + stepAbs u η S.nx S.nu) := by
  obtain ⟨xs, h1, h2, h3, h4, h5⟩ := ((C50 S.nx S.nu S.A S.B (Vec.zeros S.nx) hS x0 hx0 S._controllable).1 us hus).2
  refine ⟨xs, h1, h2, ?_⟩
  have hu := hr.u0
  have hη := hr.η0
  set δ := stepRel u S.nx S.nu * (α * X + β * U) + stepAbs u η S.nx S.nu with hδ
  intro t
  induction t with
  | zero =>
    intro x hx i hi
    rw [h3] at hx
    cases hx
    rw [hy0 i hi]
    simp
  | succ t ih =>
    intro x hx i hi
    have ht : t < us.length := by
      have := (List.getElem?_eq_some_iff.1 hx).1
      omega
    obtain ⟨w, hw⟩ : ∃ w, xs[t]? = some w := ⟨_, List.getElem?_eq_getElem (by omega)⟩
    obtain ⟨v, hv⟩ : ∃ v, us[t]? = some v := ⟨_, List.getElem?_eq_getElem ht⟩
    have e1 : x.e i = ∑ j ∈ range S.nx, S.A.e i j * w.e j + ∑ j ∈ range S.nu, S.B.e i j * v.e j := by
      rw [h5 t w x v hw hx hv i hi]
      obtain ⟨a1, a2, b1, b2, -⟩ := hS
      simp [Spec.affine, a2, b2, Vec.zeros]
    have hvm : v ∈ us := List.mem_of_getElem? hv
    have e2 := step_err hr hS (hy t v hv) hi
    have hα0 : 0 ≤ α := (Finset.sum_nonneg fun _ _ => abs_nonneg _).trans (hα i hi)
    have b1 : ∑ j ∈ range S.nx, |S.A.e i j * y t j| ≤ α * X := by
      refine (Finset.sum_le_sum fun j hj => ?_).trans ((Finset.sum_mul _ _ _).symm.le.trans (mul_le_mul_of_nonneg_right (hα i hi) hX0))
      rw [abs_mul]
      exact mul_le_mul_of_nonneg_left (hX t ht j (mem_range.1 hj)) (abs_nonneg _)
    have b2 : ∑ j ∈ range S.nu, |S.B.e i j * v.e j| ≤ β * U := by
      refine (Finset.sum_le_sum fun j hj => ?_).trans ((Finset.sum_mul _ _ _).symm.le.trans (mul_le_mul_of_nonneg_right (hβ i hi) hU0))
      rw [abs_mul]
      exact mul_le_mul_of_nonneg_left (hU v hvm j (mem_range.1 hj)) (abs_nonneg _)
    have e3 := mul_le_mul_of_nonneg_left (add_le_add b1 b2) (stepRel_nonneg hu S.nx S.nu)
    have e4 : |∑ j ∈ range S.nx, S.A.e i j * y t j - ∑ j ∈ range S.nx, S.A.e i j * w.e j| ≤ α * ((∑ s ∈ range t, α ^ s) * δ) := by
      rw [← Finset.sum_sub_distrib]
      refine (Finset.abs_sum_le_sum_abs _ _).trans ((Finset.sum_le_sum fun j hj => ?_).trans ((Finset.sum_mul _ _ _).symm.le.trans
        (mul_le_mul_of_nonneg_right (hα i hi) ((abs_nonneg _).trans (ih w hw i hi)))))
      rw [← mul_sub, abs_mul]
      exact mul_le_mul_of_nonneg_left (ih w hw j (mem_range.1 hj)) (abs_nonneg _)
    rw [Finset.sum_range_succ', pow_zero, e1]
    have e5 : ∑ s ∈ range t, α ^ (s + 1) = α * ∑ s ∈ range t, α ^ s := by
      rw [Finset.mul_sum]
      exact Finset.sum_congr rfl fun s _ => pow_succ' _ _
    rw [e5]
    have e6 := abs_add_le (y (t + 1) i - (∑ j ∈ range S.nx, S.A.e i j * y t j + ∑ j ∈ range S.nu, S.B.e i j * v.e j))
      (∑ j ∈ range S.nx, S.A.e i j * y t j - ∑ j ∈ range S.nx, S.A.e i j * w.e j)
    rw [show y (t + 1) i - (∑ j ∈ range S.nx, S.A.e i j * y t j + ∑ j ∈ range S.nu, S.B.e i j * v.e j)
      + (∑ j ∈ range S.nx, S.A.e i j * y t j - ∑ j ∈ range S.nx, S.A.e i j * w.e j)
      = y (t + 1) i - (∑ j ∈ range S.nx, S.A.e i j * w.e j + ∑ j ∈ range S.nu, S.B.e i j * v.e j) by ring] at e6
    have e7 : (α * ∑ s ∈ range t, α ^ s + 1) * δ = α * ((∑ s ∈ range t, α ^ s) * δ) + δ := by ring
    rw [e7]
    linarith

/-- one step of the integrator from 1 with the input 1/3 in double precision: the error is at most `(4/3) ((1 + 2^-53)^2 - 1)` -/
example : ∃ y : ℕ → ℕ → ℝ, y 0 = (fun _ => 1) ∧ Fl.Step (binary 52) integrator (y 0) (fun _ => 1 / 3) (y 1) ∧ |y 1 0 - 4 / 3| ≤ 4 / 3 * ((1 + 2⁻¹ ^ 53) ^ 2 - 1) := by
  obtain ⟨a, ha⟩ := dotVal_exists (binary 52) (fun _ => 1) (fun _ => 1) 1
  obtain ⟨b, hb⟩ := dotVal_exists (binary 52) (fun _ => 1) (fun _ => 1 / 3) 1
  have hst : Fl.Step (binary 52) integrator (fun _ => 1) (fun _ => 1 / 3) fun _ => binary 52 (a + b) := ⟨fun _ => a, fun _ => b, fun _ _ => ha, fun _ _ => hb, fun _ _ => rfl⟩
  refine ⟨fun t _ => if t = 0 then 1 else binary 52 (a + b), rfl, hst, ?_⟩
  obtain ⟨xs, h1, -, h3⟩ := C164 (binary 52) _ _ (binary_rounds 52) integrator integrator_dareArgs.sys ⟨1, fun _ => 1⟩ rfl [⟨1, fun _ => 1 / 3⟩]
    (fun v hv => by rw [List.mem_singleton] at hv; rw [hv]; rfl) (fun t _ => if t = 0 then 1 else binary 52 (a + b)) (fun _ _ => rfl) (fun t v hv => by
      cases t with
      | zero => simp only [List.getElem?_cons_zero, Option.some.injEq] at hv; subst hv; exact hst
      | succ t => simp at hv) 1 1 1 (1 / 3) (fun i _ => by norm_num [integrator, one1]) (fun i _ => by norm_num [integrator, one1])
    (fun t ht j _ => by
      obtain rfl : t = 0 := by simpa using ht
      norm_num) (fun v hv j _ => by rw [List.mem_singleton] at hv; rw [hv]; norm_num) (by norm_num) (by norm_num)
  have h4 : integrator.simulate ⟨1, fun _ => 1⟩ [⟨1, fun _ => 1 / 3⟩] = .ok [⟨1, fun _ => 1⟩, _] := rfl
  rw [h4] at h1
  cases h1
  have := h3 1 _ rfl 0 (by norm_num [integrator])
  have e1 : ∀ f : ℕ → ℝ, ∑ s ∈ range 1, f s = f 0 := fun f => Finset.sum_range_one f
  simp only [stepRel, stepAbs, mul_zero, add_zero, e1, pow_zero, one_mul] at this
  refine le_trans (le_of_eq ?_) (this.trans (le_of_eq ?_))
  · congr 1
    norm_num [Mat.mulVec, Vec.add, integrator, one1]
  · norm_num [integrator]

/-- the loop of the linear controller with a system simulated in floating point arithmetic -/
def RoundedLoop (L : Lib) (c : MPC) (fl : ℝ → ℝ) (S : LinearSystem) (x u : ℕ → Vec ℝ) (T : ℕ) : Prop :=
  (x 0).n = S.nx ∧ ∀ t < T, c.feedback L (x t) = .ok (some (u t)) ∧ (x (t + 1)).n = S.nx ∧ Fl.Step fl S (x t).e (u t).e (x (t + 1)).e

/-- C165: under the hypotheses of C154 there are `M`, `G` and `r < 1`, which depend on the controller only, such that in each loop whose system is simulated in floating point arithmetic,
with a relative error `ε` of a step of at most `1 / G`: as long as the controller answers, the states and inputs are at most `M r^t + G ε` times the size of the initial state plus
`G` times the absolute error of a step. -/
theorem C165 (S : LinearSystem) (N : ℕ) (Q R P K : Mat ℝ) (D X_N : Poly) (h : MpcArgs S N Q R P D X_N)
    (hQ : ∀ x, (∃ i < S.nx, x i ≠ 0) → 0 < quad Q x)
    (hK : (problem S N Q R P D X_N).TerminalInvariant K) (hd : (problem S N Q R P D X_N).TerminalDecrease K)
    (c : MPC) (hc : MPC.init S N Q R P D X_N = .ok c) :
    ∃ M r G : ℝ, 0 ≤ M ∧ 0 ≤ r ∧ r < 1 ∧ 0 ≤ G ∧ ∀ L, LibSpec L → ∀ (fl : ℝ → ℝ) (ru η : ℝ), Rounds fl ru η → G * stepRel ru S.nx S.nu ≤ 1 →
      ∀ (x u : ℕ → Vec ℝ) (T : ℕ), RoundedLoop L c fl S x u T →
      ∀ t < T, (∀ i < S.nx, |(x t).e i| ≤ (M * r ^ t + G * stepRel ru S.nx S.nu) * ∑ l ∈ range S.nx, |(x 0).e l| + G * stepAbs ru η S.nx S.nu) ∧
        ∀ s < S.nu, |(u t).e s| ≤ (M * r ^ t + G * stepRel ru S.nx S.nu) * ∑ l ∈ range S.nx, |(x 0).e l| + G * stepAbs ru η S.nx S.nu := by
  obtain ⟨M, r, G, hM, hr0, hr1, hG, hmain⟩ := C154 S N Q R P K D X_N h hQ hK hd c hc
  obtain ⟨a1, a2, b1, b2, -⟩ := h.sys
  set a := ∑ i ∈ range S.nx, (∑ j ∈ range S.nx, |S.A.e i j| + ∑ j ∈ range S.nu, |S.B.e i j|) with ha
  have ha0 : 0 ≤ a := Finset.sum_nonneg fun _ _ => add_nonneg (Finset.sum_nonneg fun _ _ => abs_nonneg _) (Finset.sum_nonneg fun _ _ => abs_nonneg _)
  have hn : (0 : ℝ) ≤ S.nx := Nat.cast_nonneg _
  refine ⟨M, r, 2 * G * (a * (1 + M) + S.nx), hM, hr0, hr1, by positivity, fun L hL fl ru η hr hsmall x u T hcl t ht => ?_⟩
  set g := stepRel ru S.nx S.nu with hg
  set e := stepAbs ru η S.nx S.nu with he
  have hg0 : 0 ≤ g := stepRel_nonneg hr.u0 _ _
  have he0 : 0 ≤ e := stepAbs_nonneg hr.u0 hr.η0 _ _
  set p := problem S N Q R P D X_N with hp
  set w : ℕ → ℕ → ℝ := fun t i => (x (t + 1)).e i - p.next (x t).e (u t).e i with hw
  have hloop : DisturbedLoop L c p w x u T := ⟨hcl.1, fun t ht => ⟨(hcl.2 t ht).1, (hcl.2 t ht).2.1, fun i _ => by simp only [hw]; ring⟩⟩
  have hnext : ∀ t i, p.next (x t).e (u t).e i = ∑ j ∈ range S.nx, S.A.e i j * (x t).e j + ∑ j ∈ range S.nu, S.B.e i j * (u t).e j := fun t i => by
    show Spec.affine S.A S.B _ _ _ i = _
    simp [Spec.affine, a2, b2]
  -- the rounding errors of one step, if the entries are at most `Z`
  have hstep : ∀ t < T, ∀ Z, 0 ≤ Z → (∀ j < S.nx, |(x t).e j| ≤ Z) → (∀ j < S.nu, |(u t).e j| ≤ Z) → ∑ i ∈ range S.nx, |w t i| ≤ g * (a * Z) + S.nx * e := by
    intro t ht Z hZ hxZ huZ
    have : ∀ i ∈ range S.nx, |w t i| ≤ g * ((∑ j ∈ range S.nx, |S.A.e i j| + ∑ j ∈ range S.nu, |S.B.e i j|) * Z) + e := by
      intro i hi
      have k1 := step_err hr h.sys (hcl.2 t ht).2.2 (mem_range.1 hi)
      simp only [hw]
      rw [hnext]
      refine k1.trans ?_
      have k2 : ∑ j ∈ range S.nx, |S.A.e i j * (x t).e j| + ∑ j ∈ range S.nu, |S.B.e i j * (u t).e j|
          ≤ (∑ j ∈ range S.nx, |S.A.e i j| + ∑ j ∈ range S.nu, |S.B.e i j|) * Z := by
        rw [add_mul, Finset.sum_mul, Finset.sum_mul]
        refine add_le_add (Finset.sum_le_sum fun j hj => ?_) (Finset.sum_le_sum fun j hj => ?_)
        · rw [abs_mul]; exact mul_le_mul_of_nonneg_left (hxZ j (mem_range.1 hj)) (abs_nonneg _)
        · rw [abs_mul]; exact mul_le_mul_of_nonneg_left (huZ j (mem_range.1 hj)) (abs_nonneg _)
      have := mul_le_mul_of_nonneg_left k2 hg0
      linarith
    refine (Finset.sum_le_sum this).trans ?_
    rw [Finset.sum_add_distrib, ← Finset.mul_sum, ← Finset.sum_mul, Finset.sum_const, card_range, nsmul_eq_mul]
  set s := ∑ l ∈ range S.nx, |(x 0).e l| with hs
  have hs0 : 0 ≤ s := Finset.sum_nonneg fun _ _ => abs_nonneg _
  -- the largest one
  obtain ⟨t0, ht0, hmax⟩ := Finset.exists_max_image (range T) (fun t => ∑ i ∈ range S.nx, |w t i|) ⟨t, mem_range.2 ht⟩
  set W := ∑ i ∈ range S.nx, |w t0 i| with hW
  have hW0 : 0 ≤ W := Finset.sum_nonneg fun _ _ => abs_nonneg _
  have hall := hmain L hL w x u T W hloop fun t ht => hmax t (mem_range.2 ht)
  have hpow : ∀ t, M * r ^ t * s ≤ M * s := fun t => by
    have := pow_le_one₀ hr0 hr1.le (n := t)
    exact mul_le_mul_of_nonneg_right (mul_le_of_le_one_right hM this) hs0
  have ht0' := mem_range.1 ht0
  have hWle : W ≤ g * (a * (M * s + G * W)) + S.nx * e :=
    hstep t0 ht0' (M * s + G * W) (by positivity) (fun j hj => ((hall t0 ht0').1 j hj).trans (by linarith [hpow t0])) fun j hj =>
      ((hall t0 ht0').2 j hj).trans (by linarith [hpow t0])
  have hga : g * a * G ≤ 1 / 2 := by
    have e1 : 2 * G * (a * (1 + M) + S.nx) * g = 2 * (g * a * G) + 2 * G * (a * M + S.nx) * g := by ring
    have e2 : 0 ≤ 2 * G * (a * M + S.nx) * g := by positivity
    linarith
  have hW2 : W ≤ 2 * (g * (a * M * s) + S.nx * e) := by
    have := mul_le_mul_of_nonneg_right hga hW0
    nlinarith
  have hGW : G * W ≤ 2 * G * (a * (1 + M) + S.nx) * g * s + 2 * G * (a * (1 + M) + S.nx) * e := by
    have e1 := mul_le_mul_of_nonneg_left hW2 hG
    have e2 : 0 ≤ 2 * G * (a + S.nx) * g * s + 2 * G * (a * (1 + M)) * e := by positivity
    nlinarith
  have hfin : M * r ^ t * s + G * W ≤ (M * r ^ t + 2 * G * (a * (1 + M) + S.nx) * g) * s + 2 * G * (a * (1 + M) + S.nx) * e := by linarith
  exact ⟨fun i hi => ((hall t ht).1 i hi).trans hfin, fun i hi => ((hall t ht).2 i hi).trans hfin⟩

/-- enough digits meet the condition of C165 -/
example (G : ℝ) (nx nu : ℕ) : ∃ p : ℕ, Rounds (binary p) (2⁻¹ ^ (p + 1)) 0 ∧ G * stepRel (2⁻¹ ^ (p + 1)) nx nu ≤ 1 := by
  have h1 : Filter.Tendsto (fun p : ℕ => (2⁻¹ : ℝ) ^ (p + 1)) Filter.atTop (nhds 0) :=
    (tendsto_pow_atTop_nhds_zero_of_lt_one (by norm_num) (by norm_num)).comp (Filter.tendsto_add_atTop_nat 1)
  have h2 : Filter.Tendsto (fun p : ℕ => G * stepRel (2⁻¹ ^ (p + 1)) nx nu) Filter.atTop (nhds (G * ((1 + 0) ^ (max nx nu + 1) - 1))) :=
    Filter.Tendsto.const_mul _ (((h1.const_add 1).pow _).sub_const 1)
  have h3 : G * ((1 + 0) ^ (max nx nu + 1) - 1) < 1 := by simp
  obtain ⟨p, hp⟩ := (h2.eventually (gt_mem_nhds h3)).exists
  exact ⟨p, binary_rounds p, hp.le⟩

end Verif.Props
