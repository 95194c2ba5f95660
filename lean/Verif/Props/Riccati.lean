import Verif.Props.MpcStability
import Verif.Math.Riccati

/- The Riccati equation: C132 of properties.jsonl. -/
namespace Verif.Props
open Dyn Spec Finset Matrix Filter Topology

/-- the cost of the first `T` steps -/
noncomputable def runCost (Q R : Mat ℝ) (x u : ℕ → ℕ → ℝ) (T : ℕ) : ℝ := 1 / 2 * ∑ t ∈ range T, (quad Q (x t) + quad R (u t))

/-- the trajectory of `x⁺ = A x + B u` from `x0` -/
noncomputable abbrev linTraj (S : LinearSystem) (x0 : ℕ → ℝ) (u : ℕ → ℕ → ℝ) : ℕ → ℕ → ℝ :=
  Spec.traj (fun _ => S.A) (fun _ => S.B) (fun _ => Vec.zeros S.nx) x0 u

theorem linTraj_add (S : LinearSystem) (x0 : ℕ → ℝ) (u : ℕ → ℕ → ℝ) (t s : ℕ) :
    linTraj S (linTraj S x0 u t) (fun r => u (t + r)) s = linTraj S x0 u (t + s) := by
  induction s with
  | zero => rfl
  | succ s ih =>
    show Spec.affine _ _ _ (linTraj S (linTraj S x0 u t) (fun r => u (t + r)) s) _ = _
    rw [ih]
    rfl

theorem quad_eye (n : ℕ) (x : ℕ → ℝ) : quad (Mat.eye n) x = ∑ i ∈ range n, x i ^ 2 := by
  show ∑ i ∈ range n, ∑ j ∈ range n, _ = _
  refine Finset.sum_congr rfl fun i hi => ?_
  rw [Finset.sum_eq_single i]
  · show x i * (if i = i then (1 : ℝ) else 0) * x i = _
    rw [if_pos rfl]
    ring
  · intro j _ hj
    show x i * (if i = j then (1 : ℝ) else 0) * x j = _
    rw [if_neg (Ne.symm hj)]
    ring
  · exact fun hc => absurd hi hc

theorem eye_sym (n : ℕ) : SymMat n (Mat.eye n) := ⟨rfl, rfl, fun i _ j _ => by
  show (if i = j then (1 : ℝ) else 0) = if j = i then 1 else 0
  simp only [eq_comm]⟩

theorem eye_pos (n : ℕ) (x : ℕ → ℝ) (h : ∃ i < n, x i ≠ 0) : 0 < quad (Mat.eye n) x := by
  rw [quad_eye]
  obtain ⟨i, hi, hx⟩ := h
  exact Finset.sum_pos' (fun j _ => sq_nonneg _) ⟨i, Finset.mem_range.2 hi, by positivity⟩

/-- the Riccati equation of a controllable system has a solution -/
theorem dare_exists {S : LinearSystem} {Q R : Mat ℝ} (h : DareArgs S Q R) (hst : Steerable S.nx S.A S.B S.nx) :
    ∃ P, DareSpec S.nx S.nu S.A S.B Q R P := by
  obtain ⟨a1, a2, b1, b2, -⟩ := h.sys
  have form : ∀ {n : ℕ} {M : Mat ℝ} (_ : M.nr = n) (_ : M.nc = n) (v : Fin n → ℝ), v ⬝ᵥ M.asM n n *ᵥ v = quad M (fun s => if hs : s < n then v ⟨s, hs⟩ else 0) := by
    intro n M m1 m2 v
    rw [quad_asM m1 m2]
    simp
  have pd : ∀ {n : ℕ} {M : Mat ℝ}, SymMat n M → (∀ x, (∃ i < n, x i ≠ 0) → 0 < quad M x) → Math.Pd (M.asM n n) := by
    intro n M hM hpos
    refine ⟨sym_asM hM, fun v hv => ?_⟩
    obtain ⟨i, hi⟩ := Function.ne_iff.1 hv
    rw [form hM.1 hM.2.1]
    exact hpos _ ⟨i, i.2, by simpa using hi⟩
  obtain ⟨P, hP, hr⟩ := Math.ric_exists (A := S.A.asM S.nx S.nx) (B := S.B.asM S.nx S.nu) (Q := Q.asM S.nx S.nx) (R := R.asM S.nu S.nu)
    (pd h.symQ h.Qpos).psd (pd h.symR h.Rpos) (by
      intro x
      obtain ⟨u, hu⟩ := hst (fun s => if hs : s < S.nx then x ⟨s, hs⟩ else 0) (fun _ => 0)
      refine ⟨S.nx, fun t i => linTraj S (fun s => if hs : s < S.nx then x ⟨s, hs⟩ else 0) u t i, fun t s => u t s, ?_, fun t => ?_, ?_⟩
      · funext i
        show (if hs : i.1 < S.nx then x ⟨i, hs⟩ else 0) = _
        rw [dif_pos i.2]
      · funext i
        show Spec.affine S.A S.B (Vec.zeros S.nx) _ (u t) i = _
        simp only [Spec.affine, Pi.add_apply, mulVec, dotProduct, Mat.asM_apply]
        rw [a2, b2, Finset.sum_range, Finset.sum_range]
        exact add_zero _
      · funext i
        exact hu i i.2)
  refine ⟨Mat.ofM P, ⟨rfl, rfl, fun i hi j hj => ?_⟩, fun x => ?_, ?_⟩
  · have := congrFun (congrFun hP.1 ⟨i, hi⟩) ⟨j, hj⟩
    have e : ∀ (i j : Fin S.nx), (Mat.ofM P).e i j = P i j := fun i j => by
      have := congrFun (congrFun (Mat.ofM_asM P) i) j
      exact this
    have e1 := e ⟨i, hi⟩ ⟨j, hj⟩
    have e2 := e ⟨j, hj⟩ ⟨i, hi⟩
    exact e1.trans (this.symm.trans e2.symm)
  · rw [quad_asM (n := S.nx) rfl rfl, Mat.ofM_asM]
    exact hP.2 _
  · simp only [Mat.ofM_asM]
    exact hr

/-- the value of a trajectory with finite cost is not less than `1/2 x0 P x0` -/
theorem dare_lower {S : LinearSystem} {Q R P K : Mat ℝ} (h : DareArgs S Q R)
    {dare : Mat ℝ → Mat ℝ → Mat ℝ → Mat ℝ → Py (Mat ℝ)} (hdare : ∀ P, dare S.A S.B Q R = .ok P → DareSpec S.nx S.nu S.A S.B Q R P)
    (hPK : (LinearSystem.solve_dare dare Q R S).1 = .ok (P, K)) (x0 : ℕ → ℝ) (u : ℕ → ℕ → ℝ) (C : ℝ)
    (hC : ∀ T, runCost Q R (linTraj S x0 u) u T ≤ C) : 1 / 2 * quad P x0 ≤ C := by
  obtain ⟨hP, -, -, hl⟩ := solve_dare_ok h hdare hPK
  have hQ0 := psd_of_pd h.symQ.1 h.symQ.2.1 h.Qpos
  have hR0 := psd_of_pd h.symR.1 h.symR.2.1 h.Rpos
  have hst := Math.tendsto_of_sum_le (f := fun t => 1 / 2 * (quad Q (linTraj S x0 u t) + quad R (u t))) (fun t => by linarith [hQ0 (linTraj S x0 u t), hR0 (u t)])
    (V := C) (fun T => by rw [← Finset.mul_sum]; exact hC T)
  have h2 := hst.const_mul 2
  rw [mul_zero] at h2
  have hx := Math.tendsto_of_quad h.symQ.1 h.symQ.2.1 h.Qpos (x := linTraj S x0 u) (squeeze_zero (fun t => hQ0 _) (fun t => by linarith [hR0 (u t)]) h2)
  have hq : Tendsto (fun N => quad P (linTraj S x0 u N)) atTop (𝓝 0) := by
    have : Tendsto (fun N => quad P (linTraj S x0 u N)) atTop (𝓝 (∑ i ∈ range P.nr, ∑ j ∈ range P.nc, 0 * P.e i j * 0)) := by
      refine tendsto_finset_sum _ fun i hi => tendsto_finset_sum _ fun j hj => ?_
      rw [hP.1.1] at hi
      rw [hP.1.2.1] at hj
      exact ((hx i (Finset.mem_range.1 hi)).mul tendsto_const_nhds).mul (hx j (Finset.mem_range.1 hj))
    simpa using this
  have hlim : Tendsto (fun N => C + 1 / 2 * quad P (linTraj S x0 u N)) atTop (𝓝 (C + 1 / 2 * 0)) := tendsto_const_nhds.add (hq.const_mul _)
  rw [mul_zero, add_zero] at hlim
  refine ge_of_tendsto hlim (Eventually.of_forall fun N => (hl x0 u N).1.trans ?_)
  show runCost Q R (linTraj S x0 u) u N + _ ≤ _
  linarith [hC N]

/-- C132: with positive definite weights and a controllable system the Riccati equation has exactly one positive semidefinite solution `P`; `solve_dare`
returns it with a gain `K`; no input sequence has a cost over the infinite horizon less than `1/2 x0 P x0`, and this cost is attained exactly by the
inputs `u = K x`. -/
theorem C132 (S : LinearSystem) (Q R : Mat ℝ) (h : DareArgs S Q R) (hnu : 0 < S.nu) (hst : Steerable S.nx S.A S.B S.nx) :
    ∃ P, DareSpec S.nx S.nu S.A S.B Q R P ∧
      ∀ dare P', dare S.A S.B Q R = .ok P' → DareSpec S.nx S.nu S.A S.B Q R P' →
        (∀ i < S.nx, ∀ j < S.nx, P'.e i j = P.e i j) ∧
        ∃ K, (LinearSystem.solve_dare dare Q R S).1 = .ok (P', K) ∧
          ∀ x0 : ℕ → ℝ,
            (∀ u C, (∀ T, runCost Q R (linTraj S x0 u) u T ≤ C) → 1 / 2 * quad P x0 ≤ C) ∧
            (∀ u, (∀ T, runCost Q R (linTraj S x0 u) u T ≤ 1 / 2 * quad P x0) ↔ ∀ t, ∀ s < S.nu, u t s = rowVal K s (linTraj S x0 u t)) ∧
            ∃ u, ∀ t, ∀ s < S.nu, u t s = rowVal K s (linTraj S x0 u t) := by
  obtain ⟨P, hP⟩ := dare_exists h hst
  have hsol : ∀ dare P', dare S.A S.B Q R = .ok P' → DareSpec S.nx S.nu S.A S.B Q R P' →
      ∃ K, (LinearSystem.solve_dare dare Q R S).1 = .ok (P', K) := by
    intro dare P' h1 h2
    have hS1 : (⟨S.A, S.B, S.nx, S.nu, none⟩ : LinearSystem) = S := by rw [← h.fresh]
    obtain ⟨K, hK, -⟩ := (C53 S.nx S.nu S.A S.B Q R h.sys.1 h.sys.2.1 h.sys.2.2.1 h.sys.2.2.2.1 h.nx hnu h.symR h.Rpos
      dare ⟨h.symQ.1, h.symQ.2.1⟩ (fun P'' h3 => by rw [h1] at h3; exact Except.ok.inj h3 ▸ h2)).2.2 hst P' h1
    rw [hS1] at hK
    exact ⟨K, hK⟩
  have hspec : ∀ (dare : Mat ℝ → Mat ℝ → Mat ℝ → Mat ℝ → Py (Mat ℝ)) P', dare S.A S.B Q R = .ok P' → DareSpec S.nx S.nu S.A S.B Q R P' →
      ∀ P'', dare S.A S.B Q R = .ok P'' → DareSpec S.nx S.nu S.A S.B Q R P'' := by
    intro dare P' h1 h2 P'' h3
    rw [h1] at h3
    exact Except.ok.inj h3 ▸ h2
  have hQ0 := psd_of_pd h.symQ.1 h.symQ.2.1 h.Qpos
  have hR0 := psd_of_pd h.symR.1 h.symR.2.1 h.Rpos
  -- a feedback law
  have hloop : ∀ (K : Mat ℝ) (x0 : ℕ → ℝ), ∃ u : ℕ → ℕ → ℝ, ∀ t, ∀ s < S.nu, u t s = rowVal K s (linTraj S x0 u t) := by
    intro K x0
    let X : ℕ → ℕ → ℝ := fun t => Nat.rec x0 (fun _ y => Spec.affine S.A S.B (Vec.zeros S.nx) y fun s => rowVal K s y) t
    have hX : ∀ t, linTraj S x0 (fun t s => rowVal K s (X t)) t = X t := by
      intro t
      induction t with
      | zero => rfl
      | succ t ih =>
        show Spec.affine S.A S.B (Vec.zeros S.nx) (linTraj S x0 (fun t s => rowVal K s (X t)) t) _ = _
        rw [ih]
    exact ⟨fun t s => rowVal K s (X t), fun t s _ => by rw [hX]⟩
  -- the cost of the feedback law
  have hup : ∀ dare P' K, dare S.A S.B Q R = .ok P' → DareSpec S.nx S.nu S.A S.B Q R P' → (LinearSystem.solve_dare dare Q R S).1 = .ok (P', K) →
      ∀ (x0 : ℕ → ℝ) u, (∀ t, ∀ s < S.nu, u t s = rowVal K s (linTraj S x0 u t)) → ∀ T, runCost Q R (linTraj S x0 u) u T ≤ 1 / 2 * quad P' x0 := by
    intro dare P' K h1 h2 hPK x0 u hu T
    obtain ⟨-, -, -, hl⟩ := solve_dare_ok h (hspec dare P' h1 h2) hPK
    have : runCost Q R (linTraj S x0 u) u T + 1 / 2 * quad P' (linTraj S x0 u T) = 1 / 2 * quad P' x0 := (hl x0 u T).2.2 fun t _ => hu t
    linarith [h2.2.1 (linTraj S x0 u T)]
  -- two solutions have the same values
  have huniq : ∀ P1 P2, DareSpec S.nx S.nu S.A S.B Q R P1 → DareSpec S.nx S.nu S.A S.B Q R P2 → ∀ x0, quad P1 x0 ≤ quad P2 x0 := by
    intro P1 P2 h1 h2 x0
    obtain ⟨K1, k1⟩ := hsol (fun _ _ _ _ => .ok P1) P1 rfl h1
    obtain ⟨K2, k2⟩ := hsol (fun _ _ _ _ => .ok P2) P2 rfl h2
    obtain ⟨u, hu⟩ := hloop K2 x0
    have := dare_lower h (hspec _ P1 rfl h1) k1 x0 u _ (hup _ P2 K2 rfl h2 k2 x0 u hu)
    linarith
  refine ⟨P, hP, fun dare P' h1 h2 => ⟨?_, ?_⟩⟩
  · intro i hi j hj
    have hq : ∀ x, quad P' x = quad P x := fun x => le_antisymm (huniq _ _ h2 hP x) (huniq _ _ hP h2 x)
    have e : ∀ M : Mat ℝ, SymMat S.nx M → M.e i j =
        1 / 2 * (quad M (fun s => (if s = i then 1 else 0) + if s = j then 1 else 0) - quad M (fun s => if s = i then 1 else 0) - quad M (fun s => if s = j then 1 else 0)) := by
      intro M hM
      have f : ∀ v : ℕ → ℝ, quad M v = (fun k : Fin S.nx => v k) ⬝ᵥ M.asM S.nx S.nx *ᵥ (fun k : Fin S.nx => v k) := quad_asM hM.1 hM.2.1
      have g : ∀ k, ∀ hk : k < S.nx, (fun s : Fin S.nx => if s.1 = k then (1 : ℝ) else 0) = Pi.single ⟨k, hk⟩ 1 := by
        intro k hk
        funext s
        simp [Pi.single_apply, Fin.ext_iff]
      rw [f, f, f]
      have := Math.polar (sym_asM hM) ⟨i, hi⟩ ⟨j, hj⟩
      rw [← g i hi, ← g j hj] at this
      exact this
    rw [e P' h2.1, e P hP.1, hq, hq, hq]
  · obtain ⟨K, hPK⟩ := hsol dare P' h1 h2
    have hq : ∀ x, quad P' x = quad P x := fun x => le_antisymm (huniq _ _ h2 hP x) (huniq _ _ hP h2 x)
    refine ⟨K, hPK, fun x0 => ⟨fun u C hC => ?_, fun u => ⟨fun hT t => ?_, fun hu T => ?_⟩, hloop K x0⟩⟩
    · rw [← hq]
      exact dare_lower h (hspec dare P' h1 h2) hPK x0 u C hC
    · obtain ⟨-, -, -, hl⟩ := solve_dare_ok h (hspec dare P' h1 h2) hPK
      refine (hl x0 u (t + 1)).2.1 (le_antisymm ?_ (hl x0 u (t + 1)).1) t (by omega)
      -- the rest of the trajectory costs at least the terminal cost
      have hrest := dare_lower h (hspec dare P' h1 h2) hPK (linTraj S x0 u (t + 1)) (fun r => u (t + 1 + r))
        (1 / 2 * quad P' x0 - runCost Q R (linTraj S x0 u) u (t + 1)) (fun T => by
          have e := hT (t + 1 + T)
          rw [← hq] at e
          have s : runCost Q R (linTraj S x0 u) u (t + 1 + T) = runCost Q R (linTraj S x0 u) u (t + 1)
              + runCost Q R (linTraj S (linTraj S x0 u (t + 1)) fun r => u (t + 1 + r)) (fun r => u (t + 1 + r)) T := by
            unfold runCost
            rw [Finset.sum_range_add, mul_add]
            simp only [linTraj_add]
          linarith)
      show runCost Q R (linTraj S x0 u) u (t + 1) + 1 / 2 * quad P' (linTraj S x0 u (t + 1)) ≤ _
      linarith
    · rw [← hq]
      exact hup dare P' K h1 h2 hPK x0 u hu T

/-- the double integrator with unit weights -/
example : ∃ S : LinearSystem, DareArgs S (Mat.eye 2) (Mat.eye 1) ∧ 0 < S.nu ∧ Steerable S.nx S.A S.B S.nx := by
  refine ⟨⟨⟨2, 2, fun i j => if i ≤ j then 1 else 0⟩, ⟨2, 1, fun i _ => if i = 1 then 1 else 0⟩, 2, 1, none⟩,
    ⟨⟨rfl, rfl, rfl, rfl, rfl⟩, rfl, by decide, eye_sym 2, eye_sym 1, eye_pos 2, eye_pos 1⟩, by decide, ?_⟩
  intro x y
  refine ⟨fun t _ => if t = 0 then y 0 - x 0 - 2 * x 1 else y 1 - x 1 - (y 0 - x 0 - 2 * x 1), fun i hi => ?_⟩
  have hi : i < 2 := hi
  interval_cases i <;> simp [Spec.traj, Spec.affine, Finset.sum_range_succ] <;> ring

end Verif.Props
