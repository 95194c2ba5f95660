import Verif.Proofs.Notebooks
import Verif.Spec.Contact

/- The systems of the notebooks `hybrid_mpc.ipynb` and `hybrid_mpc_2.ipynb` (C130). -/
namespace Verif.Props
open Dyn Spec Finset Control Notebook

/-- the balls in two domains with `T` and `T'` have radius zero if `v` is orthogonal to their common points -/
theorem flat_ball {n : ℕ} {D E : Poly} {T T'} (hD : Dom n D T) (hE : Dom n E T') {a : ℕ} (ha : a < n)
    (h : ∀ z w : ℕ → ℝ, T 0 z → T' 0 z → T 0 w → T' 0 w → (∀ j, j ≠ a → z j = w j) → z a = w a) {c : ℕ → ℝ} {r : ℝ}
    (hb : SharedBall n D E c r) : r ≤ 0 := by
  by_contra hr
  have hr : 0 < r := not_le.1 hr
  have key : ∀ s : ℝ, |s| ≤ r → T 0 (fun j => c j + if j = a then s else 0) ∧ T' 0 fun j => c j + if j = a then s else 0 := by
    intro s hs
    have hn : Real.sqrt (∑ j ∈ range n, (if j = a then s else 0 : ℝ) ^ 2) ≤ r := by
      rw [Finset.sum_eq_single a]
      · rw [if_pos rfl, Real.sqrt_sq_eq_abs]; exact hs
      · intro j _ hj
        rw [if_neg hj]; ring
      · intro hna
        exact absurd (mem_range.2 ha) hna
    exact ⟨(hD.mem _).1 (hb.1 _ (fun i hi => absurd hi (by rw [hD.noeq]; omega)) hn),
      (hE.mem _).1 (hb.2 _ (fun i hi => absurd hi (by rw [hE.noeq]; omega)) hn)⟩
  obtain ⟨k1, k2⟩ := key 0 (by rw [abs_zero]; exact hr.le)
  obtain ⟨k3, k4⟩ := key r (le_of_eq (abs_of_pos hr))
  have := h _ _ k1 k2 k3 k4 fun j hj => by simp [hj]
  simp at this
  linarith

theorem forall_lt_one {P : ℕ → Prop} : (∀ j < 1, P j) ↔ P 0 :=
  ⟨fun h => h 0 (by omega), fun h j hj => by obtain rfl : j = 0 := by omega
                                             exact h⟩

theorem forall_lt_two {P : ℕ → Prop} : (∀ j < 2, P j) ↔ P 0 ∧ P 1 :=
  ⟨fun h => ⟨h 0 (by omega), h 1 (by omega)⟩, fun h j hj => by
    interval_cases j
    exacts [h.1, h.2]⟩

theorem forall_lt_four {P : ℕ → Prop} : (∀ j < 4, P j) ↔ P 0 ∧ P 1 ∧ P 2 ∧ P 3 :=
  ⟨fun h => ⟨h 0 (by omega), h 1 (by omega), h 2 (by omega), h 3 (by omega)⟩, fun h j hj => by
    interval_cases j
    exacts [h.1, h.2.1, h.2.2.1, h.2.2.2]⟩

/-- the box of a notebook -/
theorem box_ok {L : Lib} (hL : LibSpec L) (lo hi : List ℝ) (h1 : 0 < lo.length) (h2 : hi.length = lo.length) :
    ∃ p, box L lo hi = .ok p ∧ Dom lo.length p fun t z => ∀ j < lo.length, lo.getD j 0 - t ≤ z j ∧ z j ≤ hi.getD j 0 + t := by
  obtain ⟨p, k1, k2, k3⟩ := dom_bounds lo.length (vec lo) (vec hi) h1 rfl h2
  obtain ⟨q, k4, k5⟩ := dom_assert hL h1 k3 k2 ⟨∑ j ∈ range lo.length, (|lo.getD j 0| + |hi.getD j 0|), fun z hz j hj => by
    have hb := hz j hj
    rw [sub_zero, add_zero] at hb
    have hb1 : lo.getD j 0 ≤ z j := hb.1
    have hb2 : z j ≤ hi.getD j 0 := hb.2
    have hs : |lo.getD j 0| + |hi.getD j 0| ≤ ∑ j ∈ range lo.length, (|lo.getD j 0| + |hi.getD j 0|) :=
      Finset.single_le_sum (f := fun j => |lo.getD j 0| + |hi.getD j 0|) (fun i _ => by positivity) (mem_range.2 hj)
    refine le_trans ?_ hs
    rw [abs_le]
    constructor
    · linarith [neg_abs_le (lo.getD j 0), abs_nonneg (hi.getD j 0)]
    · linarith [le_abs_self (hi.getD j 0), abs_nonneg (lo.getD j 0)]⟩
  exact ⟨q, by unfold box; rw [k1, Py.ok_bind, k4], k5⟩

theorem _root_.Verif.Notebook.Dom.congr {n : ℕ} {D : Poly} {T T'} (h : Dom n D T) (he : ∀ t z, T t z ↔ T' t z) : Dom n D T' :=
  ⟨h.inv, h.noeq, h.rows, fun t z => (h.inside t z).trans (he t z)⟩

/-- state and input of the pendulum within the bounds `[a, b]` of the angle, up to `t` -/
def PendulumIn (a b t : ℝ) (z : ℕ → ℝ) : Prop :=
  (a - t ≤ z 0 ∧ z 0 ≤ b + t) ∧ (-1.5 - t ≤ z 1 ∧ z 1 ≤ 1.5 + t) ∧ (-4 - t ≤ z 2 ∧ z 2 ≤ 4 + t)

theorem pendulum_dom {L : Lib} (hL : LibSpec L) (a b : ℝ) :
    ∃ X U, box L [a, -1.5] [b, 1.5] = .ok X ∧ box L [-4] [4] = .ok U ∧ ∃ D, X.cartesian_product U = .ok D ∧ Dom 3 D (PendulumIn a b) := by
  obtain ⟨X, h1, h2⟩ := box_ok hL [a, -1.5] [b, 1.5] (by simp) rfl
  obtain ⟨U, h3, h4⟩ := box_ok hL [-4] [4] (by simp) rfl
  obtain ⟨D, h5, -, h6⟩ := dom_prod h2 h4
  refine ⟨X, U, h1, h3, D, h5, h6.congr fun t z => ?_⟩
  show ((∀ j < 2, _) ∧ (∀ j < 1, _)) ↔ _
  rw [forall_lt_two, forall_lt_one]
  unfold PendulumIn
  simp only [List.getD_cons_zero, List.getD_cons_succ, Nat.add_zero]
  tauto

/-- the laws of the two modes -/
noncomputable def pendulumLaw (m l g k d h : ℝ) (mode : ℕ) (x u : ℕ → ℝ) (i : ℕ) : ℝ :=
  x i + h * if i = 0 then x 1 else if mode = 0 then g / l * x 0 + 1 / (m * l ^ 2) * u 0
    else (g / l - k / m) * x 0 + 1 / (m * l ^ 2) * u 0 + k * d / (m * l)

/-- the system of the notebook -/
theorem pendulum_built {L : Lib} (hL : LibSpec L) (m l g k d : ℝ) {h : ℝ} (hh : 0 ≤ h) :
    ∃ S1 D1 D2 S, pendulum L m l g k d h = .ok (S1, D1, S) ∧ SysLaw 2 1 (.lin S1) (pendulumLaw m l g k d h 0) ∧
      Dom 3 D1 (PendulumIn (-2 * d / l) (d / l)) ∧ Dom 3 D2 (PendulumIn (d / l) (2 * d / l)) ∧
      PwaIs 2 1 [D1, D2] (pendulumLaw m l g k d h) S ∧ S1._controllable = none ∧
      ∃ S2, SysOk (.aff S2) ∧ PWA.init [.lin S1, .aff S2] [D1, D2] = .ok S := by
  obtain ⟨S1, s1, s0, s2⟩ := euler_lin (nx := 2) (nu := 1) (A := mat [[0, 1], [g / l, 0]]) (B := mat [[0], [1 / (m * l ^ 2)]]) ⟨rfl, rfl, rfl, rfl, rfl⟩ hh
  obtain ⟨S2, s3, s4⟩ := euler_aff (nx := 2) (nu := 1) (A := mat [[0, 1], [g / l - k / m, 0]]) (B := mat [[0], [1 / (m * l ^ 2)]])
    (c := vec [0, k * d / (m * l)]) ⟨rfl, rfl, rfl, rfl, rfl⟩ hh
  obtain ⟨X1, U, h1, h2, D1, h3, h4⟩ := pendulum_dom hL (-2 * d / l) (d / l)
  obtain ⟨X2, U', h1', h2', D2, h3', h4'⟩ := pendulum_dom hL (d / l) (2 * d / l)
  rw [h2] at h2'
  obtain rfl := Except.ok.inj h2'
  have l1 : SysLaw 2 1 (.lin S1) (pendulumLaw m l g k d h 0) := by
    refine ⟨s2.1, s2.2.1, s2.2.2.1, fun x u i hi => (s2.2.2.2 x u i hi).trans ?_⟩
    show x i + h * Spec.affine _ _ _ x u i = _
    unfold pendulumLaw Spec.affine
    refine congrArg (fun s => x i + h * s) ?_
    show ∑ j ∈ range 2, _ + ∑ j ∈ range 1, _ + 0 = _
    rw [Finset.sum_range_succ, Finset.sum_range_one, Finset.sum_range_one]
    interval_cases i <;> simp [mat]
  have l2 : SysLaw 2 1 (.aff S2) (pendulumLaw m l g k d h 1) := by
    refine ⟨s4.1, s4.2.1, s4.2.2.1, fun x u i hi => (s4.2.2.2 x u i hi).trans ?_⟩
    show x i + h * Spec.affine _ _ _ x u i = _
    unfold pendulumLaw Spec.affine
    refine congrArg (fun s => x i + h * s) ?_
    show ∑ j ∈ range 2, _ + ∑ j ∈ range 1, _ + _ = _
    rw [Finset.sum_range_succ, Finset.sum_range_one, Finset.sum_range_one]
    interval_cases i <;> simp [mat, vec, Vec.ofList]
  obtain ⟨S, k1, k2⟩ := pwa_built (nx := 2) (nu := 1) (systems := [.lin S1, .aff S2]) (Ds := [D1, D2]) (F := pendulumLaw m l g k d h) (by simp) rfl
    (fun i T hT => by
      match i with
      | 0 => obtain rfl : Sys.lin S1 = T := by simpa using hT
             exact l1
      | 1 => obtain rfl : Sys.aff S2 = T := by simpa using hT
             exact l2
      | i + 2 => simp at hT)
    (fun D hD => by
      rcases List.mem_cons.1 hD with rfl | hD
      · exact ⟨h4.inv, h4.rows⟩
      · obtain rfl := List.mem_singleton.1 hD
        exact ⟨h4'.inv, h4'.rows⟩)
  refine ⟨S1, D1, D2, S, ?_, l1, h4, h4', k2, s0, S2, s4.1, k1⟩
  unfold pendulum pendulumFree pendulumContact
  rw [s1, Py.ok_bind, s3, Py.ok_bind, h1, Py.ok_bind, h1', Py.ok_bind, h2, Py.ok_bind, h3, Py.ok_bind, h3', Py.ok_bind, k1, Py.ok_bind]
  rfl

/-- C130, the notebook `hybrid_mpc.ipynb`: for all positive masses and lengths, and stiffness, gap and step that are not negative, the cells run
and the assertions hold; the system is well posed; a step of `simulate` is made exactly if state and input are within the bounds, up to the
tolerance 1e-7 of `contains`; and the states of every simulation are the ones of the explicit Euler method for the pendulum with the one-sided
spring, except that the force is neglected if the angle is beyond the wall by at most the tolerance. -/
theorem C130_pendulum (L : Lib) (hL : LibSpec L) (m l g k d h : ℝ) (hm : 0 < m) (hl : 0 < l) (hk : 0 ≤ k) (hd : 0 ≤ d) (hh : 0 ≤ h) :
    ∃ S1 D1 S, pendulum L m l g k d h = .ok (S1, D1, S) ∧ S.nx = 2 ∧ S.nu = 1 ∧ S.nm = 2 ∧ PwaOk S ∧ S.is_well_posed L = .ok true ∧
      (∀ x u : Vec ℝ, x.n = 2 → u.n = 1 →
        ((∃ y i, S.simulate x [u] = .ok ([x, y], [i])) ↔
          |l * x.e 0| ≤ 2 * d + l * 1e-7 ∧ |x.e 1| ≤ 1.5 + 1e-7 ∧ |u.e 0| ≤ 4 + 1e-7) ∧
        ((¬ ∃ y i, S.simulate x [u] = .ok ([x, y], [i])) → S.simulate x [u] = .error .valueError)) ∧
      ∀ (x0 : Vec ℝ) (us : List (Vec ℝ)), x0.n = 2 → (∀ v ∈ us, v.n = 1) → ∀ xs ms, S.simulate x0 us = .ok (xs, ms) →
        ∀ (t : ℕ) (x y u : Vec ℝ), xs[t]? = some x → xs[t + 1]? = some y → us[t]? = some u →
          let a := pendulumAcceleration m l g k d (x.e 0) (u.e 0)
          y.n = 2 ∧ y.e 0 = x.e 0 + h * x.e 1 ∧ |y.e 1 - (x.e 1 + h * a)| ≤ h * (k / m * 1e-7) ∧
          (¬ (d < l * x.e 0 ∧ l * x.e 0 ≤ d + l * 1e-7) → y.e 1 = x.e 1 + h * a) := by
  obtain ⟨S1, D1, D2, S, h1, -, h2, h3, h4, -⟩ := pendulum_built hL m l g k d hh
  have hdl : 0 ≤ d / l := by positivity
  have e1 : -2 * d / l = -2 * (d / l) := by ring
  have e2 : 2 * d / l = 2 * (d / l) := by ring
  rw [e1] at h2
  rw [e2] at h3
  have hdist : ∀ θ : ℝ, l * θ - d = l * (θ - d / l) := fun θ => by field_simp
  refine ⟨S1, D1, S, h1, h4.nx, h4.nu, h4.nm, h4.ok, ?_, ?_, ?_⟩
  · -- well posed
    obtain ⟨w, w1, w2⟩ := C60_partial L hL 3 S 1e-7 (by norm_num) (by
      intro i j hij D E hD hE
      rw [h4.domains] at hD hE
      obtain ⟨rfl, rfl⟩ : i = 0 ∧ j = 1 := by
        have : j < 2 := by
          by_contra hge
          rw [List.getElem?_eq_none (show 2 ≤ j by omega)] at hE
          cases hE
        omega
      obtain rfl : D1 = D := by simpa using hD
      obtain rfl : D2 = E := by simpa using hE
      refine ⟨⟨h2.inv, h3.inv, h2.noeq, h3.noeq, ⟨fun _ => 0, (h2.mem _).2 ?_⟩, ⟨fun j => if j = 0 then d / l else 0, (h3.mem _).2 ?_⟩⟩, 0, fun c r _ hb => ?_⟩
      · unfold PendulumIn
        norm_num
        exact hdl
      · unfold PendulumIn
        norm_num
        linarith
      · refine flat_ball h2 h3 (a := 0) (by omega) (fun z w z1 z2 w1 w2 _ => ?_) hb
        have := z1.1.2; have := z2.1.1; have := w1.1.2; have := w2.1.1
        linarith)
    have hw : w = true := w2.2 (by
      intro i j hij D E hD hE c r hb
      rw [h4.domains] at hD hE
      obtain ⟨rfl, rfl⟩ : i = 0 ∧ j = 1 := by
        have : j < 2 := by
          by_contra hge
          rw [List.getElem?_eq_none (show 2 ≤ j by omega)] at hE
          cases hE
        omega
      obtain rfl : D1 = D := by simpa using hD
      obtain rfl : D2 = E := by simpa using hE
      refine le_trans (flat_ball h2 h3 (a := 0) (by omega) (fun z w z1 z2 w1 w2 _ => ?_) hb) (by norm_num)
      have := z1.1.2; have := z2.1.1; have := w1.1.2; have := w2.1.1
      linarith)
    rw [w1, hw]
  · intro x u hx hu
    obtain ⟨r1, r2⟩ := h4.runs hx hu
    have z0 : (x.append u).e 0 = x.e 0 := Vec.append_e_lt _ _ (by omega)
    have z1 : (x.append u).e 1 = x.e 1 := Vec.append_e_lt _ _ (by omega)
    have z2 : (x.append u).e 2 = u.e 0 := by rw [← hx]; exact Vec.append_e_add x u 0
    refine ⟨r1.trans ?_, fun hno => r2 fun hyes => hno (r1.2 hyes)⟩
    have e : (∃ D ∈ [D1, D2], InsideTol 1e-7 D (x.append u).e) ↔
        PendulumIn (-2 * (d / l)) (d / l) 1e-7 (x.append u).e ∨ PendulumIn (d / l) (2 * (d / l)) 1e-7 (x.append u).e := by
      rw [← h2.tol, ← h3.tol]
      simp
    rw [e]
    unfold PendulumIn
    rw [z0, z1, z2]
    have e3 : |l * x.e 0| ≤ 2 * d + l * 1e-7 ↔ |x.e 0| ≤ 2 * (d / l) + 1e-7 := by
      rw [abs_mul, abs_of_pos hl, ← mul_le_mul_iff_right₀ hl (b := |x.e 0|)]
      rw [show l * (2 * (d / l) + 1e-7) = 2 * d + l * 1e-7 by field_simp]
    rw [e3, abs_le, abs_le, abs_le]
    constructor
    · rintro (⟨⟨a1, a2⟩, ⟨a3, a4⟩, a5, a6⟩ | ⟨⟨a1, a2⟩, ⟨a3, a4⟩, a5, a6⟩) <;>
        exact ⟨⟨by linarith, by linarith⟩, ⟨by linarith, by linarith⟩, by linarith, by linarith⟩
    · rintro ⟨⟨a1, a2⟩, ⟨a3, a4⟩, a5, a6⟩
      rcases le_total (x.e 0) (d / l) with hle | hle
      · exact .inl ⟨⟨by linarith, by linarith⟩, ⟨by linarith, by linarith⟩, by linarith, by linarith⟩
      · exact .inr ⟨⟨by linarith, by linarith⟩, ⟨by linarith, by linarith⟩, by linarith, by linarith⟩
  · intro x0 us hx0 hus xs ms hsim t x y u hx hy hu a
    obtain ⟨n1, n2, n3, i, -, hi, hf, hlaw⟩ := h4.step hx0 hus hsim hx hy hu
    have z0 : (x.append u).e 0 = x.e 0 := Vec.append_e_lt _ _ (by omega)
    have z1 : (x.append u).e 1 = x.e 1 := Vec.append_e_lt _ _ (by omega)
    have z2 : (x.append u).e 2 = u.e 0 := by rw [← n1]; exact Vec.append_e_add x u 0
    have q1 := hlaw 1 (by omega)
    have ha : a = g / l * x.e 0 + 1 / (m * l ^ 2) * u.e 0 - k / m * max (x.e 0 - d / l) 0 := by
      show (m * g * l * x.e 0 + u.e 0 - l * (k * max (l * x.e 0 - d) 0)) / (m * l ^ 2) = _
      rw [hdist, show max (l * (x.e 0 - d / l)) 0 = l * max (x.e 0 - d / l) 0 by rw [mul_max_of_nonneg _ _ hl.le, mul_zero]]
      field_simp
    have hkm : 0 ≤ k / m := by positivity
    have hcond : (d < l * x.e 0 ∧ l * x.e 0 ≤ d + l * 1e-7) ↔ d / l < x.e 0 ∧ x.e 0 ≤ d / l + 1e-7 := by
      rw [div_lt_iff₀' hl, ← mul_le_mul_iff_right₀ hl (b := x.e 0), show l * (d / l + 1e-7) = d + l * 1e-7 by field_simp]
    refine ⟨n3, ?_, ?_⟩
    · rw [hlaw 0 (by omega)]
      rfl
    rw [hcond, ha, q1]
    unfold pendulumLaw
    rw [if_neg (by omega)]
    obtain ⟨⟨D, hD, hin⟩, hno⟩ := hf
    rw [h4.domains] at hD hno
    rcases (show i = 0 ∨ i = 1 by have : i < 2 := hi; omega) with rfl | rfl
    · obtain rfl : D1 = D := by simpa using hD
      rw [h2.tol] at hin
      obtain ⟨⟨b1, b2⟩, -⟩ := hin
      rw [z0] at b1 b2
      rw [if_pos rfl]
      rcases le_or_gt (x.e 0) (d / l) with hle | hgt
      · rw [max_eq_right (by linarith)]
        have e0 : x.e 1 + h * (g / l * x.e 0 + 1 / (m * l ^ 2) * u.e 0) =
          x.e 1 + h * (g / l * x.e 0 + 1 / (m * l ^ 2) * u.e 0 - k / m * 0) := by ring
        refine ⟨?_, fun _ => e0⟩
        rw [e0, sub_self, abs_zero]
        positivity
      · rw [max_eq_left (by linarith)]
        refine ⟨?_, fun hc => absurd ⟨hgt, b2⟩ hc⟩
        rw [show x.e 1 + h * (g / l * x.e 0 + 1 / (m * l ^ 2) * u.e 0) -
          (x.e 1 + h * (g / l * x.e 0 + 1 / (m * l ^ 2) * u.e 0 - k / m * (x.e 0 - d / l))) = h * (k / m * (x.e 0 - d / l)) by ring,
          abs_of_nonneg (mul_nonneg hh (mul_nonneg hkm (by linarith)))]
        exact mul_le_mul_of_nonneg_left (mul_le_mul_of_nonneg_left (by linarith) hkm) hh
    · obtain rfl : D2 = D := by simpa using hD
      rw [h3.tol] at hin
      have hno0 := hno 0 (by omega) D1 rfl
      rw [h2.tol] at hno0
      obtain ⟨⟨b1, b2⟩, b3, b4⟩ := hin
      rw [z0] at b1 b2
      have hgt : d / l < x.e 0 := by
        by_contra hle
        refine hno0 ⟨⟨?_, ?_⟩, b3, b4⟩ <;> rw [z0]
        · linarith
        · linarith [show (0 : ℝ) ≤ 1e-7 by norm_num]
      rw [max_eq_left (by linarith), if_neg (by omega)]
      have e0 : x.e 1 + h * ((g / l - k / m) * x.e 0 + 1 / (m * l ^ 2) * u.e 0 + k * d / (m * l)) =
          x.e 1 + h * (g / l * x.e 0 + 1 / (m * l ^ 2) * u.e 0 - k / m * (x.e 0 - d / l)) := by
        have : k * d / (m * l) = k / m * (d / l) := by field_simp
        rw [this]; ring
      refine ⟨?_, fun _ => e0⟩
      rw [e0, sub_self, abs_zero]
      positivity

/-- state and input of the cart-pole within the bounds, up to `t` -/
def CartBox (d angle t : ℝ) (z : ℕ → ℝ) : Prop :=
  (-(1.5 * d) - t ≤ z 0 ∧ z 0 ≤ 1.5 * d + t) ∧ (-angle - t ≤ z 1 ∧ z 1 ≤ angle + t) ∧ (-7 - t ≤ z 2 ∧ z 2 ≤ 7 + t) ∧
    (-5 - t ≤ z 3 ∧ z 3 ≤ 5 + t) ∧ (-100 - t ≤ z 4 ∧ z 4 ≤ 100 + t)

theorem cart_dom {L : Lib} (hL : LibSpec L) (d angle : ℝ) (F : Mat ℝ) (f : List ℝ) (hF : F.nc = 4) (hf : f.length = F.nr) :
    ∃ X U, cartDomain L [1.5 * d, angle, 7, 5] F f = .ok X ∧ Poly.from_bounds (.arr (.d1 (vec [-100]))) (.arr (.d1 (vec [100]))) = .ok U ∧
      ∃ D, X.cartesian_product U = .ok D ∧ Dom 5 D fun t z => CartBox d angle t z ∧ ∀ i < F.nr, rowVal F i z ≤ f.getD i 0 + t := by
  obtain ⟨X, h1, h2, h3⟩ := dom_bounds 4 (vec [1.5 * d, angle, 7, 5]).neg (vec [1.5 * d, angle, 7, 5]) (by omega) rfl rfl
  obtain ⟨X', h4, h5, h6⟩ := dom_add h3 (f := vec f) hF hf
  obtain ⟨X'', h7, h8⟩ := dom_assert hL (by omega) h6 h5 ⟨|1.5 * d| + |angle| + 12, fun z hz j hj => by
    have := abs_nonneg (1.5 * d)
    have := abs_nonneg angle
    have hb := forall_lt_four.1 hz.1
    obtain ⟨⟨b1, b2⟩, ⟨b3, b4⟩, ⟨b5, b6⟩, b7, b8⟩ := hb
    have c1 : -(1.5 * d) - 0 ≤ z 0 := b1
    have c2 : z 0 ≤ 1.5 * d + 0 := b2
    have c3 : -angle - 0 ≤ z 1 := b3
    have c4 : z 1 ≤ angle + 0 := b4
    have c5 : -7 - 0 ≤ z 2 := b5
    have c6 : z 2 ≤ 7 + 0 := b6
    have c7 : -5 - 0 ≤ z 3 := b7
    have c8 : z 3 ≤ 5 + 0 := b8
    have := le_abs_self (1.5 * d)
    have := le_abs_self angle
    rw [abs_le]
    interval_cases j <;> constructor <;> linarith⟩
  obtain ⟨U, k1, k2, k3⟩ := dom_bounds 1 (vec [-100]) (vec [100]) (by omega) rfl rfl
  obtain ⟨D, k4, -, k5⟩ := dom_prod h8 k3
  refine ⟨X'', U, ?_, k1, D, k4, k5.congr fun t z => ?_⟩
  · unfold cartDomain
    rw [h1, Py.ok_bind, h4, Py.ok_bind, h7]
  · rw [forall_lt_four, forall_lt_one]
    constructor
    · rintro ⟨⟨⟨a1, a2, a3, a4⟩, a5⟩, a6⟩
      exact ⟨⟨a1, a2, a3, a4, a6⟩, a5⟩
    · rintro ⟨⟨a1, a2, a3, a4, a6⟩, a5⟩
      exact ⟨⟨⟨a1, a2, a3, a4⟩, a5⟩, a6⟩

/-- the laws of the three modes -/
noncomputable def cartLaw (mc mp l d k g h : ℝ) (mode : ℕ) (x u : ℕ → ℝ) (i : ℕ) : ℝ :=
  x i + h * if i = 0 then x 2 else if i = 1 then x 3 else if i = 2 then g * mp / mc * x 1 + 1 / mc * u 0
    else if mode = 1 then g * (mc + mp) / (l * mc) * x 1 + 1 / (l * mc) * u 0
    else k / (l * mp) * x 0 + (g * mp ^ 2 + g * mc * mp - k * l * mc) / (l * mc * mp) * x 1 + 1 / (l * mc) * u 0
      + (if mode = 0 then d * k else -(d * k)) / (l * mp)

/-- the system of the notebook -/
theorem cart_built {L : Lib} (hL : LibSpec L) (mc mp l d k g angle : ℝ) {h : ℝ} (hh : 0 ≤ h) :
    ∃ S2 D1 D2 D3 S, cartPole L mc mp l d k g h angle = .ok (S2, D2, S) ∧ SysLaw 4 1 (.lin S2) (cartLaw mc mp l d k g h 1) ∧
      Dom 5 D1 (fun t z => CartBox d angle t z ∧ z 0 - l * z 1 ≤ -d + t) ∧
      Dom 5 D2 (fun t z => CartBox d angle t z ∧ -(z 0 - l * z 1) ≤ d + t ∧ z 0 - l * z 1 ≤ d + t) ∧
      Dom 5 D3 (fun t z => CartBox d angle t z ∧ -(z 0 - l * z 1) ≤ -d + t) ∧
      PwaIs 4 1 [D1, D2, D3] (cartLaw mc mp l d k g h) S ∧ S2._controllable = none ∧
      ∃ S1 S3, SysOk (.aff S1) ∧ SysOk (.aff S3) ∧ PWA.init [.aff S1, .lin S2, .aff S3] [D1, D2, D3] = .ok S := by
  obtain ⟨S1, s1, t1⟩ := euler_aff (nx := 4) (nu := 1) (A := cartWallA mc mp l k g) (B := cartB mc l)
    (c := vec [0, 0, 0, (d * k) / (l * mp)]) ⟨rfl, rfl, rfl, rfl, rfl⟩ hh
  obtain ⟨S2, s2, t0, t2⟩ := euler_lin (nx := 4) (nu := 1) (A := cartFreeA mc mp l g) (B := cartB mc l) ⟨rfl, rfl, rfl, rfl, rfl⟩ hh
  obtain ⟨S3, s3, t3⟩ := euler_aff (nx := 4) (nu := 1) (A := cartWallA mc mp l k g) (B := cartB mc l)
    (c := vec [0, 0, 0, -(d * k) / (l * mp)]) ⟨rfl, rfl, rfl, rfl, rfl⟩ hh
  obtain ⟨X1, U, a1, a2, D1, a3, a4⟩ := cart_dom hL d angle (mat [[1, -l, 0, 0]]) [-d] rfl rfl
  obtain ⟨X2, U', b1, b2, D2, b3, b4⟩ := cart_dom hL d angle (mat [[-1, l, 0, 0], [1, -l, 0, 0]]) [d, d] rfl rfl
  obtain ⟨X3, U'', c1, c2, D3, c3, c4⟩ := cart_dom hL d angle (mat [[-1, l, 0, 0]]) [-d] rfl rfl
  rw [a2] at b2 c2
  obtain rfl := Except.ok.inj b2
  obtain rfl := Except.ok.inj c2
  have l1 : SysLaw 4 1 (.aff S1) (cartLaw mc mp l d k g h 0) := by
    refine ⟨t1.1, t1.2.1, t1.2.2.1, fun x u i hi => (t1.2.2.2 x u i hi).trans ?_⟩
    show x i + h * Spec.affine _ _ _ x u i = _
    unfold cartLaw Spec.affine
    refine congrArg (fun s => x i + h * s) ?_
    show ∑ j ∈ range 4, _ + ∑ j ∈ range 1, _ + _ = _
    rw [Finset.sum_range_succ, Finset.sum_range_succ, Finset.sum_range_succ, Finset.sum_range_one, Finset.sum_range_one]
    interval_cases i <;> simp [mat, vec, Vec.ofList, cartWallA, cartB]
  have l2 : SysLaw 4 1 (.lin S2) (cartLaw mc mp l d k g h 1) := by
    refine ⟨t2.1, t2.2.1, t2.2.2.1, fun x u i hi => (t2.2.2.2 x u i hi).trans ?_⟩
    show x i + h * Spec.affine _ _ _ x u i = _
    unfold cartLaw Spec.affine
    refine congrArg (fun s => x i + h * s) ?_
    show ∑ j ∈ range 4, _ + ∑ j ∈ range 1, _ + 0 = _
    rw [Finset.sum_range_succ, Finset.sum_range_succ, Finset.sum_range_succ, Finset.sum_range_one, Finset.sum_range_one]
    interval_cases i <;> simp [mat, cartFreeA, cartB]
  have l3 : SysLaw 4 1 (.aff S3) (cartLaw mc mp l d k g h 2) := by
    refine ⟨t3.1, t3.2.1, t3.2.2.1, fun x u i hi => (t3.2.2.2 x u i hi).trans ?_⟩
    show x i + h * Spec.affine _ _ _ x u i = _
    unfold cartLaw Spec.affine
    refine congrArg (fun s => x i + h * s) ?_
    show ∑ j ∈ range 4, _ + ∑ j ∈ range 1, _ + _ = _
    rw [Finset.sum_range_succ, Finset.sum_range_succ, Finset.sum_range_succ, Finset.sum_range_one, Finset.sum_range_one]
    interval_cases i <;> simp [mat, vec, Vec.ofList, cartWallA, cartB]
  obtain ⟨S, k1, k2⟩ := pwa_built (nx := 4) (nu := 1) (systems := [.aff S1, .lin S2, .aff S3]) (Ds := [D1, D2, D3])
    (F := cartLaw mc mp l d k g h) (by simp) rfl
    (fun i T hT => by
      match i with
      | 0 => obtain rfl : Sys.aff S1 = T := by simpa using hT
             exact l1
      | 1 => obtain rfl : Sys.lin S2 = T := by simpa using hT
             exact l2
      | 2 => obtain rfl : Sys.aff S3 = T := by simpa using hT
             exact l3
      | i + 3 => simp at hT)
    (fun D hD => by
      rcases List.mem_cons.1 hD with rfl | hD
      · exact ⟨a4.inv, a4.rows⟩
      · rcases List.mem_cons.1 hD with rfl | hD
        · exact ⟨b4.inv, b4.rows⟩
        · obtain rfl := List.mem_singleton.1 hD
          exact ⟨c4.inv, c4.rows⟩)
  have r1 : ∀ (i : ℕ) (z : ℕ → ℝ), rowVal (mat [[1, -l, 0, 0]]) i z = if i = 0 then z 0 - l * z 1 else 0 := by
    intro i z
    show ∑ j ∈ range 4, _ = _
    rw [Finset.sum_range_succ, Finset.sum_range_succ, Finset.sum_range_succ, Finset.sum_range_one]
    cases i <;> simp [mat]
    ring
  have r3 : ∀ (i : ℕ) (z : ℕ → ℝ), rowVal (mat [[-1, l, 0, 0]]) i z = if i = 0 then -(z 0 - l * z 1) else 0 := by
    intro i z
    show ∑ j ∈ range 4, _ = _
    rw [Finset.sum_range_succ, Finset.sum_range_succ, Finset.sum_range_succ, Finset.sum_range_one]
    cases i <;> simp [mat]
    ring
  have r2 : ∀ z : ℕ → ℝ, rowVal (mat [[-1, l, 0, 0], [1, -l, 0, 0]]) 0 z = -(z 0 - l * z 1) ∧
      rowVal (mat [[-1, l, 0, 0], [1, -l, 0, 0]]) 1 z = z 0 - l * z 1 := by
    intro z
    constructor <;> show ∑ j ∈ range 4, _ = _ <;>
      rw [Finset.sum_range_succ, Finset.sum_range_succ, Finset.sum_range_succ, Finset.sum_range_one] <;> simp [mat] <;> ring
  refine ⟨S2, D1, D2, D3, S, ?_, l2, a4.congr fun t z => and_congr_right fun _ => ?_, b4.congr fun t z => and_congr_right fun _ => ?_,
    c4.congr fun t z => and_congr_right fun _ => ?_, k2, t0, S1, S3, t1.1, t3.1, k1⟩
  · unfold cartPole
    simp only [s1, s2, s3, Py.ok_bind]
    rw [a1, Py.ok_bind, b1, Py.ok_bind, c1, Py.ok_bind, a2, Py.ok_bind, a3, Py.ok_bind, b3, Py.ok_bind, c3, Py.ok_bind, k1, Py.ok_bind]
    rfl
  · show (∀ i < 1, _) ↔ _
    rw [forall_lt_one, r1]
    rfl
  · show (∀ i < 2, _) ↔ _
    rw [forall_lt_two, (r2 z).1, (r2 z).2]
    rfl
  · show (∀ i < 1, _) ↔ _
    rw [forall_lt_one, r3]
    rfl

/-- C130, the notebook `hybrid_mpc_2.ipynb`: the same for the cart-pole between two walls. -/
theorem C130_cart (L : Lib) (hL : LibSpec L) (mc mp l d k g h angle : ℝ) (hmc : 0 < mc) (hmp : 0 < mp) (hl : 0 < l) (hd : 0 ≤ d) (hk : 0 ≤ k)
    (hh : 0 ≤ h) (hang : 0 ≤ angle) :
    ∃ S2 D2 S, cartPole L mc mp l d k g h angle = .ok (S2, D2, S) ∧ S.nx = 4 ∧ S.nu = 1 ∧ S.nm = 3 ∧ PwaOk S ∧ S.is_well_posed L = .ok true ∧
      (∀ x u : Vec ℝ, x.n = 4 → u.n = 1 →
        ((∃ y i, S.simulate x [u] = .ok ([x, y], [i])) ↔ |x.e 0| ≤ 1.5 * d + 1e-7 ∧ |x.e 1| ≤ angle + 1e-7 ∧ |x.e 2| ≤ 7 + 1e-7 ∧
          |x.e 3| ≤ 5 + 1e-7 ∧ |u.e 0| ≤ 100 + 1e-7) ∧
        ((¬ ∃ y i, S.simulate x [u] = .ok ([x, y], [i])) → S.simulate x [u] = .error .valueError)) ∧
      ∀ (x0 : Vec ℝ) (us : List (Vec ℝ)), x0.n = 4 → (∀ v ∈ us, v.n = 1) → ∀ xs ms, S.simulate x0 us = .ok (xs, ms) →
        ∀ (t : ℕ) (x y u : Vec ℝ), xs[t]? = some x → xs[t + 1]? = some y → us[t]? = some u →
          let tip := x.e 0 - l * x.e 1
          let a := poleAcceleration mc mp l g k d (x.e 0) (x.e 1) (u.e 0)
          y.n = 4 ∧ y.e 0 = x.e 0 + h * x.e 2 ∧ y.e 1 = x.e 1 + h * x.e 3 ∧ y.e 2 = x.e 2 + h * ((g * mp * x.e 1 + u.e 0) / mc) ∧
          |y.e 3 - (x.e 3 + h * a)| ≤ h * (k / (l * mp) * 1e-7) ∧
          (¬ (-d < tip ∧ tip ≤ -d + 1e-7) → ¬ (d < tip ∧ tip ≤ d + 1e-7) → y.e 3 = x.e 3 + h * a) := by
  obtain ⟨S2, D1, D2, D3, S, h1, -, h2, h3, h4, h5, -⟩ := cart_built hL mc mp l d k g angle hh
  refine ⟨S2, D2, S, h1, h5.nx, h5.nu, h5.nm, h5.ok, ?_, ?_, ?_⟩
  · -- any two domains
    have flat : ∀ i j : ℕ, i < j → ∀ D E, S.domains[i]? = some D → S.domains[j]? = some E → PairOk 5 D E ∧ ∀ c r, SharedBall 5 D E c r → r ≤ 0 := by
      intro i j hij D E hD hE
      rw [h5.domains] at hD hE
      have hj : j < 3 := by
        by_contra hge
        rw [List.getElem?_eq_none (show 3 ≤ j by omega)] at hE
        cases hE
      have ne1 : ∃ z, D1.Mem z := ⟨fun j => if j = 0 then -d else 0, (h2.mem _).2 ⟨by unfold CartBox; norm_num; exact ⟨⟨by linarith, by linarith⟩, hang⟩, by norm_num⟩⟩
      have ne2 : ∃ z, D2.Mem z := ⟨fun _ => 0, (h3.mem _).2 ⟨by unfold CartBox; norm_num; exact ⟨hd, hang⟩, by norm_num; exact hd⟩⟩
      have ne3 : ∃ z, D3.Mem z := ⟨fun j => if j = 0 then d else 0, (h4.mem _).2 ⟨by unfold CartBox; norm_num; exact ⟨⟨by linarith, by linarith⟩, hang⟩, by norm_num⟩⟩
      obtain ⟨rfl, rfl⟩ | ⟨rfl, rfl⟩ | ⟨rfl, rfl⟩ : (i = 0 ∧ j = 1) ∨ (i = 0 ∧ j = 2) ∨ (i = 1 ∧ j = 2) := by omega
      · obtain rfl : D1 = D := by simpa using hD
        obtain rfl : D2 = E := by simpa using hE
        refine ⟨⟨h2.inv, h3.inv, h2.noeq, h3.noeq, ne1, ne2⟩, fun c r hb => flat_ball h2 h3 (a := 0) (by omega) (fun z w z1 z2 w1 w2 he => ?_) hb⟩
        have := z1.2; have := z2.2.1; have := w1.2; have := w2.2.1
        rw [he 1 (by omega)] at *
        linarith
      · obtain rfl : D1 = D := by simpa using hD
        obtain rfl : D3 = E := by simpa using hE
        refine ⟨⟨h2.inv, h4.inv, h2.noeq, h4.noeq, ne1, ne3⟩, fun c r hb => flat_ball h2 h4 (a := 0) (by omega) (fun z w z1 z2 w1 w2 he => ?_) hb⟩
        have := z1.2; have := z2.2; have := w1.2; have := w2.2
        rw [he 1 (by omega)] at *
        linarith
      · obtain rfl : D2 = D := by simpa using hD
        obtain rfl : D3 = E := by simpa using hE
        refine ⟨⟨h3.inv, h4.inv, h3.noeq, h4.noeq, ne2, ne3⟩, fun c r hb => flat_ball h3 h4 (a := 0) (by omega) (fun z w z1 z2 w1 w2 he => ?_) hb⟩
        have := z1.2.2; have := z2.2; have := w1.2.2; have := w2.2
        rw [he 1 (by omega)] at *
        linarith
    obtain ⟨w, w1, w2⟩ := C60_partial L hL 5 S 1e-7 (by norm_num) fun i j hij D E hD hE =>
      ⟨(flat i j hij D E hD hE).1, 0, fun c r _ hb => (flat i j hij D E hD hE).2 c r hb⟩
    have hw : w = true := w2.2 fun i j hij D E hD hE c r hb => ((flat i j hij D E hD hE).2 c r hb).trans (by norm_num)
    rw [w1, hw]
  · intro x u hx hu
    obtain ⟨r1, r2⟩ := h5.runs hx hu
    have z0 : (x.append u).e 0 = x.e 0 := Vec.append_e_lt _ _ (by omega)
    have z1 : (x.append u).e 1 = x.e 1 := Vec.append_e_lt _ _ (by omega)
    have z2 : (x.append u).e 2 = x.e 2 := Vec.append_e_lt _ _ (by omega)
    have z3 : (x.append u).e 3 = x.e 3 := Vec.append_e_lt _ _ (by omega)
    have z4 : (x.append u).e 4 = u.e 0 := by rw [← hx]; exact Vec.append_e_add x u 0
    refine ⟨r1.trans ?_, fun hno => r2 fun hyes => hno (r1.2 hyes)⟩
    have e : (∃ D ∈ [D1, D2, D3], InsideTol 1e-7 D (x.append u).e) ↔ CartBox d angle 1e-7 (x.append u).e := by
      constructor
      · rintro ⟨D, hD, hin⟩
        rcases List.mem_cons.1 hD with rfl | hD
        · exact ((h2.tol _ _).1 hin).1
        · rcases List.mem_cons.1 hD with rfl | hD
          · exact ((h3.tol _ _).1 hin).1
          · obtain rfl := List.mem_singleton.1 hD
            exact ((h4.tol _ _).1 hin).1
      · intro hb
        have h7 : (0 : ℝ) ≤ 1e-7 := by norm_num
        rcases le_or_gt ((x.append u).e 0 - l * (x.append u).e 1) (-d) with c1 | c1
        · exact ⟨D1, by simp, (h2.tol _ _).2 ⟨hb, by linarith⟩⟩
        · rcases le_or_gt ((x.append u).e 0 - l * (x.append u).e 1) d with c2 | c2
          · exact ⟨D2, by simp, (h3.tol _ _).2 ⟨hb, by linarith, by linarith⟩⟩
          · exact ⟨D3, by simp, (h4.tol _ _).2 ⟨hb, by linarith⟩⟩
    rw [e]
    unfold CartBox
    rw [z0, z1, z2, z3, z4, abs_le, abs_le, abs_le, abs_le, abs_le]
    constructor
    · rintro ⟨⟨a1, a2⟩, ⟨a3, a4⟩, ⟨a5, a6⟩, ⟨a7, a8⟩, a9, a10⟩
      exact ⟨⟨by linarith, a2⟩, ⟨by linarith, a4⟩, ⟨by linarith, a6⟩, ⟨by linarith, a8⟩, by linarith, a10⟩
    · rintro ⟨⟨a1, a2⟩, ⟨a3, a4⟩, ⟨a5, a6⟩, ⟨a7, a8⟩, a9, a10⟩
      exact ⟨⟨by linarith, a2⟩, ⟨by linarith, a4⟩, ⟨by linarith, a6⟩, ⟨by linarith, a8⟩, by linarith, a10⟩
  · intro x0 us hx0 hus xs ms hsim t x y u hx hy hu tip a
    obtain ⟨n1, n2, n3, i, -, hi, hf, hlaw⟩ := h5.step hx0 hus hsim hx hy hu
    have z0 : (x.append u).e 0 = x.e 0 := Vec.append_e_lt _ _ (by omega)
    have z1 : (x.append u).e 1 = x.e 1 := Vec.append_e_lt _ _ (by omega)
    have htip : (x.append u).e 0 - l * (x.append u).e 1 = tip := by rw [z0, z1]
    have hkm : 0 ≤ k / (l * mp) := by positivity
    have h7 : (0 : ℝ) ≤ 1e-7 := by norm_num
    refine ⟨n3, by rw [hlaw 0 (by omega)]; rfl, by rw [hlaw 1 (by omega)]; rfl, ?_, ?_⟩
    · rw [hlaw 2 (by omega)]
      show x.e 2 + h * (g * mp / mc * x.e 1 + 1 / mc * u.e 0) = _
      ring
    -- the force of the mode
    have key : ∀ δ : ℝ, y.e 3 = x.e 3 + h * (g * (mc + mp) / (l * mc) * x.e 1 + u.e 0 / (l * mc) + k / (l * mp) * δ) →
        |δ - (max (tip - d) 0 - max (-d - tip) 0)| ≤ 1e-7 →
        (¬ (-d < tip ∧ tip ≤ -d + 1e-7) → ¬ (d < tip ∧ tip ≤ d + 1e-7) → δ = max (tip - d) 0 - max (-d - tip) 0) →
        |y.e 3 - (x.e 3 + h * a)| ≤ h * (k / (l * mp) * 1e-7) ∧
          (¬ (-d < tip ∧ tip ≤ -d + 1e-7) → ¬ (d < tip ∧ tip ≤ d + 1e-7) → y.e 3 = x.e 3 + h * a) := by
      intro δ e1 e2 e3
      have ha : a = g * (mc + mp) / (l * mc) * x.e 1 + u.e 0 / (l * mc) + k / (l * mp) * (max (tip - d) 0 - max (-d - tip) 0) := by
        show g * (mc + mp) / (l * mc) * x.e 1 + u.e 0 / (l * mc) + (k * max (tip - d) 0 - k * max (-d - tip) 0) / (l * mp) = _
        ring
      rw [ha]
      refine ⟨?_, fun c1 c2 => by rw [e1, e3 c1 c2]⟩
      rw [e1, show ∀ A B C D E : ℝ, A + h * (B + C + k / (l * mp) * D) - (A + h * (B + C + k / (l * mp) * E)) = h * (k / (l * mp) * (D - E)) from
        fun A B C D E => by ring, abs_mul, abs_mul, abs_of_nonneg hh, abs_of_nonneg hkm]
      exact mul_le_mul_of_nonneg_left (mul_le_mul_of_nonneg_left e2 hkm) hh
    have q3 := hlaw 3 (by omega)
    obtain ⟨⟨D, hD, hin⟩, hno⟩ := hf
    rw [h5.domains] at hD hno
    obtain rfl | rfl | rfl : i = 0 ∨ i = 1 ∨ i = 2 := by have : i < 3 := hi; omega
    · obtain rfl : D1 = D := by simpa using hD
      rw [h2.tol, htip] at hin
      refine key (tip + d) (q3.trans ?_) ?_ fun c1 c2 => ?_
      · show x.e 3 + h * (k / (l * mp) * x.e 0 + (g * mp ^ 2 + g * mc * mp - k * l * mc) / (l * mc * mp) * x.e 1 + 1 / (l * mc) * u.e 0
          + d * k / (l * mp)) = x.e 3 + h * (g * (mc + mp) / (l * mc) * x.e 1 + u.e 0 / (l * mc) + k / (l * mp) * (x.e 0 - l * x.e 1 + d))
        field_simp
        ring
      · have := hin.2
        rcases le_or_gt tip (-d) with c | c
        · rw [max_eq_right (by linarith), max_eq_left (by linarith), abs_le]
          constructor <;> linarith
        · rw [max_eq_right (show -d - tip ≤ 0 by linarith), abs_le]
          rcases le_total (tip - d) 0 with c' | c'
          · rw [max_eq_right c']; constructor <;> linarith
          · rw [max_eq_left c']; constructor <;> linarith
      · have hle : tip ≤ -d := by
          by_contra hgt
          exact c1 ⟨not_le.1 hgt, hin.2⟩
        rw [max_eq_right (by linarith), max_eq_left (by linarith)]
        ring
    · obtain rfl : D2 = D := by simpa using hD
      rw [h3.tol, htip] at hin
      have hno0 := hno 0 (by omega) D1 rfl
      rw [h2.tol, htip] at hno0
      have hgt : -d < tip := by
        by_contra hle
        exact hno0 ⟨hin.1, by linarith⟩
      have := hin.2.2
      refine key 0 (q3.trans ?_) ?_ fun c1 c2 => ?_
      · show x.e 3 + h * (g * (mc + mp) / (l * mc) * x.e 1 + 1 / (l * mc) * u.e 0) = _
        ring
      · rw [max_eq_right (show -d - tip ≤ 0 by linarith), abs_le]
        rcases le_total (tip - d) 0 with c' | c'
        · rw [max_eq_right c']; constructor <;> linarith
        · rw [max_eq_left c']; constructor <;> linarith
      · have hle : tip ≤ d := by
          by_contra hgt'
          exact c2 ⟨not_le.1 hgt', hin.2.2⟩
        rw [max_eq_right (by linarith), max_eq_right (by linarith)]
        ring
    · obtain rfl : D3 = D := by simpa using hD
      rw [h4.tol, htip] at hin
      have hno1 := hno 1 (by omega) D2 rfl
      rw [h3.tol, htip] at hno1
      have hgt : d < tip := by
        by_contra hle
        exact hno1 ⟨hin.1, by linarith [hin.2], by linarith⟩
      refine key (tip - d) (q3.trans ?_) ?_ fun c1 c2 => ?_
      · show x.e 3 + h * (k / (l * mp) * x.e 0 + (g * mp ^ 2 + g * mc * mp - k * l * mc) / (l * mc * mp) * x.e 1 + 1 / (l * mc) * u.e 0
          + -(d * k) / (l * mp)) = x.e 3 + h * (g * (mc + mp) / (l * mc) * x.e 1 + u.e 0 / (l * mc) + k / (l * mp) * (x.e 0 - l * x.e 1 - d))
        field_simp
        ring
      · rw [max_eq_left (by linarith), max_eq_right (by linarith)]
        norm_num
      · rw [max_eq_left (by linarith), max_eq_right (by linarith)]
        ring

/-- the state `x0 = (0, 0.8)` of `hybrid_mpc.ipynb` with the input zero: the simulation makes a step, and the next velocity is `.8` -/
example (L : Lib) (hL : LibSpec L) : ∃ S1 D1 S, pendulum L 1 1 10 100 0.1 0.01 = .ok (S1, D1, S) ∧
    ∃ y i, S.simulate (vec [0, 0.8]) [vec [0]] = .ok ([vec [0, 0.8], y], [i]) ∧ y.e 0 = 0.008 ∧ y.e 1 = 0.8 := by
  obtain ⟨S1, D1, S, h1, -, -, -, -, -, h2, h3⟩ := C130_pendulum L hL 1 1 10 100 0.1 0.01 (by norm_num) (by norm_num) (by norm_num) (by norm_num) (by norm_num)
  obtain ⟨y, i, hs⟩ := (h2 (vec [0, 0.8]) (vec [0]) rfl rfl).1.2 (by
    simp only [vec, Vec.ofList, List.getD_cons_zero, List.getD_cons_succ]
    norm_num [abs_of_pos])
  obtain ⟨-, k1, -, k2⟩ := h3 (vec [0, 0.8]) [vec [0]] rfl (by simp [vec, Vec.ofList]) _ _ hs 0 (vec [0, 0.8]) y (vec [0]) rfl rfl rfl
  refine ⟨S1, D1, S, h1, y, i, hs, ?_, ?_⟩
  · rw [k1]
    simp only [vec, Vec.ofList, List.getD_cons_zero, List.getD_cons_succ]
    norm_num
  · rw [k2 (by simp only [vec, Vec.ofList, List.getD_cons_zero]; norm_num)]
    simp only [vec, Vec.ofList, List.getD_cons_zero, List.getD_cons_succ, pendulumAcceleration]
    norm_num

/-- the state `x0 = (0, 0, 2.5, 0)` of `hybrid_mpc_2.ipynb` with the input zero -/
example (L : Lib) (hL : LibSpec L) : ∃ S2 D2 S, cartPole L 1 1 1 1 100 10 0.05 0.5 = .ok (S2, D2, S) ∧
    ∃ y i, S.simulate (vec [0, 0, 2.5, 0]) [vec [0]] = .ok ([vec [0, 0, 2.5, 0], y], [i]) ∧ y.e 0 = 0.125 ∧ y.e 3 = 0 := by
  obtain ⟨S2, D2, S, h1, -, -, -, -, -, h2, h3⟩ := C130_cart L hL 1 1 1 1 100 10 0.05 0.5 (by norm_num) (by norm_num) (by norm_num) (by norm_num)
    (by norm_num) (by norm_num) (by norm_num)
  obtain ⟨y, i, hs⟩ := (h2 (vec [0, 0, 2.5, 0]) (vec [0]) rfl rfl).1.2 (by
    simp only [vec, Vec.ofList, List.getD_cons_zero, List.getD_cons_succ]
    norm_num [abs_of_pos])
  obtain ⟨-, k1, -, -, -, k2⟩ := h3 (vec [0, 0, 2.5, 0]) [vec [0]] rfl (by simp [vec, Vec.ofList]) _ _ hs 0 (vec [0, 0, 2.5, 0]) y (vec [0]) rfl rfl rfl
  refine ⟨S2, D2, S, h1, y, i, hs, ?_, ?_⟩
  · rw [k1]
    simp only [vec, Vec.ofList, List.getD_cons_zero, List.getD_cons_succ]
    norm_num
  · rw [k2 (by simp only [vec, Vec.ofList, List.getD_cons_zero, List.getD_cons_succ]; norm_num)
      (by simp only [vec, Vec.ofList, List.getD_cons_zero, List.getD_cons_succ]; norm_num)]
    simp only [vec, Vec.ofList, List.getD_cons_zero, List.getD_cons_succ, poleAcceleration]
    norm_num

end Verif.Props
