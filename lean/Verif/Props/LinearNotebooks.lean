import Verif.Model.LinearNotebooks
import Verif.Props.NotebookDesign
import Mathlib.Analysis.SpecialFunctions.Trigonometric.DerivHyp

/- The linear notebooks: C135 and C136 of properties.jsonl. -/
namespace Verif.Props
open Finset Spec Dyn Control Notebook Filter Topology

/-- a linear system discretized with `zero_order_hold` -/
theorem zoh_lin {nx nu : ℕ} {A B : Mat ℝ} (hs : SystemShape nx nu A B (Vec.zeros nx)) {h : ℝ} (hh : 0 ≤ h) :
    ∃ S, LinearSystem.from_continuous A B h .zeroOrderHold = .ok S ∧ S._controllable = none ∧ SystemShape S.nx S.nu S.A S.B (Vec.zeros S.nx) ∧
      S.nx = nx ∧ S.nu = nu ∧ ∀ (x0 u : ℕ → ℝ) (x : ℝ → ℕ → ℝ), SolvesOde nx A B (Vec.zeros nx) u h x → (∀ i < nx, x 0 i = x0 i) →
        ∀ i < nx, x h i = Spec.affine S.A S.B (Vec.zeros S.nx) x0 u i := by
  obtain ⟨Ad, Bd, cd, k1, k2, k3⟩ := (C49 nx nu A B (Vec.zeros nx) hs).1 h hh
  have hc : ∀ i < nx, cd.e i = 0 := by
    intro i hi
    have := (k3 (fun _ => 0) (fun _ => 0)).2 (fun _ _ => 0) (fun t _ i _ => by
      have e : Spec.affine A B (Vec.zeros nx) (fun _ => 0) (fun _ => 0) i = 0 := by
        unfold Spec.affine
        simp [Vec.zeros]
      rw [e]
      exact hasDerivWithinAt_const _ _ _) (fun _ _ => rfl) i hi
    unfold Spec.affine at this
    simpa using this.symm
  obtain ⟨a1, a2, b1, b2, c1⟩ := k2
  have k2' : SystemShape nx nu Ad Bd (Vec.zeros nx) := ⟨a1, a2, b1, b2, rfl⟩
  refine ⟨⟨Ad, Bd, Bd.nr, Bd.nc, none⟩, ?_, rfl, ?_, b1, b2, ?_⟩
  · unfold LinearSystem.from_continuous
    have e : discretize A B (.d1 (Vec.zeros A.nr)) h .zeroOrderHold = .ok (Ad, Bd, cd) := by rw [hs.1]; exact k1
    rw [(Notebook.check_ok hs hh).2.1, Py.ok_bind, e, Py.ok_bind]
    show LinearSystem.init Ad Bd = _
    unfold LinearSystem.init
    rw [(Notebook.check_ok k2' hh).2.2.1, Py.ok_bind]
    rfl
  · show SystemShape Bd.nr Bd.nc Ad Bd (Vec.zeros Bd.nr)
    rw [b1, b2]
    exact k2'
  · intro x0 u x hx h0 i hi
    rw [(k3 x0 u).2 x hx h0 i hi]
    show _ + _ + cd.e i = _ + _ + 0
    rw [hc i hi]

/-- state of the linear pendulum after the time `h`, with constant torque: `w` is the square root of `g / l` and `β` is `1 / (m l ^ 2)` -/
noncomputable def swing (w β h : ℝ) (x u : ℕ → ℝ) (i : ℕ) : ℝ :=
  if i = 0 then Real.cosh (w * h) * x 0 + Real.sinh (w * h) / w * x 1 + (Real.cosh (w * h) - 1) / w ^ 2 * β * u 0
  else w * Real.sinh (w * h) * x 0 + Real.cosh (w * h) * x 1 + Real.sinh (w * h) / w * β * u 0

/-- the system of the linear notebooks -/
theorem linearPendulum_ok {m l g h : ℝ} (hl : 0 < l) (hg : 0 < g) (hh : 0 ≤ h) :
    ∃ S, linearPendulum m l g h = .ok S ∧ S._controllable = none ∧ SystemShape S.nx S.nu S.A S.B (Vec.zeros S.nx) ∧ S.nx = 2 ∧ S.nu = 1 ∧
      ∀ x u : ℕ → ℝ, ∀ i < 2, Spec.affine S.A S.B (Vec.zeros S.nx) x u i = swing (Real.sqrt (g / l)) (1 / (m * l ^ 2)) h x u i := by
  obtain ⟨S, h1, h2, h3, h4, h5, h6⟩ := zoh_lin (nx := 2) (nu := 1) (A := mat [[0, 1], [g / l, 0]]) (B := mat [[0], [1 / (m * l ^ 2)]])
    ⟨rfl, rfl, rfl, rfl, rfl⟩ hh
  refine ⟨S, h1, h2, h3, h4, h5, fun x u i hi => ?_⟩
  set w := Real.sqrt (g / l) with hw
  have hw2 : w ^ 2 = g / l := Real.sq_sqrt (by positivity)
  have hw0 : w ≠ 0 := (Real.sqrt_pos.2 (by positivity)).ne'
  set β := 1 / (m * l ^ 2) with hβ
  refine (h6 x u (fun t => swing w β t x u) ?_ ?_ i hi).symm
  · intro t _ j hj
    have dc : HasDerivAt (fun s : ℝ => Real.cosh (w * s)) (Real.sinh (w * t) * (w * 1)) t := ((hasDerivAt_id t).const_mul w).cosh
    have ds : HasDerivAt (fun s : ℝ => Real.sinh (w * s)) (Real.cosh (w * t) * (w * 1)) t := ((hasDerivAt_id t).const_mul w).sinh
    have e : Spec.affine (mat [[0, 1], [g / l, 0]]) (mat [[0], [β]]) (Vec.zeros 2) (swing w β t x u) u j
        = if j = 0 then swing w β t x u 1 else w ^ 2 * swing w β t x u 0 + β * u 0 := by
      rw [hw2]
      unfold Spec.affine
      show ∑ k ∈ range 2, _ + ∑ k ∈ range 1, _ + 0 = _
      rw [Finset.sum_range_succ, Finset.sum_range_one, Finset.sum_range_one]
      interval_cases j <;> simp [mat]
    rw [e]
    refine HasDerivAt.hasDerivWithinAt ?_
    interval_cases j
    · have := ((dc.mul_const (x 0)).add ((ds.div_const w).mul_const (x 1))).add ((((dc.sub_const 1).div_const (w ^ 2)).mul_const β).mul_const (u 0))
      refine this.congr_deriv ?_
      rw [if_pos rfl]
      unfold swing
      rw [if_neg (by norm_num)]
      field_simp
    · have := (((ds.const_mul w).mul_const (x 0)).add (dc.mul_const (x 1))).add (((ds.div_const w).mul_const β).mul_const (u 0))
      refine this.congr_deriv ?_
      rw [if_neg (by norm_num)]
      unfold swing
      rw [if_pos rfl]
      field_simp
      ring
  · intro j hj
    unfold swing
    interval_cases j <;> simp

/-- two steps of a system with two states and one input -/
theorem steer_pair {nx : ℕ} {A B : Mat ℝ} {p q r s b c : ℝ} (hd : b * (r * b + s * c) - c * (p * b + q * c) ≠ 0) (hnx : nx = 2)
    (hlaw : ∀ x u : ℕ → ℝ, ∀ i < 2, Spec.affine A B (Vec.zeros nx) x u i = if i = 0 then p * x 0 + q * x 1 + b * u 0 else r * x 0 + s * x 1 + c * u 0) :
    Steerable nx A B nx := by
  subst hnx
  intro x y
  set δ := b * (r * b + s * c) - c * (p * b + q * c) with hδ
  -- what the inputs have to add
  let d0 : ℝ := y 0 - (p * (p * x 0 + q * x 1) + q * (r * x 0 + s * x 1))
  let d1 : ℝ := y 1 - (r * (p * x 0 + q * x 1) + s * (r * x 0 + s * x 1))
  let u0 : ℝ := (b * d1 - c * d0) / δ
  let u1 : ℝ := ((r * b + s * c) * d0 - (p * b + q * c) * d1) / δ
  have f0 : (p * b + q * c) * u0 + b * u1 = d0 := by
    simp only [u0, u1]
    field_simp
    rw [hδ]; ring
  have f1 : (r * b + s * c) * u0 + c * u1 = d1 := by
    simp only [u0, u1]
    field_simp
    rw [hδ]; ring
  clear_value u0 u1
  refine ⟨fun t _ => if t = 0 then u0 else u1, fun i hi => ?_⟩
  have e0 : Spec.traj (fun _ => A) (fun _ => B) (fun _ => Vec.zeros 2) x (fun t _ => if t = 0 then u0 else u1) 1 0 = p * x 0 + q * x 1 + b * u0 :=
    hlaw _ _ 0 (by omega)
  have e1 : Spec.traj (fun _ => A) (fun _ => B) (fun _ => Vec.zeros 2) x (fun t _ => if t = 0 then u0 else u1) 1 1 = r * x 0 + s * x 1 + c * u0 :=
    hlaw _ _ 1 (by omega)
  have e2 := hlaw (Spec.traj (fun _ => A) (fun _ => B) (fun _ => Vec.zeros 2) x (fun t _ => if t = 0 then u0 else u1) 1) (fun _ => u1) i hi
  refine e2.trans ?_
  rw [e0, e1]
  simp only [d0, d1] at f0 f1
  interval_cases i
  · rw [if_pos rfl]
    linear_combination f0
  · rw [if_neg (by omega)]
    linear_combination f1

/-- the pendulum is controllable -/
theorem swing_steer {nx : ℕ} {A B : Mat ℝ} {w β h : ℝ} (hw : 0 < w) (hβ : β ≠ 0) (hh : 0 < h) (hnx : nx = 2)
    (hlaw : ∀ x u : ℕ → ℝ, ∀ i < 2, Spec.affine A B (Vec.zeros nx) x u i = swing w β h x u i) : Steerable nx A B nx := by
  have hs : 0 < Real.sinh (w * h) := Real.sinh_pos_iff.2 (by positivity)
  have hc : 1 < Real.cosh (w * h) := Real.one_lt_cosh.2 (by positivity)
  have hcs : Real.cosh (w * h) ^ 2 - Real.sinh (w * h) ^ 2 = 1 := Real.cosh_sq_sub_sinh_sq _
  refine steer_pair (p := Real.cosh (w * h)) (q := Real.sinh (w * h) / w) (r := w * Real.sinh (w * h)) (s := Real.cosh (w * h))
    (b := (Real.cosh (w * h) - 1) / w ^ 2 * β) (c := Real.sinh (w * h) / w * β) ?_ hnx hlaw
  generalize Real.sinh (w * h) = S at *
  generalize Real.cosh (w * h) = C at *
  have : (C - 1) / w ^ 2 * β * (w * S * ((C - 1) / w ^ 2 * β) + C * (S / w * β)) - S / w * β * (C * ((C - 1) / w ^ 2 * β) + S / w * (S / w * β))
      = -2 * S * (C - 1) * β ^ 2 / w ^ 3 := by
    field_simp
    linear_combination hcs
  rw [this]
  have : C - 1 ≠ 0 := by linarith
  positivity

/-- the sets of the linear notebooks -/
theorem linearSets_ok (a b c : ℝ) : ∃ X U D, linearSets a b c = .ok (X, U, D) ∧ X.Inv 2 ∧ X.C.nr = 0 ∧ U.Inv 1 ∧ U.C.nr = 0 ∧ D.Inv 3 ∧ D.C.nr = 0 ∧
    (∀ z, X.Mem z ↔ |z 0| ≤ a ∧ |z 1| ≤ b) ∧ (∀ z, U.Mem z ↔ |z 0| ≤ c) ∧ ∀ z, D.Mem z ↔ |z 0| ≤ a ∧ |z 1| ≤ b ∧ |z 2| ≤ c := by
  obtain ⟨U, h1, -, h2⟩ := dom_bounds 1 (vec [-c]) (vec [c]) one_pos rfl rfl
  obtain ⟨X, h3, -, h4⟩ := dom_bounds 2 (vec [-a, -b]) (vec [a, b]) two_pos rfl rfl
  obtain ⟨D, h5, -, h6⟩ := dom_prod h4 h2
  have mX : ∀ z, X.Mem z ↔ |z 0| ≤ a ∧ |z 1| ≤ b := fun z => by
    rw [h4.mem, forall_lt_two]
    simp [vec, Vec.ofList, abs_le]
  have mU : ∀ z, U.Mem z ↔ |z 0| ≤ c := fun z => by
    rw [h2.mem, forall_lt_one]
    simp [vec, Vec.ofList, abs_le]
  refine ⟨X, U, D, ?_, h4.inv, h4.noeq, h2.inv, h2.noeq, h6.inv, h6.noeq, mX, mU, fun z => ?_⟩
  · unfold linearSets
    rw [h1, Py.ok_bind, h3, Py.ok_bind, h5, Py.ok_bind]
    rfl
  · rw [h6.mem]
    show ((∀ j < 2, _) ∧ (∀ j < 1, _)) ↔ _
    rw [forall_lt_two, forall_lt_one]
    simp [vec, Vec.ofList, abs_le, and_assoc]

/-- the weights of the linear notebooks -/
theorem linear_weights : SymMat 2 (mat [[1, 0], [0, 1]]) ∧ SymMat 1 (mat [[1]]) ∧ (∀ x : ℕ → ℝ, quad (mat [[1, 0], [0, 1]]) x = x 0 ^ 2 + x 1 ^ 2) ∧
    ∀ u : ℕ → ℝ, quad (mat [[1]]) u = u 0 ^ 2 := by
  refine ⟨⟨rfl, rfl, fun i hi j hj => ?_⟩, ⟨rfl, rfl, fun i hi j hj => ?_⟩, fun x => ?_, fun u => ?_⟩
  · interval_cases i <;> interval_cases j <;> simp [mat]
  · interval_cases i; interval_cases j; rfl
  · show ∑ i ∈ range 2, ∑ j ∈ range 2, _ = _
    simp [Finset.sum_range_succ, mat]
    ring
  · show ∑ i ∈ range 1, ∑ j ∈ range 1, _ = _
    simp [mat]
    ring

/-- the arguments of `solve_dare` in the linear notebooks -/
theorem linear_dareArgs {S : LinearSystem} (h1 : S._controllable = none) (h2 : SystemShape S.nx S.nu S.A S.B (Vec.zeros S.nx)) (h3 : S.nx = 2) (h4 : S.nu = 1) :
    DareArgs S (mat [[1, 0], [0, 1]]) (mat [[1]]) := by
  obtain ⟨w1, w2, w3, w4⟩ := linear_weights
  refine ⟨h2, h1, by omega, h3 ▸ w1, h4 ▸ w2, fun x ⟨i, hi, hx⟩ => ?_, fun u ⟨i, hi, hu⟩ => ?_⟩
  · rw [w3]
    rw [h3] at hi
    interval_cases i <;> positivity
  · rw [w4]
    rw [h4] at hi
    interval_cases i
    positivity

/-- the loop of linear_mpc.ipynb along a closed loop -/
theorem mpcLoop_run {L : Lib} {c : MPC} {S : LinearSystem} (hS : SystemShape S.nx S.nu S.A S.B (Vec.zeros S.nx)) {x u : ℕ → Vec ℝ} (h0 : (x 0).n = S.nx)
    (h : ∀ t, c.feedback L (x t) = .ok (some (u t)) ∧ x (t + 1) = ⟨S.nx, Spec.affine S.A S.B (Vec.zeros S.nx) (x t).e (u t).e⟩ ∧ (u t).n = S.nu) :
    ∀ n t, mpcLoop L c S n (x t) = .ok ((List.range n).map fun k => u (t + k), (List.range (n + 1)).map fun k => x (t + k)) := by
  obtain ⟨a1, a2, b1, b2, -⟩ := hS
  have hn : ∀ t, (x t).n = S.nx := fun t => by
    cases t with
    | zero => exact h0
    | succ t => rw [(h t).2.1]
  intro n
  induction n with
  | zero => intro t; rfl
  | succ n ih =>
    intro t
    have k1 : np.dotMV S.A (x t) = .ok ⟨S.A.nr, fun i => ∑ j ∈ range S.A.nc, S.A.e i j * (x t).e j⟩ := if_pos (by rw [a2, hn])
    have k2 : dotAnswer S.B (some (u t)) = .ok (u t, ⟨S.B.nr, fun i => ∑ j ∈ range S.B.nc, S.B.e i j * (u t).e j⟩) := by
      unfold dotAnswer
      have : np.dotMV S.B (u t) = .ok ⟨S.B.nr, fun i => ∑ j ∈ range S.B.nc, S.B.e i j * (u t).e j⟩ := if_pos (by rw [b2, (h t).2.2])
      simp only [this, Py.ok_bind]
      rfl
    have k3 : np.addV (⟨S.A.nr, fun i => ∑ j ∈ range S.A.nc, S.A.e i j * (x t).e j⟩ : Vec ℝ) ⟨S.B.nr, fun i => ∑ j ∈ range S.B.nc, S.B.e i j * (u t).e j⟩
        = .ok (x (t + 1)) := by
      rw [(h t).2.1]
      refine (if_pos (a1.trans b1.symm)).trans (congrArg Except.ok ?_)
      show Vec.mk S.A.nr _ = _
      rw [a1]
      congr 1
      funext i
      show _ = _ + _ + (0 : ℝ)
      rw [add_zero]
    unfold mpcLoop
    rw [(h t).1, Py.ok_bind, k1, Py.ok_bind, k2, Py.ok_bind]
    show (np.addV _ _ >>= _) = _
    rw [k3, Py.ok_bind, ih (t + 1), Py.ok_bind]
    show Except.ok (_, _) = _
    congr 2
    · rw [List.range_succ_eq_map, List.map_cons, List.map_map]
      refine congrArg (List.cons _) (List.map_congr_left fun k _ => ?_)
      show u (t + 1 + k) = u (t + (k + 1))
      rw [Nat.add_right_comm, Nat.add_assoc]
    · rw [List.range_succ_eq_map (n := n + 1), List.map_cons, List.map_map]
      refine congrArg (List.cons _) (List.map_congr_left fun k _ => ?_)
      show x (t + 1 + k) = x (t + (k + 1))
      rw [Nat.add_right_comm, Nat.add_assoc]

/-- the gain of `solve_dare` for the linear notebooks -/
theorem linear_gain {S : LinearSystem} (h : DareArgs S (mat [[1, 0], [0, 1]]) (mat [[1]])) (hnu : 0 < S.nu) (hst : Steerable S.nx S.A S.B S.nx)
    {dare : Mat ℝ → Mat ℝ → Mat ℝ → Mat ℝ → Py (Mat ℝ)} {P : Mat ℝ} (hP : dare S.A S.B (mat [[1, 0], [0, 1]]) (mat [[1]]) = .ok P)
    (hd : DareSpec S.nx S.nu S.A S.B (mat [[1, 0], [0, 1]]) (mat [[1]]) P) :
    (∀ P', dare S.A S.B (mat [[1, 0], [0, 1]]) (mat [[1]]) = .ok P' → DareSpec S.nx S.nu S.A S.B (mat [[1, 0], [0, 1]]) (mat [[1]]) P') ∧
    ∃ K, (LinearSystem.solve_dare dare (mat [[1, 0], [0, 1]]) (mat [[1]]) S).1 = .ok (P, K) := by
  have hspec : ∀ P', dare S.A S.B (mat [[1, 0], [0, 1]]) (mat [[1]]) = .ok P' → DareSpec S.nx S.nu S.A S.B (mat [[1, 0], [0, 1]]) (mat [[1]]) P' := by
    intro P' h'
    rw [hP] at h'
    exact Except.ok.inj h' ▸ hd
  obtain ⟨K, hK, -⟩ := (C53 S.nx S.nu S.A S.B _ _ h.sys.1 h.sys.2.1 h.sys.2.2.1 h.sys.2.2.2.1 h.nx hnu h.symR h.Rpos
    dare ⟨h.symQ.1, h.symQ.2.1⟩ hspec).2.2 hst P hP
  have hS1 : (⟨S.A, S.B, S.nx, S.nu, none⟩ : LinearSystem) = S := by rw [← h.fresh]
  rw [hS1] at hK
  exact ⟨hspec, K, hK⟩

/-- the domain is bounded, with the origin inside -/
theorem linear_domain {D : Poly} {a b c : ℝ} (ha : 0 < a) (hb : 0 < b) (hc : 0 < c) (hm : ∀ z, D.Mem z ↔ |z 0| ≤ a ∧ |z 1| ≤ b ∧ |z 2| ≤ c) :
    OriginInside 3 D ∧ IsBounded 3 D.A D.b D.C D.d := by
  refine ⟨⟨min a (min b c), by positivity, fun x hx => (hm x).2 ⟨?_, ?_, ?_⟩⟩, a + b + c, fun x hx j hj => ?_⟩
  · exact (hx 0 (by omega)).trans (min_le_left _ _)
  · exact (hx 1 (by omega)).trans ((min_le_right _ _).trans (min_le_left _ _))
  · exact (hx 2 (by omega)).trans ((min_le_right _ _).trans (min_le_right _ _))
  · obtain ⟨h0, h1, h2⟩ := (hm x).1 hx
    interval_cases j <;> linarith

/-- C135: the notebook `linear_mpc.ipynb`, for all positive masses, lengths, gravities, steps, bounds and horizons.  The system is the exact discretization of the linear
pendulum, in terms of hyperbolic functions, and is controllable; its Riccati equation has a solution.  If scipy returns a solution, the cells
that design the controller run.  The terminal set contains each state from which `u = K x` respects the bounds forever.  If the controller has no answer, the loop
of the simulation raises `TypeError`.  If the terminal set is invariant (C99 states when), then from each state with an answer of value less than about `5e13` the
loop runs for any number of steps; its states and inputs respect the bounds, and the states go to the origin; and in the terminal set the answer is `K x`. -/
theorem C135 (L : Lib) (hL : LibSpec L) (m l g h a b c : ℝ) (hm : 0 < m) (hl : 0 < l) (hg : 0 < g) (hh : 0 < h) (ha : 0 < a) (hb : 0 < b) (hc : 0 < c)
    (N : ℕ) (hN : 0 < N) :
    ∃ S, linearPendulum m l g h = .ok S ∧ S.nx = 2 ∧ S.nu = 1 ∧
      (∀ x u : ℕ → ℝ, ∀ i < 2, Spec.affine S.A S.B (Vec.zeros 2) x u i = swing (Real.sqrt (g / l)) (1 / (m * l ^ 2)) h x u i) ∧
      Steerable 2 S.A S.B 2 ∧ (∃ P, DareSpec 2 1 S.A S.B (mat [[1, 0], [0, 1]]) (mat [[1]]) P) ∧
      ∀ dare P, dare S.A S.B (mat [[1, 0], [0, 1]]) (mat [[1]]) = .ok P → DareSpec 2 1 S.A S.B (mat [[1, 0], [0, 1]]) (mat [[1]]) P →
        ∃ K T0 D X_N ctrl, (∀ fuel ≥ T0, linearMpc L dare m l g h a b c N fuel = .ok (some (S, K, D, X_N, ctrl))) ∧
          (∀ z, D.Mem z ↔ |z 0| ≤ a ∧ |z 1| ≤ b ∧ |z 2| ≤ c) ∧
          (∀ x0 x, ClosedLoopTraj S K x0 x → (∀ t, |x t 0| ≤ a ∧ |x t 1| ≤ b ∧ |rowVal K 0 (x t)| ≤ c) → X_N.Mem x0) ∧
          (∀ x0 : Vec ℝ, x0.n = 2 → ctrl.feedback L x0 = .ok none → ∀ n, mpcLoop L ctrl S (n + 1) x0 = .error .typeError) ∧
          (Invariant S K D X_N →
            (∀ x : Vec ℝ, x.n = 2 → X_N.Mem x.e → ∃ u, ctrl.feedback L x = .ok (some u) ∧ u.e 0 = rowVal K 0 x.e) ∧
            ∀ (x0 : Vec ℝ) (us : List (Vec ℝ)) (V : ℝ), x0.n = 2 → ctrl.feedforward L x0 = .ok (some us, some V) → V < (1 / (1e-7 : ℝ) ^ 2 - 1) / 2 →
              ∃ x u : ℕ → Vec ℝ, x 0 = x0 ∧ (∀ n, mpcLoop L ctrl S n x0 = .ok ((List.range n).map u, (List.range (n + 1)).map x)) ∧
                (∀ t, |(x t).e 0| ≤ a ∧ |(x t).e 1| ≤ b ∧ |(u t).e 0| ≤ c) ∧ ∀ i < 2, Tendsto (fun t => (x t).e i) atTop (𝓝 0)) := by
  obtain ⟨S, h1, h2, h3, h4, h5, h6⟩ := linearPendulum_ok (m := m) hl hg hh.le
  have hst : Steerable S.nx S.A S.B S.nx := swing_steer (Real.sqrt_pos.2 (by positivity)) (by positivity) hh h4 h6
  have hargs := linear_dareArgs h2 h3 h4 h5
  obtain ⟨P0, hP0⟩ := dare_exists hargs hst
  refine ⟨S, h1, h4, h5, by rw [h4] at h6; exact h6, by rw [h4] at hst; exact hst, ⟨P0, by rw [h4, h5] at hP0; exact hP0⟩, fun dare P hP hd => ?_⟩
  obtain ⟨hspec, K, hK⟩ := linear_gain hargs (by omega) hst hP (by rw [h4, h5]; exact hd)
  obtain ⟨X, U, D, s1, -, -, -, -, s2, s3, -, -, s4⟩ := linearSets_ok a b c
  have e3 : S.nx + S.nu = 3 := by omega
  obtain ⟨hin, hbd⟩ := linear_domain ha hb hc s4
  obtain ⟨T0, X_N, ctrl, t1, t2, t3, t4⟩ := C99_partial L hL S _ _ P K hargs dare hspec hK D (by rw [e3]; exact s2) s3 (by rw [e3]; exact hin)
    (by rw [e3]; exact hbd) N hN
  obtain ⟨-, k1, k2, -⟩ := solve_dare_ok hargs hspec hK
  obtain ⟨hsz, hXC, -⟩ := terminalInvariant_of_mcais L hL S hargs.nx K D h3 ⟨k1, k2⟩ (by rw [e3]; exact s2) s3 ((s4 _).2 (by simp [ha.le, hb.le, hc.le]))
      (by rw [e3]; exact hbd) T0 X_N (t1 T0 le_rfl) N (mat [[1, 0], [0, 1]]) (mat [[1]]) P
  refine ⟨K, T0, D, X_N, ctrl, fun fuel hf => ?_, s4, fun x0 x hx hmem => ?_, fun x0 hx0 hf n => ?_, fun hinv => ?_⟩
  · unfold linearMpc
    rw [h1, Py.ok_bind]
    show ((LinearSystem.solve_dare dare _ _ S).1 >>= _) = _
    rw [hK, Py.ok_bind]
    show (linearSets a b c >>= _) = _
    rw [s1, Py.ok_bind]
    show (LinearSystem.mcais L S K D fuel >>= _) = _
    rw [t1 fuel hf, Py.ok_bind]
    show (MPC.init S N _ _ P D X_N >>= _) = _
    rw [t2, Py.ok_bind]
    rfl
  · refine (mem_noeq hXC _).2 (t3 x0 x hx fun t => (s4 _).2 ?_)
    obtain ⟨q1, q2, q3⟩ := hmem t
    refine ⟨?_, ?_, ?_⟩
    · unfold withInput
      rw [if_pos (by omega)]
      exact q1
    · unfold withInput
      rw [if_pos (by omega)]
      exact q2
    · unfold withInput
      rw [if_neg (by omega), h4]
      have : rowVal K 0 (x t) = ∑ k ∈ range 2, K.e 0 k * x t k := by unfold rowVal; rw [k2, h4]
      rw [this] at q3
      exact q3
  · unfold mpcLoop
    have k1 : np.dotMV S.A x0 = .ok ⟨S.A.nr, fun i => ∑ j ∈ range S.A.nc, S.A.e i j * x0.e j⟩ := if_pos (by rw [h3.2.1, hx0, h4])
    rw [hf, Py.ok_bind, k1, Py.ok_bind]
    rfl
  · have hti : (problem S N (mat [[1, 0], [0, 1]]) (mat [[1]]) P D X_N).TerminalInvariant K := by
      intro x hx
      obtain ⟨i1, i2⟩ := hinv x ((mem_noeq hXC _).2 hx)
      exact ⟨i1.1, i2.1⟩
    obtain ⟨r1, r2⟩ := t4 hti
    refine ⟨fun x hx hmx => ?_, fun x0 us V hn hff hV => ?_⟩
    · obtain ⟨u, u1, u2⟩ := r2 x (hx.trans h4.symm) hmx.1
      exact ⟨u, u1, u2 0 (by omega)⟩
    · obtain ⟨x, u, x1, x2, x3⟩ := r1 x0 us V (hn.trans h4.symm) hff hV
      refine ⟨x, u, x1, fun n => ?_, fun t => ?_, by rw [h4] at x3; exact x3⟩
      · have := mpcLoop_run h3 (by rw [x1, hn, h4]) (fun t => ⟨(x2 t).1, (x2 t).2.1, (x2 t).2.2.1⟩) n 0
        rw [x1] at this
        simpa using this
      · have := (s4 _).1 (x2 t).2.2.2
        rw [h4] at this
        exact this

/-- the closed loop that `simulate_closed_loop` follows -/
theorem closedLoop_run {S : LinearSystem} (hS : SystemShape S.nx S.nu S.A S.B (Vec.zeros S.nx)) {K : Mat ℝ} (k1 : K.nr = S.nu) (k2 : K.nc = S.nx)
    (x0 : Vec ℝ) (hx0 : x0.n = S.nx) : ∃ x : ℕ → Vec ℝ, x 0 = x0 ∧ (∀ n, S.simulate_closed_loop x0 n K = .ok ((List.range (n + 1)).map x)) ∧
      ∀ t, ∀ i < S.nx, (x (t + 1)).e i = Spec.affine S.A S.B (Vec.zeros S.nx) (x t).e (fun s => rowVal K s (x t).e) i := by
  obtain ⟨a1, a2, b1, b2, -⟩ := hS
  have e1 : np.dotMM S.B K = .ok (S.B.mul K) := if_pos (by omega)
  have e2 : np.addM S.A (S.B.mul K) = .ok (S.A.add (S.B.mul K)) := if_pos ⟨by simp [a1, b1], by simp [a2, k2]⟩
  let f : Vec ℝ → Vec ℝ := fun y => (S.A.add (S.B.mul K)).mulVec y
  have hf : ∀ t, (f^[t] x0).n = S.nx := by
    intro t
    cases t with
    | zero => exact hx0
    | succ t => rw [Function.iterate_succ_apply']; exact a1
  refine ⟨fun t => f^[t] x0, rfl, fun n => ?_, fun t i hi => ?_⟩
  · have : ∀ n t, S.closedLoopFrom K (f^[t] x0) n = .ok ((List.range (n + 1)).map fun k => f^[t + k] x0) := by
      intro n
      induction n with
      | zero => intro t; rfl
      | succ n ih =>
        intro t
        have e3 : np.dotMV (S.A.add (S.B.mul K)) (f^[t] x0) = .ok (f^[t + 1] x0) := by
          rw [Function.iterate_succ_apply']
          exact if_pos (by rw [hf]; exact a2)
        rw [LinearSystem.closedLoopFrom, e1, Py.ok_bind, e2, Py.ok_bind, e3, Py.ok_bind, ih, Py.ok_bind, List.range_succ_eq_map (n := n + 1)]
        simp only [List.map_cons, List.map_map, Nat.add_zero]
        have : ((fun k => f^[t + k] x0) ∘ Nat.succ) = fun k => f^[t + 1 + k] x0 := by
          funext k
          show f^[t + (k + 1)] x0 = _
          rw [show t + (k + 1) = t + 1 + k by omega]
        rw [this]
        rfl
    have h0 := this n 0
    simp only [Nat.zero_add] at h0
    exact h0
  · show (f^[t + 1] x0).e i = _
    rw [Function.iterate_succ_apply']
    show ∑ j ∈ range S.A.nc, (S.A.e i j + (S.B.mul K).e i j) * (f^[t] x0).e j = _
    simp only [Spec.affine, add_mul, Finset.sum_add_distrib, a2]
    rw [show (Vec.zeros S.nx : Vec ℝ).e i = 0 from rfl, add_zero]
    congr 1
    have := rowVal_mul (A := S.B) (B := K) (by omega) i (f^[t] x0).e
    unfold rowVal at this
    rw [Mat.mul_nc, k2] at this
    rw [this]
    simp only [rowVal, k2]

/-- C136: the notebook `maximal_constraint_admissible_set.ipynb`, for all positive masses, lengths, gravities, steps and bounds.  If scipy returns a
solution of the Riccati equation, the cells run: `X_cl` contains the states within the bounds for which `K x` is within the bounds of the input, `O_inf` contains each state from which the closed loop
stays in `X_cl`, and the closed loop can be simulated from each state, for any number of steps, and goes to the origin.  If `O_inf` is invariant and contained in `X_cl` (C55
states when), the simulations that start in it stay in `X_cl`. -/
theorem C136 (L : Lib) (hL : LibSpec L) (m l g h a b c : ℝ) (hm : 0 < m) (hl : 0 < l) (hg : 0 < g) (hh : 0 < h) (ha : 0 < a) (hb : 0 < b) (hc : 0 < c) :
    ∃ S, linearPendulum m l g h = .ok S ∧ S.nx = 2 ∧ S.nu = 1 ∧
      ∀ dare P, dare S.A S.B (mat [[1, 0], [0, 1]]) (mat [[1]]) = .ok P → DareSpec 2 1 S.A S.B (mat [[1, 0], [0, 1]]) (mat [[1]]) P →
        ∃ K T0 X_cl O_inf, (∀ fuel ≥ T0, mcaisCells L dare m l g h a b c fuel = .ok (some (S, K, X_cl, O_inf))) ∧
          (∀ x, X_cl.Mem x ↔ |x 0| ≤ a ∧ |x 1| ≤ b ∧ |rowVal K 0 x| ≤ c) ∧
          (∀ x0 x, ClosedLoopTraj S K x0 x → (∀ t, X_cl.Mem (x t)) → O_inf.Mem x0) ∧
          ∀ x0 : Vec ℝ, x0.n = 2 → ∃ x : ℕ → Vec ℝ, (∀ n, S.simulate_closed_loop x0 n K = .ok ((List.range (n + 1)).map x)) ∧
            ClosedLoopTraj S K x0.e (fun t => (x t).e) ∧ (∀ i < 2, Tendsto (fun t => (x t).e i) atTop (𝓝 0)) ∧
            ((∀ y, O_inf.Mem y → X_cl.Mem y ∧ O_inf.Mem (Spec.affine S.A S.B (Vec.zeros 2) y fun s => rowVal K s y)) →
              O_inf.Mem x0.e → ∀ t, X_cl.Mem (x t).e ∧ O_inf.Mem (x t).e) := by
  obtain ⟨S, h1, h2, h3, h4, h5, h6⟩ := linearPendulum_ok (m := m) hl hg hh.le
  have hst : Steerable S.nx S.A S.B S.nx := swing_steer (Real.sqrt_pos.2 (by positivity)) (by positivity) hh h4 h6
  have hargs := linear_dareArgs h2 h3 h4 h5
  refine ⟨S, h1, h4, h5, fun dare P hP hd => ?_⟩
  obtain ⟨hspec, K, hK⟩ := linear_gain hargs (by omega) hst hP (by rw [h4, h5]; exact hd)
  obtain ⟨X, U, D, s1, x1, x2, u1, u2, s2, s3, mX, mU, s4⟩ := linearSets_ok a b c
  have e3 : S.nx + S.nu = 3 := by omega
  obtain ⟨hin, hbd⟩ := linear_domain ha hb hc s4
  obtain ⟨T0, O, ctrl, t1, -, t3, -⟩ := C99_partial L hL S _ _ P K hargs dare hspec hK D (by rw [e3]; exact s2) s3 (by rw [e3]; exact hin)
    (by rw [e3]; exact hbd) 1 one_pos
  obtain ⟨-, k1, k2, -⟩ := solve_dare_ok hargs hspec hK
  obtain ⟨hsz, hOC, -⟩ := terminalInvariant_of_mcais L hL S hargs.nx K D h3 ⟨k1, k2⟩ (by rw [e3]; exact s2) s3 ((s4 _).2 (by simp [ha.le, hb.le, hc.le]))
      (by rw [e3]; exact hbd) T0 O (t1 T0 le_rfl) 1 (mat [[1, 0], [0, 1]]) (mat [[1]]) P
  have d1 : np.dotMM U.A K = .ok (U.A.mul K) := if_pos (by rw [u1.1, k1, h5])
  obtain ⟨q, d2, qA, qb, qC, hq⟩ : ∃ q, Poly.init (U.A.mul K) (.d1 U.b) = .ok q ∧ q.A = U.A.mul K ∧ q.b = U.b ∧ q.C.nr = 0 ∧ q.Inv 2 :=
    ⟨Poly.fresh (U.A.mul K) U.b (Mat.zeros 0 K.nc) (Vec.zeros 0), Poly.init_eq_ok.2 ⟨U.b, rfl, u1.2.1, Or.inl ⟨rfl, rfl, rfl⟩⟩, rfl, rfl, rfl,
      k2.trans h4, u1.2.1, k2.trans h4, rfl⟩
  obtain ⟨Xcl, d3, d4, d5, -⟩ := (C13 2 2 X q x1 hq).1 rfl
  have mcl : ∀ x, Xcl.Mem x ↔ |x 0| ≤ a ∧ |x 1| ≤ b ∧ |rowVal K 0 x| ≤ c := by
    intro x
    rw [d5, mX, and_assoc]
    refine and_congr_right fun _ => and_congr_right fun _ => ?_
    rw [mem_noeq qC, ← mU fun s => rowVal K s x, mem_noeq u2, qA, qb]
    refine forall₂_congr fun i _ => ?_
    rw [rowVal_mul (by rw [u1.1, k1, h5])]
  refine ⟨K, T0, Xcl, O, fun fuel hf => ?_, mcl, fun x0 x hx hmem => ?_, fun x0 hx0 => ?_⟩
  · unfold mcaisCells
    rw [h1, Py.ok_bind]
    show ((LinearSystem.solve_dare dare _ _ S).1 >>= _) = _
    rw [hK, Py.ok_bind]
    show (linearSets a b c >>= _) = _
    rw [s1, Py.ok_bind]
    show (LinearSystem.mcais L S K D fuel >>= _) = _
    rw [t1 fuel hf, Py.ok_bind]
    show (np.dotMM U.A K >>= _) = _
    rw [d1, Py.ok_bind, d2, Py.ok_bind, d3, Py.ok_bind]
    rfl
  · refine (mem_noeq hOC _).2 (t3 x0 x hx fun t => (s4 _).2 ?_)
    obtain ⟨q1, q2, q3⟩ := (mcl _).1 (hmem t)
    refine ⟨?_, ?_, ?_⟩
    · unfold withInput
      rw [if_pos (by omega)]
      exact q1
    · unfold withInput
      rw [if_pos (by omega)]
      exact q2
    · unfold withInput
      rw [if_neg (by omega), h4]
      have : rowVal K 0 (x t) = ∑ k ∈ range 2, K.e 0 k * x t k := by unfold rowVal; rw [k2, h4]
      rw [this] at q3
      exact q3
  · obtain ⟨x, y1, y2, y3⟩ := closedLoop_run h3 k1 k2 x0 (hx0.trans h4.symm)
    have htr : ClosedLoopTraj S K x0.e (fun t => (x t).e) := by
      refine ⟨fun i _ => by show (x 0).e i = _; rw [y1], fun t i hi => ?_⟩
      show (x (t + 1)).e i = _
      rw [y3 t i hi]
      unfold Spec.affine
      rw [h3.2.1, h3.2.2.2.1, show (Vec.zeros S.nx : Vec ℝ).e i = 0 from rfl, add_zero]
      simp only [rowVal, k2]
    refine ⟨x, y2, htr, ?_, fun hinv h0 => ?_⟩
    · have := (C98 S _ _ P K hargs dare hspec hK x0.e _ htr).1
      rwa [h4] at this
    · have : ∀ t, O.Mem (x t).e := by
        intro t
        induction t with
        | zero => rw [y1]; exact h0
        | succ t ih =>
          have := (hinv _ ih).2
          rw [mem_noeq hOC] at this ⊢
          intro i hi
          rw [rowVal_congr' i fun j hj => y3 t j (by rw [hsz.1] at hj; exact hj), h4]
          exact this i hi
      exact fun t => ⟨(hinv _ (this t)).1, this t⟩

/-- the notebook: a pendulum of mass and length 1, steps of 1/10, the bounds 1/2 on angle and velocity and 6 on the torque, horizon 6 -/
example (L : Lib) (hL : LibSpec L) : ∃ S, linearPendulum 1 1 10 (1 / 10) = .ok S ∧ ∃ P, DareSpec 2 1 S.A S.B (mat [[1, 0], [0, 1]]) (mat [[1]]) P ∧
    ∃ K T0 D X_N ctrl, ∀ fuel ≥ T0, linearMpc L (fun _ _ _ _ => .ok P) 1 1 10 (1 / 10) (1 / 2) (1 / 2) 6 6 fuel = .ok (some (S, K, D, X_N, ctrl)) := by
  obtain ⟨S, h1, -, -, -, -, ⟨P, hP⟩, h2⟩ := C135 L hL 1 1 10 (1 / 10) (1 / 2) (1 / 2) 6 (by norm_num) (by norm_num) (by norm_num) (by norm_num)
    (by norm_num) (by norm_num) (by norm_num) 6 (by norm_num)
  obtain ⟨K, T0, D, X_N, ctrl, h3, -⟩ := h2 (fun _ _ _ _ => .ok P) P rfl hP
  exact ⟨S, h1, P, hP, K, T0, D, X_N, ctrl, h3⟩

/-- the other notebook: steps of 1/100, bounds 1 and 15; the origin is in the answer of `mcais`, and stays there -/
example (L : Lib) (hL : LibSpec L) : ∃ S, linearPendulum 1 1 10 (1 / 100) = .ok S ∧ ∃ P, DareSpec 2 1 S.A S.B (mat [[1, 0], [0, 1]]) (mat [[1]]) P ∧
    ∃ K T0 X_cl O_inf, (∀ fuel ≥ T0, mcaisCells L (fun _ _ _ _ => .ok P) 1 1 10 (1 / 100) 1 1 15 fuel = .ok (some (S, K, X_cl, O_inf))) ∧
      O_inf.Mem fun _ => 0 := by
  obtain ⟨S, h1, h4, h5, h2⟩ := C136 L hL 1 1 10 (1 / 100) 1 1 15 (by norm_num) (by norm_num) (by norm_num) (by norm_num)
    (by norm_num) (by norm_num) (by norm_num)
  obtain ⟨S', h1', -, -, -, -, ⟨P, hP⟩, -⟩ := C135 L hL 1 1 10 (1 / 100) 1 1 15 (by norm_num) (by norm_num) (by norm_num) (by norm_num)
    (by norm_num) (by norm_num) (by norm_num) 1 one_pos
  obtain rfl : S' = S := Except.ok.inj (h1'.symm.trans h1)
  obtain ⟨K, T0, X_cl, O, h3, h6, h7, -⟩ := h2 (fun _ _ _ _ => .ok P) P rfl hP
  refine ⟨S', h1, P, hP, K, T0, X_cl, O, h3, h7 _ (fun _ _ => 0) ⟨fun _ _ => rfl, fun t i _ => by simp⟩ fun t => (h6 _).2 ?_⟩
  simp [rowVal]

end Verif.Props
