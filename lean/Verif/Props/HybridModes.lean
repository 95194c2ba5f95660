import Verif.Props.HybridValue

/- A controller that answers a wrong value (C73), and the mpQP of the optimal modes (C74). -/
namespace Verif.Props
open Finset Spec Dyn Control

/-- `x⁺ = x + u` for `|x| ≤ 1`, `|u| ≤ 1` -/
noncomputable def oneMode : PWA := ⟨1, 1, [⟨⟨1, 1, fun _ _ => 1⟩, ⟨1, 1, fun _ _ => 1⟩, ⟨1, fun _ => 0⟩, 1, 1⟩], [strip (-1) 1], 1⟩

/-- `x ≥ 1` -/
def beyond1 : Poly := Poly.fresh ⟨1, 1, fun _ _ => -1⟩ ⟨1, fun _ => -1⟩ (Mat.zeros 0 1) (Vec.zeros 0)

theorem oneMode_pwa : PwaShape oneMode :=
  ⟨rfl, rfl, one_pos, fun T hT => by
      simp only [oneMode, List.mem_cons, List.not_mem_nil, or_false] at hT
      subst hT
      exact ⟨⟨rfl, rfl, rfl, rfl, rfl⟩, rfl, rfl⟩, fun D hD => by
      simp only [oneMode, List.mem_cons, List.not_mem_nil, or_false] at hD
      subst hD
      exact ⟨rfl, rfl⟩⟩

theorem oneMode_int : IntSys oneMode :=
  ⟨rfl, rfl, fun T hT => by
      simp only [oneMode, List.mem_cons, List.not_mem_nil, or_false] at hT
      exact ⟨1, 0, Or.inl rfl, by rw [hT]; norm_num⟩, fun D hD => by
      simp only [oneMode, List.mem_cons, List.not_mem_nil, or_false] at hD
      exact ⟨-1, 1, by norm_num, by rw [hD]; norm_num⟩⟩

theorem oneMode_dom {i : ℕ} (hi : i < oneMode.nm) : domAt oneMode i = strip (-1) 1 := by
  have hi : i < 1 := hi
  interval_cases i
  rfl

theorem oneMode_good : GoodDomains oneMode := by
  refine ⟨fun j hj => ?_, fun j hj => ?_, fun j hj => ?_, fun j hj => ?_⟩
  all_goals rw [oneMode_dom hj]
  · exact ⟨rfl, rfl, rfl, rfl⟩
  · show 0 < 4
    norm_num
  · exact ⟨fun _ => 0, (strip_mem _).2 (by norm_num)⟩
  · refine ⟨1, fun w hw k hk => ?_⟩
    obtain ⟨a, b, c, d⟩ := (strip_mem w).1 hw
    have hk : k < 2 := hk
    interval_cases k
    · exact abs_le.2 ⟨by linarith, by linarith⟩
    · exact abs_le.2 ⟨by linarith, by linarith⟩

/-- the weight `r` of the input -/
def weight (r : ℝ) : Mat ℝ := ⟨1, 1, fun _ _ => r⟩

theorem weight_quad (r : ℝ) (u : ℕ → ℝ) : quad (weight r) u = r * u 0 ^ 2 := by
  simp [quad, weight]; ring

theorem oneMode_args (r : ℝ) : HybArgs oneMode 1 (Mat.zeros 1 1) (weight r) (Mat.zeros 1 1) beyond1 :=
  ⟨oneMode_pwa, one_pos, ⟨rfl, rfl, fun _ _ _ _ => rfl⟩, ⟨rfl, rfl, fun _ _ _ _ => rfl⟩, ⟨rfl, rfl⟩, ⟨rfl, rfl⟩⟩

theorem oneMode_weights {r : ℝ} (hr : 0 < r) : Weights 1 1 (Mat.zeros 1 1) (weight r) (Mat.zeros 1 1) :=
  ⟨⟨rfl, rfl, fun _ _ _ _ => rfl⟩, ⟨rfl, rfl, fun _ _ _ _ => rfl⟩, ⟨rfl, rfl, fun _ _ _ _ => rfl⟩, fun x => by simp [quad, Mat.zeros],
    fun x => by simp [quad, Mat.zeros], fun u ⟨s, hs, h⟩ => by
      obtain rfl : s = 0 := by omega
      rw [weight_quad]; positivity⟩

theorem oneMode_noEq (r : ℝ) : (hyb oneMode 1 (Mat.zeros 1 1) (weight r) (Mat.zeros 1 1) beyond1).NoEq := by
  refine ⟨fun i hi => ?_, rfl⟩
  show (domAt oneMode i).C.nr = 0
  rw [oneMode_dom hi]
  rfl

/-- from `x = 0` the only feasible input is `1` -/
theorem oneMode_feas (r : ℝ) (m : ℕ → ℕ) (u : ℕ → ℕ → ℝ) :
    (hyb oneMode 1 (Mat.zeros 1 1) (weight r) (Mat.zeros 1 1) beyond1).IneqFeas (fun _ => 0) m u ↔ m 0 = 0 ∧ u 0 0 = 1 := by
  constructor
  · rintro ⟨h1, h2, h3⟩
    have h1 : m 0 < 1 := h1 0 one_pos
    have hm : m 0 = 0 := by omega
    have h2 : IneqHold (domAt oneMode (m 0)).A (domAt oneMode (m 0)).b (pair 1 (fun _ => 0) (u 0)) := h2 0 one_pos
    rw [oneMode_dom h1] at h2
    have h4 := (strip_mem _).1 ⟨h2, eqHold_of_noEq rfl _⟩
    have h3 := h3 0 one_pos
    simp [hyb, beyond1, Poly.fresh, rowVal, HybOcp.x, Spec.traj, Spec.affine, hm, oneMode] at h3
    simp [pair] at h4
    exact ⟨hm, by linarith⟩
  · rintro ⟨hm, hu⟩
    refine ⟨fun t ht => ?_, fun t ht => ?_, fun i hi => ?_⟩
    · have ht : t < 1 := ht
      interval_cases t
      rw [hm]
      exact one_pos
    · have ht : t < 1 := ht
      interval_cases t
      show IneqHold (domAt oneMode (m 0)).A (domAt oneMode (m 0)).b (pair 1 (fun _ => 0) (u 0))
      rw [hm]
      exact ((strip_mem _).2 (by norm_num [pair, hu])).1
    · have hi : i < 1 := hi
      interval_cases i
      simp [hyb, beyond1, Poly.fresh, rowVal, HybOcp.x, Spec.traj, Spec.affine, hm, oneMode, hu]

theorem oneMode_cost (r : ℝ) (x : ℕ → ℝ) (m : ℕ → ℕ) (u : ℕ → ℕ → ℝ) :
    (hyb oneMode 1 (Mat.zeros 1 1) (weight r) (Mat.zeros 1 1) beyond1).cost x m u = r / 2 * u 0 0 ^ 2 := by
  have z : ∀ y : ℕ → ℝ, quad (Mat.zeros 1 1) y = 0 := fun y => by simp [quad, Mat.zeros]
  show lqCost _ _ _ _ _ 1 = _
  unfold lqCost
  show 1 / 2 * ∑ t ∈ range 1, (quad (Mat.zeros 1 1) _ + quad (weight r) (u t)) + 1 / 2 * quad (Mat.zeros 1 1) _ = _
  rw [Finset.sum_range_one, z, z, weight_quad]
  ring

/-- C73 is false: there is exactly one feasible trajectory, with cost `5e-10`; whatever the optimizer answers, the answer is not a trajectory with
its cost (the weights of at most `1e-9` do not reach the optimizer, the value is `0`). -/
theorem C73_false : ∃ (S : PWA) (N : ℕ) (Q R P : Mat ℝ) (X_N : Poly) (x : Vec ℝ), HybArgs S N Q R P X_N ∧ Weights S.nx S.nu Q R P ∧ GoodDomains S ∧
    (hyb S N Q R P X_N).NoEq ∧ x.n = S.nx ∧ (∃ m u, (hyb S N Q R P X_N).Feas x.e m u) ∧
    ∀ L G, LibSpec L → GurobiSpec G → ∃ c, HMPC.init L S N Q R P X_N = .ok c ∧
      ¬ ∃ a, c.feedforward G x = .ok (some a) ∧ Consistent (hyb S N Q R P X_N) x.e a := by
  refine ⟨oneMode, 1, Mat.zeros 1 1, weight 1e-9, Mat.zeros 1 1, beyond1, ⟨1, fun _ => 0⟩, oneMode_args _, oneMode_weights (by norm_num), oneMode_good, oneMode_noEq _, rfl,
    ⟨fun _ => 0, fun _ _ => 1, (feas_iff_ineq (oneMode_noEq _) _ _ _).2 ((oneMode_feas _ _ _).2 ⟨rfl, rfl⟩)⟩, fun L G hL hG => ?_⟩
  obtain ⟨c, h1, -, -⟩ := C72 L hL oneMode 1 _ _ _ beyond1 (oneMode_args 1e-9) one_pos oneMode_good
  refine ⟨c, h1, ?_⟩
  rintro ⟨a, ha, hc⟩
  have hV := hc.value
  rw [oneMode_cost] at hV
  have hu := ((oneMode_feas _ _ _).1 hc.feas).2
  rw [hu] at hV
  obtain ⟨-, -, -, hsh, -, -⟩ := init_inv (oneMode_args 1e-9) h1
  have hV0 : a.V = 0 := by
    unfold HMPC.feedforward at ha
    obtain ⟨s, k1, ha⟩ := Py.bind_eq_ok ha
    cases hm : s.min with
    | none => rw [hm] at ha; cases ha
    | some V =>
      have hv : V = 1 / 2 * quad c.mpmiqp.Hxx (fun _ => 0) := by
        have h1' := h1
        unfold HMPC.init at h1'
        obtain ⟨⟨al, be⟩, e1, h1'⟩ := Py.bind_eq_ok h1'
        obtain ⟨ga, e2, h1'⟩ := Py.bind_eq_ok h1'
        obtain ⟨q, e3, h1'⟩ := Py.bind_eq_ok h1'
        cases h1'
        obtain ⟨t1, t2, t3⟩ := cost_entries (p := fun a => |a| ≤ 1e-9) (by norm_num) oneMode_pwa one_pos ⟨rfl, rfl⟩ ⟨rfl, rfl⟩
          (fun _ _ _ _ => by norm_num [Mat.zeros]) (fun _ _ _ _ => by norm_num [weight]) (fun _ _ _ _ => by norm_num [Mat.zeros]) e3
        exact solve_tiny hG hsh rfl t1 t2 (fun i hi => by rw [t3 _ i hi]; norm_num) k1 hm
      have h0 : quad c.mpmiqp.Hxx (fun _ => 0) = 0 := by simp [quad]
      rw [h0, mul_zero] at hv
      cases g1 : s.u <;> cases g2 : s.z <;> cases g3 : s.d <;> simp only [hm, g1, g2, g3] at ha <;> try (cases ha)
      obtain ⟨a', h4, h5⟩ := Py.bind_eq_ok ha
      cases h5
      unfold HMPC.unpack at h4
      obtain ⟨xs, -, h4⟩ := Py.bind_eq_ok h4
      obtain ⟨ms, -, h4⟩ := Py.bind_eq_ok h4
      cases h4
      exact hv
  rw [hV0] at hV
  norm_num at hV

/-- C74, what holds: for a program without tiny entries at `x` and without equalities, `get_mpqp` of the returned modes can be solved at `x`; if it has
a minimum it is the value of the answer, and it has one if that value is below `5e13`.  Missing with respect to C74: greater values, for which
`solve` can return `None` (false, see `C74_false`), tiny entries and equalities (see C73, C75). -/
theorem C74_partial (L : Lib) (hL : LibSpec L) (G : Gurobi) (hG : GurobiSpec G) (S : PWA) (N : ℕ) (Q R P : Mat ℝ) (X_N : Poly)
    (h : HybArgs S N Q R P X_N) (hw : Weights S.nx S.nu Q R P) (hnx : 0 < S.nx) (hg : GoodDomains S) (hno : (hyb S N Q R P X_N).NoEq) (c : HMPC)
    (hrun : HMPC.init L S N Q R P X_N = .ok c) (x : Vec ℝ) (hx : x.n = S.nx) (ht : MiNoTiny c.mpmiqp x.e) (a : HMPC.Answer)
    (ha : c.feedforward G x = .ok (some a)) :
    ∃ q s, c.get_mpqp a.modes = .ok q ∧ q.solve L x = .ok s ∧ (∀ V, s.min = some V → V = a.V) ∧
      (a.V < (1 / (1e-7 : ℝ) ^ 2 - 1) / 2 → s.min = some a.V) := by
  obtain ⟨⟨cS, cN, cQ, cR, cP, cX⟩, -⟩ := init_inv h hrun
  obtain ⟨o, k1, k2, k3⟩ := C73_partial L hL G hG S N Q R P X_N h hw hnx hg c hrun x hx ht
  rw [ha] at k1
  cases Except.ok.inj k1
  obtain ⟨hc, -⟩ := k2 a rfl
  have hopt := (k3 hno).2 a rfl
  have hlen : a.modes.length = N := hc.modes
  obtain ⟨q, q1, q2, q3, q4, q5⟩ := mpqp_modes h hw (l := a.modes) hlen (fun m hm => by
    obtain ⟨t, ht, rfl⟩ := List.getElem_of_mem hm
    rw [← List.getD_eq_getElem _ 0 ht]
    exact hc.feas.1 t (by rw [hlen] at ht; exact ht))
  obtain ⟨s, s1, s2, s3⟩ := MpQP.solve_cost hL q2 (q5 hg.rows) hx
  have hmt : ∀ t < N, a.modes.getD t 0 = a.modes.getD t 0 := fun _ _ => rfl
  have hu : ∀ t < N, ∀ k < S.nu, inputsOf a.u t k = unflat S.nu (flat S.nu (inputsOf a.u)) t k := fun t _ k hk => (unflat_flat _ t hk).symm
  obtain ⟨f1, f2⟩ := hyb_ineq_congr h hmt hu hc.feas
  have hfa := (q3 x.e (flat S.nu (inputsOf a.u))).2 f1
  have hca : q.data.cost (S.nu * N) S.nx (flat S.nu (inputsOf a.u)) x.e = a.V := by
    rw [q4, hc.value]
    exact f2.symm
  have hle : ∀ v, q.data.Feas (S.nu * N) S.nx v x.e → a.V ≤ q.data.cost (S.nu * N) S.nx v x.e := fun v hv => by
    rw [q4, hc.value]
    exact hopt.2 _ _ ((feas_iff_ineq hno _ _ _).2 ((q3 _ _).1 hv))
  have hval : ∀ V, s.min = some V → V = a.V := fun V hV => by
    obtain ⟨u, -, -, o1, -, o3⟩ := s2 V hV
    rw [o3]
    refine le_antisymm ?_ (hle _ o1.1)
    rw [← hca]
    exact o1.2 _ hfa
  refine ⟨q, s, ?_, s1, hval, fun hlt => ?_⟩
  · unfold HMPC.get_mpqp
    rw [cS, cQ, cR, cP, cX]
    exact q1
  · cases hm : s.min with
    | some V => rw [hval V hm]
    | none =>
      rcases s3.1 hm with h1 | ⟨u, u0, h1, h2, h3⟩
      · exact absurd hfa (h1 _)
      · have a1 := h1.2 _ hfa
        rw [hca] at a1
        have a2 : 0 ≤ q.data.cost (S.nu * N) S.nx u0 x.e := by
          rw [q4]
          show 0 ≤ lqCost Q R P _ _ N
          unfold lqCost
          have r0 : ∀ u, 0 ≤ quad R u := fun u => by
            by_cases hz : ∃ s < S.nu, u s ≠ 0
            · exact (hw.Rpos u hz).le
            · push Not at hz
              unfold quad
              rw [h.R.1, h.R.2]
              refine Finset.sum_nonneg fun i hi => Finset.sum_nonneg fun j _ => ?_
              rw [hz i (mem_range.1 hi)]
              simp
          have := hw.P0 ((hyb S N Q R P X_N).x x.e (fun t => a.modes.getD t 0) (unflat S.nu u0) N)
          have := Finset.sum_nonneg fun t (_ : t ∈ range N) => add_nonneg (hw.Q0 ((hyb S N Q R P X_N).x x.e (fun t => a.modes.getD t 0) (unflat S.nu u0) t)) (r0 (unflat S.nu u0 t))
          positivity
        linarith

/-- C74 on the example: the mpQP of the returned modes has the value of the answer -/
example (L : Lib) (hL : LibSpec L) (G : Gurobi) (hG : GurobiSpec G) : ∃ c a q s, HMPC.init L hinge 2 one1 one1 one1 interval1 = .ok c ∧
    c.feedforward G ⟨1, fun _ => -1⟩ = .ok (some a) ∧ c.get_mpqp a.modes = .ok q ∧ q.solve L ⟨1, fun _ => -1⟩ = .ok s ∧ s.min = some a.V := by
  obtain ⟨c, h1, -, -⟩ := C72 L hL hinge 2 one1 one1 one1 interval1 (hinge_args 2 (by norm_num)) (by show 0 < 1; norm_num) hinge_good
  have ht := hinge_noTiny hL (by norm_num) h1 (-1)
  simp only [Int.cast_neg, Int.cast_one] at ht
  obtain ⟨o, k1, k2, k3⟩ := C73_partial L hL G hG _ _ _ _ _ _ (hinge_args 2 (by norm_num)) weights1 (by show 0 < 1; norm_num) hinge_good c h1 ⟨1, fun _ => -1⟩ rfl ht
  cases o with
  | none => exact absurd hinge_feas ((k3 (hinge_noEq 2)).1.1 rfl _ _)
  | some a =>
    obtain ⟨q, s, e1, e2, -, e4⟩ := C74_partial L hL G hG _ _ _ _ _ _ (hinge_args 2 (by norm_num)) weights1 (by show 0 < 1; norm_num) hinge_good (hinge_noEq 2) c h1
      ⟨1, fun _ => -1⟩ rfl ht a k1
    refine ⟨c, a, q, s, h1, k1, e1, e2, e4 (lt_of_le_of_lt ((k2 a rfl).2 _ _ hinge_feas) ?_)⟩
    norm_num [HybOcp.cost, hyb, lqCost, one1_quad, hinge, HybOcp.x, Spec.traj, Spec.affine, Finset.sum_range_succ]

/-- C74 is false: the controller answers, the value is `1e14`, and the mpQP of the returned modes has no answer -/
theorem C74_false : ∃ (S : PWA) (N : ℕ) (Q R P : Mat ℝ) (X_N : Poly) (x : Vec ℝ), HybArgs S N Q R P X_N ∧ Weights S.nx S.nu Q R P ∧ GoodDomains S ∧
    (hyb S N Q R P X_N).NoEq ∧ x.n = S.nx ∧
    ∀ L G, LibSpec L → GurobiSpec G → ∃ c a q s, HMPC.init L S N Q R P X_N = .ok c ∧ MiNoTiny c.mpmiqp x.e ∧ c.feedforward G x = .ok (some a) ∧ a.V = 1e14 ∧
      c.get_mpqp a.modes = .ok q ∧ q.solve L x = .ok s ∧ s.min = none := by
  refine ⟨oneMode, 1, Mat.zeros 1 1, weight 2e14, Mat.zeros 1 1, beyond1, ⟨1, fun _ => 0⟩, oneMode_args _, oneMode_weights (by norm_num), oneMode_good, oneMode_noEq _, rfl,
    fun L G hL hG => ?_⟩
  have hargs := oneMode_args 2e14
  have hw := oneMode_weights (r := 2e14) (by norm_num)
  have hno := oneMode_noEq 2e14
  obtain ⟨c, h1, -, -⟩ := C72 L hL oneMode 1 _ _ _ beyond1 hargs one_pos oneMode_good
  have z : ∀ (a : ℝ) (n : ℤ), a = n → NotTiny a := fun a n e => e ▸ notTiny_int n
  have ht := intSys_noTiny hL hargs oneMode_good oneMode_int h1 (fun _ _ _ _ => Or.inl rfl) (fun _ _ _ _ => z _ 200000000000000 (by norm_num [weight]))
    (fun _ _ _ _ => Or.inl rfl) ⟨fun _ _ _ _ => z _ (-1) (by norm_num [beyond1, Poly.fresh]), fun _ _ => z _ (-1) (by norm_num [beyond1, Poly.fresh])⟩ 0
  simp only [Int.cast_zero] at ht
  obtain ⟨o, k1, k2, k3⟩ := C73_partial L hL G hG _ _ _ _ _ _ hargs hw one_pos oneMode_good c h1 ⟨1, fun _ => 0⟩ rfl ht
  cases o with
  | none =>
    exact absurd ((feas_iff_ineq hno _ _ _).2 ((oneMode_feas 2e14 (fun _ => 0) (fun _ _ => 1)).2 ⟨rfl, rfl⟩)) ((k3 hno).1.1 rfl _ _)
  | some a =>
    obtain ⟨hc, -⟩ := k2 a rfl
    obtain ⟨⟨cS, cN, cQ, cR, cP, cX⟩, -⟩ := init_inv hargs h1
    have hV := hc.value
    rw [oneMode_cost, ((oneMode_feas _ _ _).1 hc.feas).2] at hV
    obtain ⟨q, q1, q2, q3, q4, q5⟩ := mpqp_modes hargs hw (l := a.modes) hc.modes (fun m hm => by
      obtain ⟨t, ht, rfl⟩ := List.getElem_of_mem hm
      rw [← List.getD_eq_getElem _ 0 ht]
      exact hc.feas.1 t (by have := hc.modes; rw [this] at ht; exact ht))
    obtain ⟨s, s1, s2, s3⟩ := MpQP.solve_cost hL q2 (q5 oneMode_good.rows) (x := ⟨1, fun _ => 0⟩) rfl
    have hm0 := ((oneMode_feas _ _ _).1 hc.feas).1
    refine ⟨c, a, q, s, h1, ht, k1, by rw [hV]; norm_num, ?_, s1, s3.2 (Or.inr ⟨fun _ => 1, fun _ => 0, ⟨?_, fun u' hu' => ?_⟩, fun u' => ?_, ?_⟩)⟩
    · unfold HMPC.get_mpqp
      rw [cS, cQ, cR, cP, cX]
      exact q1
    · exact (q3 _ _).2 ((oneMode_feas _ _ _).2 ⟨hm0, rfl⟩)
    · have := ((oneMode_feas _ _ _).1 ((q3 _ _).1 hu')).2
      rw [q4, q4, oneMode_cost, oneMode_cost, this]
      norm_num [unflat]
    · rw [q4, q4, oneMode_cost, oneMode_cost]
      norm_num [unflat]
      positivity
    · rw [q4, q4, oneMode_cost, oneMode_cost]
      norm_num [unflat]

end Verif.Props
