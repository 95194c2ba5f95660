import Verif.Props.MpcTerminal
import Verif.Math.QuadBound

/- Convergence of the closed loops: C97, C98 and C99 of properties.jsonl. -/
namespace Verif.Props
open Finset Spec Dyn Control Filter Topology

/-- C97: let `Q` be positive definite, the terminal set invariant and admissible for some gain `K`, and let the terminal cost decrease by the stage
cost in the terminal set.  Then the states and inputs of the closed loop go to zero; and from each state with an answer of value less than about
`5e13` the closed loop runs forever, i.e. the controller never answers `None`. -/
theorem C97 (L : Lib) (hL : LibSpec L) (S : LinearSystem) (N : ℕ) (Q R P K : Mat ℝ) (D X_N : Poly) (h : MpcArgs S N Q R P D X_N)
    (hQ : ∀ x, (∃ i < S.nx, x i ≠ 0) → 0 < quad Q x)
    (hK : (problem S N Q R P D X_N).TerminalInvariant K) (hd : (problem S N Q R P D X_N).TerminalDecrease K) (c : MPC)
    (hc : MPC.init S N Q R P D X_N = .ok c) :
    (∀ x u : ℕ → Vec ℝ, (∀ T, ClosedLoop L c (problem S N Q R P D X_N) x u T) →
      (∀ i < S.nx, Tendsto (fun t => (x t).e i) atTop (𝓝 0)) ∧ ∀ s < S.nu, Tendsto (fun t => (u t).e s) atTop (𝓝 0)) ∧
    ∀ (x0 : Vec ℝ) (us : List (Vec ℝ)) (V : ℝ), x0.n = S.nx → c.feedforward L x0 = .ok (some us, some V) →
      V < (1 / (1e-7 : ℝ) ^ 2 - 1) / 2 →
      ∃ x u : ℕ → Vec ℝ, x 0 = x0 ∧ (∀ T, ClosedLoop L c (problem S N Q R P D X_N) x u T) ∧
        ∀ t, x (t + 1) = ⟨S.nx, Spec.affine S.A S.B (Vec.zeros S.nx) (x t).e (u t).e⟩ := by
  set p := problem S N Q R P D X_N with hpdef
  have hcN : c.N = N := by
    obtain ⟨q, h1, -⟩ := feedforward_run hL h
    rw [h1] at hc
    cases hc
    rfl
  refine ⟨fun x u hcl => ?_, fun x0 us V hn hf hV => ?_⟩
  · obtain ⟨us, V, hf, -⟩ := closed_step hL h hc (hcl 1).1 ((hcl 1).2 0 one_pos).1
    have hsum : ∀ T, ∑ t ∈ range T, p.stageCost (x t).e (u t).e ≤ V := fun T =>
      (C69 L hL S N Q R P K D X_N h hK hd c hc x u T (hcl T)).2.1 us V hf
    have hst := Math.tendsto_of_sum_le (fun t => LinOcp.stageCost_nonneg (p := p) h.w (x t).e (u t).e) hsum
    have hR0 : ∀ v, 0 ≤ quad R v := fun v => by
      have := LinOcp.stageCost_nonneg (p := p) h.w (fun _ => 0) v
      have e : p.stageCost (fun _ => 0) v = 1 / 2 * quad R v := by
        show 1 / 2 * (quad Q (fun _ => 0) + quad R v) = _
        have : quad Q (fun _ => 0) = 0 := by
          unfold quad
          exact Finset.sum_eq_zero fun i _ => Finset.sum_eq_zero fun j _ => by ring
        rw [this, zero_add]
      rw [e] at this
      linarith
    have h2 : Tendsto (fun t => 2 * p.stageCost (x t).e (u t).e) atTop (𝓝 0) := by simpa using hst.const_mul 2
    have e2 : ∀ t, 2 * p.stageCost (x t).e (u t).e = quad Q (x t).e + quad R (u t).e := fun t => by
      show 2 * (1 / 2 * (quad Q _ + quad R _)) = _
      ring
    refine ⟨Math.tendsto_of_quad h.w.symQ.1 h.w.symQ.2.1 hQ (squeeze_zero (fun t => h.w.Q0 _) (fun t => ?_) h2),
      Math.tendsto_of_quad h.w.symR.1 h.w.symR.2.1 h.w.Rpos (squeeze_zero (fun t => hR0 _) (fun t => ?_) h2)⟩
    · rw [e2]; linarith [hR0 (u t).e]
    · rw [e2]; linarith [h.w.Q0 (x t).e]
  · let fb : Vec ℝ → Vec ℝ := fun y => match c.feedback L y with
      | .ok (some u) => u
      | _ => ⟨0, fun _ => 0⟩
    let x : ℕ → Vec ℝ := fun t => Nat.rec x0 (fun _ y => ⟨S.nx, p.next y.e (fb y).e⟩) t
    have hall : ∀ T, ClosedLoop L c p x (fun t => fb (x t)) T := by
      intro T
      induction T with
      | zero => exact ⟨hn, fun t ht => by omega⟩
      | succ T ih =>
        refine ⟨hn, fun t ht => ?_⟩
        rcases Nat.lt_or_ge t T with h1 | h1
        · exact ih.2 t h1
        · obtain rfl : t = T := by omega
          obtain ⟨us', V', hf', -⟩ := (C69 L hL S N Q R P K D X_N h hK hd c hc x _ t ih).2.2 us V hf hV
          obtain ⟨u, -, hu⟩ := (C65_linear L c (hcN ▸ h.N) (x t)).2.1 _ _ hf'
          have hfb : fb (x t) = u := by simp only [fb, hu]
          exact ⟨by show _ = Except.ok (some (fb (x t))); rw [hfb]; exact hu, rfl, fun i _ => rfl⟩
    exact ⟨x, fun t => fb (x t), rfl, hall, fun t => rfl⟩

/-- the arguments of `solve_dare` have consistent sizes and the weights are positive definite -/
structure DareArgs (S : LinearSystem) (Q R : Mat ℝ) : Prop where
  sys : SystemShape S.nx S.nu S.A S.B (Vec.zeros S.nx)
  fresh : S._controllable = none
  nx : 0 < S.nx
  symQ : SymMat S.nx Q
  symR : SymMat S.nu R
  Qpos : ∀ x, (∃ i < S.nx, x i ≠ 0) → 0 < quad Q x
  Rpos : ∀ u, (∃ s < S.nu, u s ≠ 0) → 0 < quad R u

theorem quad_zero (Q : Mat ℝ) {n : ℕ} (h1 : Q.nr = n) (h2 : Q.nc = n) {x : ℕ → ℝ} (h : ∀ i < n, x i = 0) : quad Q x = 0 := by
  unfold quad
  refine Finset.sum_eq_zero fun i hi => Finset.sum_eq_zero fun j _ => ?_
  rw [h1] at hi
  rw [h i (Finset.mem_range.1 hi)]
  ring

theorem psd_of_pd {Q : Mat ℝ} {n : ℕ} (h1 : Q.nr = n) (h2 : Q.nc = n) (h : ∀ x, (∃ i < n, x i ≠ 0) → 0 < quad Q x) (x : ℕ → ℝ) :
    0 ≤ quad Q x := by
  by_cases hx : ∃ i < n, x i ≠ 0
  · exact (h x hx).le
  · push Not at hx
    exact (quad_zero Q h1 h2 hx).ge

/-- what `solve_dare` returns -/
theorem solve_dare_ok {S : LinearSystem} {Q R P K : Mat ℝ} (h : DareArgs S Q R)
    {dare : Mat ℝ → Mat ℝ → Mat ℝ → Mat ℝ → Py (Mat ℝ)} (hdare : ∀ P, dare S.A S.B Q R = .ok P → DareSpec S.nx S.nu S.A S.B Q R P)
    (hPK : (LinearSystem.solve_dare dare Q R S).1 = .ok (P, K)) :
    DareSpec S.nx S.nu S.A S.B Q R P ∧ K.nr = S.nu ∧ K.nc = S.nx ∧ ∀ (x0 : ℕ → ℝ) (u : ℕ → ℕ → ℝ) (N : ℕ),
        let x := Spec.traj (fun _ => S.A) (fun _ => S.B) (fun _ => Vec.zeros S.nx) x0 u
        1 / 2 * quad P x0 ≤ lqCost Q R P x u N ∧
        (lqCost Q R P x u N = 1 / 2 * quad P x0 ↔ ∀ t < N, ∀ s < S.nu, u t s = rowVal K s (x t)) := by
  have hnu : 0 < S.nu := by
    by_contra h0
    have h0 : S.nu = 0 := by omega
    rw [solve_dare_no_inputs h.fresh h.sys.1 h.sys.2.1 h.sys.2.2.1 (h.sys.2.2.2.1.trans h0) h0 h.nx] at hPK
    cases hPK
  obtain ⟨a1, a2, a3⟩ := C53 S.nx S.nu S.A S.B Q R h.sys.1 h.sys.2.1 h.sys.2.2.1 h.sys.2.2.2.1 h.nx hnu h.symR h.Rpos dare
    ⟨h.symQ.1, h.symQ.2.1⟩ hdare
  have eS : S = ⟨S.A, S.B, S.nx, S.nu, none⟩ := by
    have := h.fresh
    cases S; cases this; rfl
  rw [eS] at hPK
  by_cases hst : Steerable S.nx S.A S.B S.nx
  · cases hd : dare S.A S.B Q R with
    | error e => rw [a2 hst e hd] at hPK; cases hPK
    | ok P' =>
      obtain ⟨K', b1, b2, b3, b4⟩ := a3 hst P' hd
      rw [b1] at hPK
      injection hPK with hPK
      obtain ⟨rfl, rfl⟩ := Prod.mk.inj hPK
      exact ⟨hdare _ hd, b2, b3, b4⟩
  · rw [a1 hst] at hPK; cases hPK

/-- C98: with positive definite `Q` and `R`, every trajectory of the system under the feedback `u = K x` of `solve_dare` goes to the
origin; its cost up to any time is at most `1/2 x0 P x0`. -/
theorem C98 (S : LinearSystem) (Q R P K : Mat ℝ) (h : DareArgs S Q R)
    (dare : Mat ℝ → Mat ℝ → Mat ℝ → Mat ℝ → Py (Mat ℝ)) (hdare : ∀ P, dare S.A S.B Q R = .ok P → DareSpec S.nx S.nu S.A S.B Q R P)
    (hPK : (LinearSystem.solve_dare dare Q R S).1 = .ok (P, K)) (x0 : ℕ → ℝ) (x : ℕ → ℕ → ℝ) (hx : ClosedLoopTraj S K x0 x) :
    (∀ i < S.nx, Tendsto (fun t => x t i) atTop (𝓝 0)) ∧
    ∀ T, ∑ t ∈ range T, 1 / 2 * (quad Q (x t) + quad R (LinOcp.gain K (x t))) ≤ 1 / 2 * quad P x0 := by
  obtain ⟨hP, k1, k2, hl⟩ := solve_dare_ok h hdare hPK
  -- the same trajectory as a trajectory with inputs
  let u : ℕ → ℕ → ℝ := fun t => LinOcp.gain K (x t)
  let y := Spec.traj (fun _ => S.A) (fun _ => S.B) (fun _ => Vec.zeros S.nx) x0 u
  have hy : ∀ t, ∀ i < S.nx, y t i = x t i := by
    intro t
    induction t with
    | zero => intro i hi; exact (hx.start i hi).symm
    | succ t ih =>
      intro i hi
      rw [hx.step t i hi]
      show ∑ j ∈ range S.A.nc, S.A.e i j * y t j + ∑ j ∈ range S.B.nc, S.B.e i j * u t j + 0 = _
      rw [h.sys.2.1, h.sys.2.2.2.1, add_zero]
      congr 1
      · exact Finset.sum_congr rfl fun j hj => by rw [ih j (Finset.mem_range.1 hj)]
      · refine Finset.sum_congr rfl fun k _ => ?_
        show _ * rowVal K k (x t) = _
        unfold rowVal
        rw [k2]
  have hrow : ∀ t s, rowVal K s (y t) = u t s := by
    intro t s
    show rowVal K s (y t) = rowVal K s (x t)
    unfold rowVal
    rw [k2]
    exact Finset.sum_congr rfl fun j hj => by rw [hy t j (Finset.mem_range.1 hj)]
  have hsum : ∀ T, ∑ t ∈ range T, 1 / 2 * (quad Q (x t) + quad R (LinOcp.gain K (x t))) ≤ 1 / 2 * quad P x0 := by
    intro T
    have e := (hl x0 u T).2.2 fun t _ s _ => (hrow t s).symm
    have e1 : lqCost Q R P y u T = ∑ t ∈ range T, 1 / 2 * (quad Q (x t) + quad R (u t)) + 1 / 2 * quad P (y T) := by
      have : lqCost Q R P y u T = ∑ t ∈ range T, 1 / 2 * (quad Q (y t) + quad R (u t)) + 1 / 2 * quad P (y T) :=
        LinOcp.cost_eq (p := ⟨S.nx, S.nu, T, S.A, S.B, Q, R, P, S.A, Vec.zeros 0, S.A, Vec.zeros 0⟩) x0 u
      rw [this]
      congr 1
      exact Finset.sum_congr rfl fun t _ => by rw [Math.quad_congr_lt h.symQ.1 h.symQ.2.1 (hy t)]
    rw [show lqCost Q R P _ u T = lqCost Q R P y u T from rfl, e1] at e
    have := hP.2.1 (y T)
    show ∑ t ∈ range T, 1 / 2 * (quad Q (x t) + quad R (u t)) ≤ _
    linarith
  refine ⟨?_, hsum⟩
  have hQ0 := psd_of_pd h.symQ.1 h.symQ.2.1 h.Qpos
  have hR0 := psd_of_pd h.symR.1 h.symR.2.1 h.Rpos
  have hst := Math.tendsto_of_sum_le (fun t => by linarith [hQ0 (x t), hR0 (LinOcp.gain K (x t))]) hsum
  have h2 := hst.const_mul 2
  rw [mul_zero] at h2
  refine Math.tendsto_of_quad h.symQ.1 h.symQ.2.1 h.Qpos (squeeze_zero (fun t => hQ0 _) (fun t => ?_) h2)
  linarith [hR0 (LinOcp.gain K (x t))]

/-- the trajectories of the matrix of the closed loop -/
theorem closed_of_orbit {S : LinearSystem} {K Acl : Mat ℝ}
    (h8 : ∀ (x : ℕ → ℝ), ∀ i < S.nx, image Acl x i = ∑ j ∈ range S.nx, S.A.e i j * x j
        + ∑ k ∈ range S.nu, S.B.e i k * ∑ j ∈ range S.nx, K.e k j * x j) (x : ℕ → ℝ) : ClosedLoopTraj S K x (orbit Acl x) :=
  ⟨fun _ _ => rfl, fun t i hi => by rw [← h8 (orbit Acl x t) i hi]; rfl⟩

/-- the weights with the answer of `solve_dare` -/
theorem weights_of_dare {S : LinearSystem} {Q R P : Mat ℝ} (h : DareArgs S Q R) (hP : DareSpec S.nx S.nu S.A S.B Q R P) :
    Weights S.nx S.nu Q R P :=
  ⟨h.symQ, hP.1, h.symR, psd_of_pd h.symQ.1 h.symQ.2.1 h.Qpos, hP.2.1, h.Rpos⟩

/-- the origin is in the interior of the constraints of the closed loop -/
theorem originInside_cl {S : LinearSystem} {K : Mat ℝ} {D Xcl : Poly}
    (h9 : D.C.nr = 0 → ∀ x, Xcl.Mem x ↔ D.Mem (withInput S.nx K x)) (hC : D.C.nr = 0) (hin : OriginInside (S.nx + S.nu) D) :
    OriginInside S.nx Xcl := by
  obtain ⟨ε, hε, hm⟩ := hin
  let M : ℝ := 1 + ∑ k ∈ range S.nu, ∑ j ∈ range S.nx, |K.e k j|
  have hM : 1 ≤ M := le_add_of_nonneg_right (Finset.sum_nonneg fun _ _ => Finset.sum_nonneg fun _ _ => abs_nonneg _)
  have hM0 : 0 < M := by linarith
  refine ⟨ε / M, by positivity, fun x hx => (h9 hC x).2 (hm _ fun j hj => ?_)⟩
  have hle : ε / M ≤ ε := div_le_self hε.le hM
  unfold withInput
  split_ifs with h
  · exact (hx j h).trans hle
  · have hr : ∑ k ∈ range S.nx, |K.e (j - S.nx) k| ≤ M := by
      have := Finset.single_le_sum (f := fun k => ∑ j ∈ range S.nx, |K.e k j|) (fun _ _ => Finset.sum_nonneg fun _ _ => abs_nonneg _)
        (Finset.mem_range.2 (show j - S.nx < S.nu by omega))
      have : (0 : ℝ) ≤ 1 := zero_le_one
      show _ ≤ 1 + ∑ k ∈ range S.nu, ∑ j ∈ range S.nx, |K.e k j|
      linarith
    calc |∑ k ∈ range S.nx, K.e (j - S.nx) k * x k| ≤ ∑ k ∈ range S.nx, |K.e (j - S.nx) k| * (ε / M) := by
          refine (Finset.abs_sum_le_sum_abs _ _).trans (Finset.sum_le_sum fun k hk => ?_)
          rw [abs_mul]
          exact mul_le_mul_of_nonneg_left (hx k (Finset.mem_range.1 hk)) (abs_nonneg _)
      _ ≤ M * (ε / M) := by
          rw [← Finset.sum_mul]
          exact mul_le_mul_of_nonneg_right hr (by positivity)
      _ = ε := by field_simp

/-- C99, partial (the invariance of `X_N` is assumed, see `C99_false`): the design of the example notebooks.  Let `P`, `K` be the answer of `solve_dare(Q, R)` with positive definite weights, and let `D` be bounded, without
equalities, with the origin in its interior.  Then `mcais(K, D)` returns a set `X_N`, and `ModelPredictiveController(S, N, Q, R, P, D, X_N)`
can be constructed.  `X_N` contains each state from which the feedback `u = K x` satisfies the constraints forever.  If `X_N` is invariant (C55 and
`terminalInvariant_of_mcais`: unless the removal of redundant inequalities removed one that is not redundant), then for each initial state with an answer of value less
than about `5e13` the closed loop exists, satisfies the constraints, and goes to the origin; and for states in `X_N` the
answer is `K x`. -/
theorem C99_partial (L : Lib) (hL : LibSpec L) (S : LinearSystem) (Q R P K : Mat ℝ) (h : DareArgs S Q R)
    (dare : Mat ℝ → Mat ℝ → Mat ℝ → Mat ℝ → Py (Mat ℝ)) (hdare : ∀ P, dare S.A S.B Q R = .ok P → DareSpec S.nx S.nu S.A S.B Q R P)
    (hPK : (LinearSystem.solve_dare dare Q R S).1 = .ok (P, K)) (D : Poly) (hD : D.Inv (S.nx + S.nu)) (hC : D.C.nr = 0)
    (hin : OriginInside (S.nx + S.nu) D) (hb : IsBounded (S.nx + S.nu) D.A D.b D.C D.d) (N : ℕ) (hN : 0 < N) :
    ∃ T X_N c, (∀ fuel ≥ T, LinearSystem.mcais L S K D fuel = .ok (some X_N)) ∧ MPC.init S N Q R P D X_N = .ok c ∧
      (∀ x0 x, ClosedLoopTraj S K x0 x → (∀ t, D.Mem (withInput S.nx K (x t))) → IneqHold X_N.A X_N.b x0) ∧
      ((problem S N Q R P D X_N).TerminalInvariant K →
        (∀ (x0 : Vec ℝ) (us : List (Vec ℝ)) (V : ℝ), x0.n = S.nx → c.feedforward L x0 = .ok (some us, some V) →
          V < (1 / (1e-7 : ℝ) ^ 2 - 1) / 2 → ∃ x u : ℕ → Vec ℝ, x 0 = x0 ∧
            (∀ t, c.feedback L (x t) = .ok (some (u t)) ∧ x (t + 1) = ⟨S.nx, Spec.affine S.A S.B (Vec.zeros S.nx) (x t).e (u t).e⟩ ∧
              (u t).n = S.nu ∧ D.Mem (pair S.nx (x t).e (u t).e)) ∧
            ∀ i < S.nx, Tendsto (fun t => (x t).e i) atTop (𝓝 0)) ∧
        ∀ x : Vec ℝ, x.n = S.nx → IneqHold X_N.A X_N.b x.e → ∃ u, c.feedback L x = .ok (some u) ∧
          ∀ s < S.nu, u.e s = rowVal K s x.e) := by
  obtain ⟨hP, k1, k2, hl⟩ := solve_dare_ok h hdare hPK
  obtain ⟨Acl, Xcl, h1, h2, h3, h4, h5, h6, h7, h8, h9, -⟩ := closedLoop_ok h.sys ⟨k1, k2⟩ hD
  have horg : D.Mem fun _ => 0 := by
    obtain ⟨ε, hε, hm⟩ := hin
    exact hm _ fun j _ => by simp [hε.le]
  have hw0 : withInput S.nx K (fun _ => 0) = fun _ => 0 := by
    funext j; unfold withInput; split <;> simp
  have hd : McaisData L S.nx Acl Xcl := by
    refine ⟨h2, h3, h4, h5, (h9 hC _).2 (by rw [hw0]; exact horg), ?_, fun e he => (by rw [h6] at he; cases he), h.nx⟩
    obtain ⟨M, hM⟩ := hb
    refine ⟨M, fun x hx j hj => ?_⟩
    have := hM _ ((h9 hC x).1 hx) j (by omega)
    unfold withInput at this
    rwa [if_pos hj] at this
  have hinX : OriginInside S.nx Xcl := originInside_cl h9 hC hin
  have htraj : ∀ x, ClosedLoopTraj S K x (orbit Acl x) := closed_of_orbit h8
  have hstab : Stable S.nx Acl := fun x => (C98 S Q R P K h dare hdare hPK x _ (htraj x)).1
  obtain ⟨T, X_N, hT⟩ := C56 L hL S.nx Acl Xcl hd h.nx (.inl h7) hinX hstab
  have hrun : ∀ fuel, LinearSystem.mcais L S K D fuel = mcais L Acl Xcl fuel := fun fuel => by
    unfold LinearSystem.mcais
    rw [h1]
    rfl
  have hX := hT T le_rfl
  have hX' : ∀ fuel ≥ T, LinearSystem.mcais L S K D fuel = .ok (some X_N) := fun fuel hf => (hrun fuel).trans (hT fuel hf)
  obtain ⟨hsz, -⟩ := terminalInvariant_of_mcais L hL S h.nx K D h.sys ⟨k1, k2⟩ hD hC horg hb T X_N (hX' T le_rfl) N Q R P
  have hargs : MpcArgs S N Q R P D X_N := ⟨⟨h.sys, hN, weights_of_dare h hP, ⟨hD.1, hD.2.1⟩, hsz⟩,
    .inl ((Poly.hasRows_of_bounded (by have := h.nx; omega) hb).resolve_right (by omega))⟩
  obtain ⟨q, hc, -⟩ := feedforward_run hL hargs
  refine ⟨T, X_N, _, hX', hc, fun x0 x hx hm => ?_, fun hinv => ⟨fun x0 us V hn hff hV => ?_, fun x hn hx => ?_⟩⟩
  · obtain ⟨Ob, r, -, -, -, -, -, hOC, -, hall, -⟩ := (C54 L hL S.nx Acl Xcl hd).2 T X_N hX
    refine (hall x0 fun t => ?_).1
    rw [h9 hC, withInput_congr K (closedLoop_traj h3 h8 hx t)]
    exact hm t
  · have hdec := terminalDecrease_of_dare S h.fresh h.nx N Q R P K D X_N hargs dare hdare hPK
    obtain ⟨hconv, hex⟩ := C97 L hL S N Q R P K D X_N hargs h.Qpos hinv hdec _ hc
    obtain ⟨x, u, hx0, hcl, hnext⟩ := hex x0 us V hn hff hV
    have hfeas : ∃ v, (problem S N Q R P D X_N).Feas (x 0).e v := by
      obtain ⟨us', V', -, -, -, ho, -⟩ := closed_step hL hargs hc (hcl 1).1 ((hcl 1).2 0 one_pos).1
      exact ⟨_, ho.1⟩
    refine ⟨x, u, hx0, fun t => ?_, (hconv x u hcl).1⟩
    have hs := (C68 L hL S N Q R P K D X_N hargs hinv _ hc x u (t + 1) (hcl (t + 1)) hfeas).2 t (by omega)
    obtain ⟨c1, c2, c3⟩ := (hcl (t + 1)).2 t (by omega)
    exact ⟨c1, hnext t, hs.1, (mem_noeq hC _).2 hs.2⟩
  · obtain ⟨c', hc', h67⟩ := C67 L hL S h.fresh h.nx N Q R P K D X_N hargs dare hdare hPK hinv
    rw [hc] at hc'
    cases hc'
    obtain ⟨us, V, hff, -, -, hus⟩ := h67 x hn hx
    obtain ⟨u, hu0, hu⟩ := (C65_linear L ⟨S, N, Q, R, P, D, X_N, none, q⟩ hN x).2.1 _ _ hff
    refine ⟨u, hu, fun s hs => ?_⟩
    have := hus 0 hN s hs
    unfold inputsOf at this
    rw [List.getD_eq_getElem?_getD, hu0] at this
    exact this

end Verif.Props
