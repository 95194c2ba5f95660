import Verif.Props.MpcStabilityExamples

/- Where the cost of the linear controller is that of the LQR (asserted by test_controllers.py 75-84). -/
namespace Verif.Props
open Finset Spec Dyn Control

/-- a terminal set that is invariant and contains each state from which `u = K x` is admissible forever: the cost of the controller is at least that
of the LQR, and the terminal set consists of the states at which they agree, and of those at which the inputs agree -/
theorem lqr_gap (L : Lib) (hL : LibSpec L) (S : LinearSystem) (hS : S._controllable = none) (hnx : 0 < S.nx) (N : ℕ) (Q R P K : Mat ℝ)
    (D X_N : Poly) (h : MpcArgs S N Q R P D X_N) (dare : Mat ℝ → Mat ℝ → Mat ℝ → Mat ℝ → Py (Mat ℝ))
    (hdare : ∀ P, dare S.A S.B Q R = .ok P → DareSpec S.nx S.nu S.A S.B Q R P)
    (hPK : (LinearSystem.solve_dare dare Q R S).1 = .ok (P, K)) (hk : K.nc = S.nx) (hK : (problem S N Q R P D X_N).TerminalInvariant K)
    (hmax : ∀ x0 x, ClosedLoopTraj S K x0 x → (∀ t, IneqHold D.A D.b (withInput S.nx K (x t))) → IneqHold X_N.A X_N.b x0)
    {c : MPC} (hc : MPC.init S N Q R P D X_N = .ok c) (x : Vec ℝ) (hx : x.n = S.nx) (us : List (Vec ℝ)) (V : ℝ)
    (hff : c.feedforward L x = .ok (some us, some V)) :
    1 / 2 * quad P x.e ≤ V ∧ (V = 1 / 2 * quad P x.e ↔ IneqHold X_N.A X_N.b x.e) ∧
      ((∀ t < N, ∀ s < S.nu, inputsOf us t s = rowVal K s ((problem S N Q R P D X_N).x x.e (inputsOf us) t)) ↔ IneqHold X_N.A X_N.b x.e) := by
  obtain ⟨q, h1, h2⟩ := feedforward_run hL h
  obtain ⟨c', hc', h67⟩ := C67 L hL S hS hnx N Q R P K D X_N h dare hdare hPK hK
  rw [hc] at hc' h1
  cases hc'
  cases h1
  have hp := problem_shape h.toMpcSizes
  set p := problem S N Q R P D X_N with hpd
  have hlqr := dare_lqr S hS hnx N Q R P K D X_N h dare hdare hPK (M := N) x.e (inputsOf us)
  obtain ⟨k1, -⟩ := h2 none x hx
  rcases k1 with k | ⟨us', V', k, -, -, l3, l4, -⟩
  · rw [k] at hff; cases hff
  rw [k] at hff
  cases hff
  rw [l4]
  -- equal inputs put the state into the terminal set
  have hback : (∀ t < N, ∀ s < S.nu, inputsOf us t s = rowVal K s (p.x x.e (inputsOf us) t)) → IneqHold X_N.A X_N.b x.e := by
    intro hu
    let xl : ℕ → ℕ → ℝ := fun t => Nat.rec x.e (fun _ y => p.next y (LinOcp.gain K y)) t
    have hs : ∀ t, xl (t + 1) = p.next (xl t) (LinOcp.gain K (xl t)) := fun t => rfl
    have hxl : ∀ t ≤ N, p.x x.e (inputsOf us) t = xl t := by
      intro t
      induction t with
      | zero => intro _; rfl
      | succ t ih =>
        intro ht
        rw [LinOcp.x_succ, hs, ← ih (by omega)]
        exact LinOcp.next_congr hp (fun _ _ => rfl) (hu t (by omega))
    have hin : ∀ t, IneqHold p.XA p.Xb (xl (N + t)) := by
      intro t
      induction t with
      | zero =>
        show IneqHold p.XA p.Xb (xl N)
        rw [← hxl N le_rfl]
        exact l3.1.2
      | succ t ih => exact (hK _ ih).2
    have hst : ∀ t, p.Stage (xl t) (LinOcp.gain K (xl t)) := by
      intro t
      rcases Nat.lt_or_ge t N with ht | ht
      · have := l3.1.1 t ht
        rw [hxl t (by omega)] at this
        exact (LinOcp.stage_congr hp (fun _ _ => rfl) (by have := hu t ht; rw [hxl t (by omega)] at this; exact this)).1 this
      · obtain ⟨d, rfl⟩ := Nat.exists_eq_add_of_le ht
        exact (hK _ (hin d)).1
    refine hmax x.e xl ⟨fun _ _ => rfl, fun t i _ => ?_⟩ fun t => ?_
    · rw [hs]
      show ∑ j ∈ range S.A.nc, _ + ∑ j ∈ range S.B.nc, _ * rowVal K _ _ + 0 = _
      rw [h.sys.2.1, h.sys.2.2.2.1, add_zero]
      simp only [rowVal, hk]
      rfl
    · have e : withInput S.nx K (xl t) = pair S.nx (xl t) (LinOcp.gain K (xl t)) := by
        funext j
        simp only [withInput, pair, LinOcp.gain, rowVal, hk]
      rw [e]
      exact hst t
  have hfor : IneqHold X_N.A X_N.b x.e → p.cost x.e (inputsOf us) = 1 / 2 * quad P x.e := by
    intro hm
    obtain ⟨us', V', g1, -, g2, -⟩ := h67 x hx hm
    rw [g1] at k
    cases k
    rw [← l4, g2]
  exact ⟨hlqr.1, ⟨fun e => hback (hlqr.2.1 e), hfor⟩, ⟨hback, fun hm => hlqr.2.1 (hfor hm)⟩⟩

/-- C160: let `P`, `K` be the answer of `solve_dare`, `X_N` that of `mcais(K, D)`.  If no removed inequality made `X_N` lose its invariance (see C99), then
whenever the controller answers its cost is at least `1/2 x P x`, and exactly the states of `X_N` have this cost, and exactly there the
controller applies `u = K x`.  Outside of `X_N` the controller costs strictly more than the LQR. -/
theorem C160 (L : Lib) (hL : LibSpec L) (S : LinearSystem) (Q R P K : Mat ℝ) (h : DareArgs S Q R)
    (dare : Mat ℝ → Mat ℝ → Mat ℝ → Mat ℝ → Py (Mat ℝ)) (hdare : ∀ P, dare S.A S.B Q R = .ok P → DareSpec S.nx S.nu S.A S.B Q R P)
    (hPK : (LinearSystem.solve_dare dare Q R S).1 = .ok (P, K)) (D : Poly) (hD : D.Inv (S.nx + S.nu)) (hC : D.C.nr = 0)
    (hin : OriginInside (S.nx + S.nu) D) (hb : IsBounded (S.nx + S.nu) D.A D.b D.C D.d) (N : ℕ) (hN : 0 < N) :
    ∃ T X_N c, (∀ fuel ≥ T, LinearSystem.mcais L S K D fuel = .ok (some X_N)) ∧ MPC.init S N Q R P D X_N = .ok c ∧
      ((problem S N Q R P D X_N).TerminalInvariant K → ∀ (x : Vec ℝ) (us : List (Vec ℝ)) (V : ℝ), x.n = S.nx →
        c.feedforward L x = .ok (some us, some V) →
        1 / 2 * quad P x.e ≤ V ∧ (1 / 2 * quad P x.e < V ↔ ¬ X_N.Mem x.e) ∧
        ((∀ t < N, ∀ s < S.nu, inputsOf us t s = rowVal K s ((problem S N Q R P D X_N).x x.e (inputsOf us) t)) ↔ X_N.Mem x.e)) := by
  obtain ⟨hP, k1, k2, -⟩ := solve_dare_ok h hdare hPK
  obtain ⟨T, X_N, c, t1, t2, t3, -⟩ := C99_partial L hL S Q R P K h dare hdare hPK D hD hC hin hb N hN
  refine ⟨T, X_N, c, t1, t2, fun hI x us V hx hff => ?_⟩
  have horg : D.Mem fun _ => 0 := by
    obtain ⟨ε, hε, hm⟩ := hin
    exact hm _ fun j _ => by simp [hε.le]
  obtain ⟨hsz, hXC, -⟩ := terminalInvariant_of_mcais L hL S h.nx K D h.sys ⟨k1, k2⟩ hD hC horg hb T X_N (t1 T le_rfl) N Q R P
  have hargs : MpcArgs S N Q R P D X_N := ⟨⟨h.sys, hN, weights_of_dare h hP, ⟨hD.1, hD.2.1⟩, hsz⟩,
    .inl ((Poly.hasRows_of_bounded (by have := h.nx; omega) hb).resolve_right (by omega))⟩
  obtain ⟨g1, g2, g3⟩ := lqr_gap L hL S h.fresh h.nx N Q R P K D X_N hargs dare hdare hPK k2 hI
    (fun x0 y hy hm => t3 x0 y hy fun t => (mem_noeq hC _).2 (hm t)) t2 x hx us V hff
  have e : X_N.Mem x.e ↔ IneqHold X_N.A X_N.b x.e := mem_noeq hXC _
  rw [e]
  refine ⟨g1, ?_, g3⟩
  rw [← g2]
  exact ⟨fun a b => absurd b (ne_of_gt a), fun a => lt_of_le_of_ne g1 fun b => a b.symm⟩

/-- the hypotheses of C160 are met, and both cases occur: for the integrator with `|x| ≤ 5`, `|u| ≤ 1` the set of `mcais` is `|x| ≤ 2`, the controller with
horizon 3 answers at `x = 3`, which costs more than the LQR, and at `x = 1`, where it is the LQR -/
example (L : Lib) (hL : LibSpec L) : ∃ (dare : Mat ℝ → Mat ℝ → Mat ℝ → Mat ℝ → Py (Mat ℝ)) (K : Mat ℝ),
    (LinearSystem.solve_dare dare half1 one1 integrator).1 = .ok (one1, K) ∧ ∃ T X_N c,
    (∀ fuel ≥ T, LinearSystem.mcais L integrator K boxXU fuel = .ok (some X_N)) ∧ MPC.init integrator 3 half1 one1 one1 boxXU X_N = .ok c ∧
    (∃ us V, c.feedforward L ⟨1, fun _ => 3⟩ = .ok (some us, some V) ∧ 9 / 2 < V) ∧
    ∃ us, c.feedforward L ⟨1, fun _ => 1⟩ = .ok (some us, some (1 / 2)) := by
  obtain ⟨dare, K, hd, k1, T, X_N, c, h1, h2, h3, h4, -, -, us, V, h5, -⟩ := integrator_pipeline L hL
  refine ⟨dare, K, k1, T, X_N, c, h1, h2, ⟨us, V, h5, ?_⟩, ?_⟩
  · obtain ⟨T', X', c', g1, g2, g3⟩ := C160 L hL integrator half1 one1 one1 K integrator_dareArgs dare hd k1 boxXU ⟨rfl, rfl, rfl, rfl⟩ rfl
      boxXU_inside boxXU_bounded 3 (by norm_num)
    obtain rfl : X' = X_N := by
      have a := g1 (max T T') (le_max_right _ _)
      rw [h1 (max T T') (le_max_left _ _)] at a
      cases a; rfl
    rw [h2] at g2
    cases g2
    obtain ⟨-, e, -⟩ := g3 h3 _ us V rfl h5
    have : ¬ X'.Mem fun _ => 3 := fun hm => by
      have := (h4 _).1 hm.1
      norm_num [abs_le] at this
    have := e.2 this
    rw [one1_quad] at this
    norm_num at this
    linarith
  · obtain ⟨hP, l1, l2, -⟩ := solve_dare_ok integrator_dareArgs hd k1
    obtain ⟨hsz, -⟩ := terminalInvariant_of_mcais L hL integrator one_pos K boxXU integrator_dareArgs.sys ⟨l1, l2⟩ ⟨rfl, rfl, rfl, rfl⟩ rfl
      ((boxXU_mem _).2 (by simp)) boxXU_bounded T X_N (h1 T le_rfl) 3 half1 one1 one1
    have hargs : MpcArgs integrator 3 half1 one1 one1 boxXU X_N :=
      ⟨⟨integrator_dareArgs.sys, by norm_num, weights_of_dare integrator_dareArgs hP, ⟨rfl, rfl⟩, hsz⟩, .inl (by norm_num [boxXU, Poly.fresh])⟩
    obtain ⟨c', hc', h67⟩ := C67 L hL integrator rfl one_pos 3 half1 one1 one1 K boxXU X_N hargs dare hd k1 h3
    rw [h2] at hc'
    cases hc'
    obtain ⟨us, V, g1, -, g2, -⟩ := h67 ⟨1, fun _ => 1⟩ rfl ((h4 _).2 (by norm_num))
    refine ⟨us, ?_⟩
    rw [g1, g2, one1_quad]
    norm_num

end Verif.Props
