import Verif.Model.TestHybrid
import Verif.Props.ExplicitTest
import Verif.Props.HybridModes
import Verif.Props.HybridDesignExample

/- The test of the hybrid controller. -/
namespace Verif.Props
open Finset Spec Dyn Control TestSuite

theorem assertTrue_or (b : Bool) : assertTrue b = .ok () ∨ assertTrue b = .error .assertionError := by
  cases b
  · exact .inr rfl
  · exact .inl rfl

/-- lists of vectors with the same entries -/
theorem concat_same {w n : ℕ} {l l' : List (Vec ℝ)} (h1 : l.length = n) (h2 : l'.length = n) (k1 : ∀ v ∈ l, v.n = w) (k2 : ∀ v ∈ l', v.n = w)
    (h : ∀ t < n, ∀ s < w, (l.getD t vec0).e s = (l'.getD t vec0).e s) :
    (Vec.concat l).n = (Vec.concat l').n ∧ ∀ i < (Vec.concat l).n, (Vec.concat l).e i = (Vec.concat l').e i := by
  obtain ⟨a1, a2⟩ := concat_const l k1
  obtain ⟨b1, b2⟩ := concat_const l' k2
  refine ⟨by rw [a1, b1, h1, h2], fun i hi => ?_⟩
  rw [a1, h1] at hi
  have hw : 0 < w := Nat.pos_of_ne_zero fun e => by rw [e] at hi; omega
  have ht : i / w < n := (Nat.div_lt_iff_lt_mul hw).2 hi
  have hs : i % w < w := Nat.mod_lt _ hw
  have g1 : l[i / w]? = some l[i / w] := List.getElem?_eq_getElem (by omega)
  have g2 : l'[i / w]? = some l'[i / w] := List.getElem?_eq_getElem (by omega)
  have e1 := a2 _ _ g1 _ hs
  have e2 := b2 _ _ g2 _ hs
  rw [Nat.div_add_mod'] at e1 e2
  have := h _ ht _ hs
  rw [List.getD_eq_getElem?_getD, List.getD_eq_getElem?_getD, g1, g2] at this
  rw [e1, e2]
  exact this

/-- if the answer in mode 0 is the given one, the comparison passes exactly if all modes are 0 -/
theorem compare_asserts {G : Gurobi} {c : HMPC} {x0 : Vec ℝ} {us xs : List (Vec ℝ)} {V : ℝ} {a : HMPC.Answer} {N nx nu : ℕ} (hN : 0 < N) (hcN : c.N = N)
    (u1 : us.length = N) (u2 : ∀ v ∈ us, v.n = nu) (x1 : xs.length = N + 1) (x2 : ∀ v ∈ xs, v.n = nx)
    (v1 : a.u.length = N) (v2 : ∀ v ∈ a.u, v.n = nu) (y1 : a.x.length = N + 1) (y2 : ∀ v ∈ a.x, v.n = nx) (ha : c.feedforward G x0 = .ok (some a))
    (h : (∀ m ∈ a.modes, m = 0) → V = a.V ∧ (∀ t < N, ∀ s < nu, (us.getD t vec0).e s = (a.u.getD t vec0).e s) ∧
      ∀ t < N + 1, ∀ k < nx, (xs.getD t vec0).e k = (a.x.getD t vec0).e k) :
    Asserts (compareAnswer G c x0 us xs (some V) a) (∀ m ∈ a.modes, m = 0) := by
  have ne : ∀ {l : List (Vec ℝ)}, 0 < l.length → np.concatenate l = .ok (Vec.concat l) := fun h => if_neg (List.ne_nil_of_length_pos h)
  obtain ⟨w, w1, w2⟩ := (C65_hybrid G c (by omega) x0).2.1 a ha
  unfold compareAnswer
  rw [ne (by omega), Py.ok_bind, ne (by omega), Py.ok_bind, ne (by omega), ne (by omega), listGet_some w1, w2]
  refine ⟨fun hz => ?_, fun hz => ?_⟩
  · obtain ⟨e1, e2, e3⟩ := h hz
    obtain ⟨s1, s2⟩ := concat_same u1 v1 u2 v2 e2
    obtain ⟨s3, s4⟩ := concat_same x1 y1 x2 y2 e3
    rw [almost_same s1 s2, Py.ok_bind, Py.ok_bind, Py.ok_bind, almost_same s3 s4, Py.ok_bind]
    have : assertAlmostEqualO (some V) a.V = .ok () := by
      show assertTrue _ = _
      rw [e1, sub_self, abs_zero, decide_eq_true (by norm_num)]
      rfl
    rw [this, Py.ok_bind, List.all_eq_true.2 fun m hm => decide_eq_true (hz m hm)]
    show (assertArrayAlmostEqual (some w) (some w)) = _
    exact almost_same rfl fun _ _ => rfl
  · have hall : (a.modes.all fun m => decide (m = 0)) = false := by
      rw [← Bool.not_eq_true, List.all_eq_true]
      exact fun e => hz fun m hm => of_decide_eq_true (e m hm)
    rw [hall]
    rcases assertTrue_or (decide ((Vec.concat us).n = (Vec.concat a.u).n ∧ ∀ i < (Vec.concat us).n, |(Vec.concat us).e i - (Vec.concat a.u).e i| < 1.5e-6)) with e | e
    · rw [show assertArrayAlmostEqual (some (Vec.concat us)) (some (Vec.concat a.u)) = .ok () from e]
      simp only [Py.ok_bind]
      rcases assertTrue_or (decide ((Vec.concat xs).n = (Vec.concat a.x).n ∧ ∀ i < (Vec.concat xs).n, |(Vec.concat xs).e i - (Vec.concat a.x).e i| < 1.5e-6)) with e | e
      · rw [show assertArrayAlmostEqual (some (Vec.concat xs)) (some (Vec.concat a.x)) = .ok () from e]
        simp only [Py.ok_bind]
        rcases assertTrue_or (decide (|V - a.V| ≤ 5e-8)) with e | e
        · rw [show assertAlmostEqualO (some V) a.V = .ok () from e]
          rfl
        · rw [show assertAlmostEqualO (some V) a.V = _ from e]
          rfl
      · rw [show assertArrayAlmostEqual (some (Vec.concat xs)) (some (Vec.concat a.x)) = _ from e]
        rfl
    · rw [show assertArrayAlmostEqual (some (Vec.concat us)) (some (Vec.concat a.u)) = _ from e]
      rfl

/-- the program of the answered modes has the answered inputs as its minimizer -/
theorem compareMpqp_ok {L : Lib} (hL : LibSpec L) {G : Gurobi} (hG : GurobiSpec G) {S : PWA} {N : ℕ} {Q R P : Mat ℝ} {X_N : Poly}
    (h : HybArgs S N Q R P X_N) (hw : Weights S.nx S.nu Q R P) (hnx : 0 < S.nx) (hg : GoodDomains S) (hno : (hyb S N Q R P X_N).NoEq) {c : HMPC}
    (hrun : HMPC.init L S N Q R P X_N = .ok c) {x : Vec ℝ} (hx : x.n = S.nx) (ht : MiNoTiny c.mpmiqp x.e) {a : HMPC.Answer}
    (ha : c.feedforward G x = .ok (some a)) (hV : a.V < (1 / (1e-7 : ℝ) ^ 2 - 1) / 2) {us : List (Vec ℝ)} (u1 : us.length = N) (u2 : ∀ v ∈ us, v.n = S.nu)
    (hus : ∀ t < N, ∀ s < S.nu, (us.getD t vec0).e s = (a.u.getD t vec0).e s) : compareMpqp L c x us a.V a.modes = .ok () := by
  obtain ⟨⟨cS, cN, cQ, cR, cP, cX⟩, -⟩ := init_inv h hrun
  obtain ⟨q, s, g1, g2, -, g4⟩ := C74_partial L hL G hG S N Q R P X_N h hw hnx hg hno c hrun x hx ht a ha
  have hmin := g4 hV
  obtain ⟨o, k1, k2, k3⟩ := C73_partial L hL G hG S N Q R P X_N h hw hnx hg c hrun x hx ht
  rw [ha] at k1
  cases Except.ok.inj k1
  obtain ⟨hc, -⟩ := k2 a rfl
  have hopt := (k3 hno).2 a rfl
  have hlen : a.modes.length = N := hc.modes
  obtain ⟨q', q1, q2, q3, q4, q5⟩ := mpqp_modes h hw (l := a.modes) hlen (fun m hm => by
    obtain ⟨t, ht, rfl⟩ := List.getElem_of_mem hm
    rw [← List.getD_eq_getElem _ 0 ht]
    exact hc.feas.1 t (by rw [hlen] at ht; exact ht))
  have hqq : q' = q := by
    unfold HMPC.get_mpqp at g1
    rw [cS, cQ, cR, cP, cX, q1] at g1
    exact Except.ok.inj g1
  subst hqq
  obtain ⟨s', s1, s2, -⟩ := MpQP.solve_cost hL q2 (q5 hg.rows) hx
  have hss : s' = s := by
    rw [g2] at s1
    exact (Except.ok.inj s1).symm
  subst hss
  obtain ⟨v, v1, v2, -, v4, -⟩ := s2 _ hmin
  have hu : ∀ t < N, ∀ k < S.nu, inputsOf a.u t k = unflat S.nu (flat S.nu (inputsOf a.u)) t k := fun t _ k hk => (unflat_flat _ t hk).symm
  obtain ⟨f1, f2⟩ := hyb_ineq_congr h (fun t _ => rfl) hu hc.feas
  have hoa : q'.data.Opt (S.nu * N) S.nx (flat S.nu (inputsOf a.u)) x.e := by
    refine ⟨(q3 x.e _).2 f1, fun v hv => ?_⟩
    rw [q4, q4, ← f2]
    exact hopt.2 _ _ ((feas_iff_ineq hno _ _ _).2 ((q3 _ _).1 hv))
  have he := v4 _ hoa
  obtain ⟨b1, b2⟩ := concat_const us u2
  have hsame : assertArrayAlmostEqual (some (Vec.concat us)) (some v) = .ok () := by
    refine almost_same (by rw [b1, v2, u1, Nat.mul_comm]) fun i hi => ?_
    rw [b1, u1] at hi
    have hw0 : 0 < S.nu := Nat.pos_of_ne_zero fun e => by rw [e] at hi; omega
    have ht : i / S.nu < N := (Nat.div_lt_iff_lt_mul hw0).2 hi
    have hs : i % S.nu < S.nu := Nat.mod_lt _ hw0
    have g1 : us[i / S.nu]? = some us[i / S.nu] := List.getElem?_eq_getElem (by omega)
    have e1 := b2 _ _ g1 _ hs
    rw [Nat.div_add_mod'] at e1
    have e2 := hus _ ht _ hs
    rw [List.getD_eq_getElem?_getD, g1] at e2
    rw [e1, ← he i (by rw [Nat.mul_comm]; exact hi)]
    exact e2
  have hN := h.N
  unfold compareMpqp
  rw [g1, Py.ok_bind, g2, Py.ok_bind, show np.concatenate us = .ok (Vec.concat us) from if_neg (List.ne_nil_of_length_pos (by omega)), Py.ok_bind, v1, hsame, Py.ok_bind, hmin]
  show assertTrue _ = _
  rw [sub_self, abs_zero, decide_eq_true (by norm_num)]
  rfl

/-- inputs that are `K x` along their own trajectory are determined by the first state -/
theorem lqr_same {p : LinOcp} (hp : p.Shape) {K : Mat ℝ} {x0 : ℕ → ℝ} {u v : ℕ → ℕ → ℝ} {N : ℕ} (hu : ∀ t < N, ∀ s < p.nu, u t s = rowVal K s (p.x x0 u t))
    (hv : ∀ t < N, ∀ s < p.nu, v t s = rowVal K s (p.x x0 v t)) : ∀ t ≤ N, p.x x0 u t = p.x x0 v t ∧ (t < N → ∀ s < p.nu, u t s = v t s) := by
  intro t
  induction t with
  | zero => exact fun _ => ⟨rfl, fun ht s hs => by rw [hu 0 ht s hs, hv 0 ht s hs]; rfl⟩
  | succ t ih =>
    intro ht
    obtain ⟨i1, i2⟩ := ih (by omega)
    have e1 : p.x x0 u (t + 1) = p.x x0 v (t + 1) := by
      rw [LinOcp.x_succ, LinOcp.x_succ, i1]
      exact LinOcp.next_congr hp (fun _ _ => rfl) (i2 (by omega))
    exact ⟨e1, fun ht' s hs => by rw [hu _ ht' s hs, hv _ ht' s hs, e1]⟩

/-- C193: the test of the hybrid controller, for any piecewise affine system whose first mode is the linear system `S1` on the domain `D`, any horizon, weights, terminal set without
equalities, and state `x` at which the program has no tiny entries.
(1) If the linear predictive controller of `S1` answers with a value below `5e13`, then the hybrid one answers with a value that is not greater, and the comparison of the two with each other and with
`get_mpqp` passes exactly if all answered modes are 0; otherwise an assertion fails.
(2) If the hybrid controller answers with a value below `5e13`, the comparison with `get_mpqp` of the answered modes passes; the part `with change of the mode sequence` passes exactly if some mode is not 0.
(3) If `P`, `K` are from `solve_dare`, and the terminal set is invariant under `u = K x` and contains `x`, then the hybrid controller answers with a value of at most `1/2 x P x`, and the comparison with the
LQR passes exactly if all answered modes are 0. -/
theorem C193 (L : Lib) (hL : LibSpec L) (G : Gurobi) (hG : GurobiSpec G) (systems : List Sys) (domains : List Poly) (hs : ∀ T ∈ systems, SysOk T)
    (S : PWA) (hS : PWA.init systems domains = .ok S) (hdom : ∀ D ∈ domains, DomOk (S.nx + S.nu) D) (hnx : 0 < S.nx)
    (S1 : LinearSystem) (D : Poly) (hi : systems[0]? = some (.lin S1)) (hDi : domains[0]? = some D)
    (Q R P : Mat ℝ) (hw : Weights S.nx S.nu Q R P) (N : ℕ) (hN : 0 < N) (X_N : Poly) (hX : X_N.Inv S.nx) (hXr : 0 < X_N.A.nr) (hXC : X_N.C.nr = 0) :
    ∃ c cl, HMPC.init L S N Q R P X_N = .ok c ∧ MPC.init S1 N Q R P D X_N = .ok cl ∧ ∀ x : Vec ℝ, x.n = S.nx → MiNoTiny c.mpmiqp x.e →
      (∀ us V, cl.feedforward L x = .ok (some us, some V) → V < (1 / (1e-7 : ℝ) ^ 2 - 1) / 2 → ∃ a, c.feedforward G x = .ok (some a) ∧ a.V ≤ V ∧
        Asserts (checkHybridLinear L G S1 cl c x) (∀ m ∈ a.modes, m = 0)) ∧
      (∀ a, c.feedforward G x = .ok (some a) → a.V < (1 / (1e-7 : ℝ) ^ 2 - 1) / 2 →
        compareMpqp L c x a.u a.V a.modes = .ok () ∧ Asserts (checkHybridModes L G c x) (∃ m ∈ a.modes, m ≠ 0)) ∧
      ∀ (K : Mat ℝ) (dare : Mat ℝ → Mat ℝ → Mat ℝ → Mat ℝ → Py (Mat ℝ)), DareArgs S1 Q R → (∀ P, dare S1.A S1.B Q R = .ok P → DareSpec S1.nx S1.nu S1.A S1.B Q R P) →
        (LinearSystem.solve_dare dare Q R S1).1 = .ok (P, K) → (problem S1 N Q R P D X_N).TerminalInvariant K → X_N.Mem x.e →
        ∃ a, c.feedforward G x = .ok (some a) ∧ a.V ≤ 1 / 2 * quad P x.e ∧ Asserts (checkHybridLqr G S1 N P K X_N c x) (∀ m ∈ a.modes, m = 0) := by
  obtain ⟨hsh, hok, hg, hdm⟩ := pwa_of_init hs hS hdom
  obtain ⟨-, -, c3⟩ := C58 systems domains hs
  obtain ⟨p1, p2, p3, p4, p5, p6, p7⟩ := c3 S hS
  have hsys : SystemShape S1.nx S1.nu S1.A S1.B (Vec.zeros S1.nx) := hs (.lin S1) (List.mem_of_getElem? hi)
  obtain ⟨enx, enu⟩ : S1.nx = S.nx ∧ S1.nu = S.nu := p1 (.lin S1) (List.mem_of_getElem? hi)
  obtain ⟨Ti, hTi, hlaw⟩ := (p7 0).2 S1 hi
  have hil : 0 < S.nm := by
    rw [p4]
    exact (List.getElem?_eq_some_iff.1 hDi).1
  have hsysi : sysAt S 0 = Ti := by
    show S.affine_systems.getD 0 sys0 = Ti
    rw [List.getD_eq_getElem?_getD, hTi]
    rfl
  have hdomi : domAt S 0 = D := by
    show S.domains.getD 0 poly0 = D
    rw [List.getD_eq_getElem?_getD, p3, hDi]
    rfl
  have hD := hdomi ▸ hdm 0 hil
  have hargs : HybArgs S N Q R P X_N := ⟨hsh, hN, hw.symQ, hw.symP, ⟨hw.symR.1, hw.symR.2.1⟩, ⟨hX.1, hX.2.1⟩⟩
  have hno : (hyb S N Q R P X_N).NoEq := ⟨fun j hj => (hdm j hj).noEq, hXC⟩
  have hw1 : Weights S1.nx S1.nu Q R P := by rw [enx, enu]; exact hw
  have hmargs : MpcArgs S1 N Q R P D X_N :=
    ⟨⟨hsys, hN, hw1, by rw [enx, enu]; exact ⟨hD.inv.1, hD.inv.2.1⟩, by rw [enx]; exact ⟨hX.1, hX.2.1⟩⟩, .inl hD.rows⟩
  obtain ⟨c, hc, -, -⟩ := C72 L hL S N Q R P X_N hargs hnx hg
  obtain ⟨q, r1, r2⟩ := feedforward_run hL hmargs
  have hcN : c.N = N := (init_inv hargs hc).1.2.1
  refine ⟨c, _, hc, r1, fun x hx ht => ?_⟩
  set p := problem S1 N Q R P D X_N with hp
  set hy := hyb S N Q R P X_N with hhy
  have hps : p.Shape := problem_shape hmargs.toMpcSizes
  -- mode 0 is the linear system
  have hnext : ∀ x v : ℕ → ℝ, ∀ k < S.nx, hy.next 0 x v k = p.next x v k := by
    intro x v k hk
    show Spec.affine (sysAt S 0).A (sysAt S 0).B (sysAt S 0).c x v k = ∑ j ∈ range S1.A.nc, S1.A.e k j * x j + ∑ j ∈ range S1.B.nc, S1.B.e k j * v j + 0
    rw [hsysi, hlaw x v k hk, hsys.2.1, hsys.2.2.2.1, enx, enu, add_zero]
  have hstate : ∀ (u : ℕ → ℕ → ℝ) (t : ℕ), ∀ k < S.nx, hy.x x.e (fun _ => 0) u t k = p.x x.e u t k := by
    intro u t
    induction t with
    | zero => exact fun k _ => rfl
    | succ t ih =>
      intro k hk
      have e : p.next (hy.x x.e (fun _ => 0) u t) (u t) = p.next (p.x x.e u t) (u t) :=
        LinOcp.next_congr hps (fun i hi => ih i (enx ▸ hi)) fun _ _ => rfl
      rw [LinOcp.x_succ, ← e]
      exact hnext _ _ k hk
  have hfeas : ∀ u, hy.Feas x.e (fun _ => 0) u ↔ p.Feas x.e u := by
    intro u
    rw [feas_iff_ineq hno]
    have e1 : ∀ t, IneqHold (domAt S 0).A (domAt S 0).b (pair S.nx (hy.x x.e (fun _ => 0) u t) (u t)) ↔ p.Stage (p.x x.e u t) (u t) := fun t => by
      rw [hdomi]
      unfold LinOcp.Stage
      show IneqHold D.A D.b _ ↔ IneqHold D.A D.b (pair S1.nx _ _)
      rw [enx]
      refine ineq_congr (n := S.nx + S.nu) hD.inv.1 fun j _ => ?_
      unfold pair
      split
      · exact hstate u t _ (by assumption)
      · rfl
    have e2 : IneqHold X_N.A X_N.b (hy.x x.e (fun _ => 0) u N) ↔ IneqHold X_N.A X_N.b (p.x x.e u N) := ineq_congr hX.1 (hstate u N)
    exact ⟨fun ⟨_, f2, f3⟩ => ⟨fun t ht => (e1 t).1 (f2 t ht), e2.1 f3⟩, fun ⟨f2, f3⟩ => ⟨fun _ _ => hil, fun t ht => (e1 t).2 (f2 t ht), e2.2 f3⟩⟩
  have hcost : ∀ u, hy.cost x.e (fun _ => 0) u = p.cost x.e u := by
    intro u
    show lqCost Q R P _ u N = lqCost Q R P _ u N
    unfold lqCost
    have e1 : ∀ t, quad Q (hy.x x.e (fun _ => 0) u t) = quad Q (p.x x.e u t) := fun t => quad_congr hw.symQ.1 hw.symQ.2.1 (hstate u t)
    have e2 : quad P (hy.x x.e (fun _ => 0) u N) = quad P (p.x x.e u N) := quad_congr hw.symP.1 hw.symP.2.1 (hstate u N)
    simp only [e1]
    rw [e2]
  obtain ⟨o, o1, o2, o3⟩ := C73_partial L hL G hG S N Q R P X_N hargs hw hnx hg c hc x hx ht
  have hzero : ∀ a : HMPC.Answer, (∀ m ∈ a.modes, m = 0) → (fun t => a.modes.getD t 0) = fun _ => 0 := fun a hz => by
    funext t
    rw [List.getD_eq_getElem?_getD]
    cases hm : a.modes[t]? with
    | none => rfl
    | some m => exact hz m (List.mem_of_getElem? hm)
  -- an answer with all modes 0 is the answer of the linear controller
  have hopt : ∀ a, o = some a → (∀ m ∈ a.modes, m = 0) → p.Opt x.e (inputsOf a.u) ∧ a.V = p.cost x.e (inputsOf a.u) ∧
      ∀ t ≤ N, ∀ k < S.nx, (a.x.getD t vec0).e k = p.x x.e (inputsOf a.u) t k := by
    intro a ha hz
    obtain ⟨k1, k2⟩ := o2 a ha
    have hf := k1.feas
    have hv := k1.value
    have htr := k1.traj
    rw [hzero a hz] at hf hv htr
    rw [hcost] at hv
    have hf' := (hfeas _).1 ((feas_iff_ineq hno _ _ _).2 hf)
    refine ⟨⟨hf', fun u' hu' => ?_⟩, hv, fun t ht k hk => (htr t ht k hk).trans (hstate _ t k hk)⟩
    rw [← hv, ← hcost]
    exact k2 _ _ ((hfeas u').2 hu')
  obtain ⟨f1, -⟩ := r2 none x (hx.trans enx.symm)
  change MPC.feedforward L ⟨S1, N, Q, R, P, D, X_N, none, q⟩ x = .ok (none, none) ∨ ∃ us V, MPC.feedforward L ⟨S1, N, Q, R, P, D, X_N, none, q⟩ x = .ok (some us, some V) ∧ us.length = N ∧
        (∀ u ∈ us, u.n = S1.nu) ∧ p.Opt x.e (inputsOf us) ∧ V = p.cost x.e (inputsOf us) ∧
        ∀ u, p.Opt x.e u → ∀ t < N, ∀ s < S1.nu, u t s = inputsOf us t s at f1
  have hin : ∀ (l : List (Vec ℝ)) t, inputsOf l t = (l.getD t vec0).e := fun l t => rfl
  have hlist : ∀ (u : List (Vec ℝ)) t w, u[t]? = some w → ∀ s < S1.nu, inputsOf u t s = w.e s := fun u t w hw s _ => by
    unfold inputsOf; rw [List.getD_eq_getElem?_getD, hw]; rfl
  refine ⟨fun us V hus hV => ?_, fun a ha hV => ?_, fun K dare hda hdare hPK hI hmem => ?_⟩
  · rcases f1 with k | ⟨us', V', k, g1, g2, g3, g4, g5⟩
    · rw [hus] at k
      cases k
    rw [hus] at k
    cases k
    cases o with
    | none => exact absurd ((hfeas _).2 g3.1) ((o3 hno).1.1 rfl _ _)
    | some a =>
      have hle : a.V ≤ V := by
        rw [g4, ← hcost]
        exact (o2 a rfl).2 _ _ ((hfeas _).2 g3.1)
      obtain ⟨k1, k2⟩ := o2 a rfl
      refine ⟨a, o1, hle, ?_⟩
      obtain ⟨xs, hsim, htr⟩ := ((C50 S1.nx S1.nu S1.A S1.B (Vec.zeros S1.nx) hsys x (hx.trans enx.symm) S1._controllable).1 us g2).2
      have hxs : ∀ t y, xs[t]? = some y → ∀ i < S1.nx, y.e i = p.x x.e (inputsOf us) t i :=
        htr.traj (nu := S1.nu) (fun _ _ => hsys.2.1) (fun _ _ => hsys.2.2.2.1) (inputsOf us) (hlist us)
      have hsame : (∀ m ∈ a.modes, m = 0) → V = a.V ∧ (∀ t < N, ∀ s < S.nu, (us.getD t vec0).e s = (a.u.getD t vec0).e s) ∧
          ∀ t < N + 1, ∀ k < S.nx, (xs.getD t vec0).e k = (a.x.getD t vec0).e k := by
        intro hz
        obtain ⟨m1, m2, m3⟩ := hopt a rfl hz
        have hu := g5 _ m1
        refine ⟨?_, fun t ht s hs => (hu t ht s (enu ▸ hs)).symm, fun t ht k hk => ?_⟩
        · rw [g4, m2]
          exact LinOcp.cost_congr hps (fun _ _ => rfl) fun t ht s hs => (hu t ht s hs).symm
        · have hlt : t < xs.length := by rw [htr.1, g1]; exact ht
          rw [m3 t (by omega) k hk, List.getD_eq_getElem?_getD, List.getElem?_eq_getElem hlt]
          show xs[t].e k = _
          rw [hxs t _ (List.getElem?_eq_getElem hlt) k (enx ▸ hk)]
          exact (LinOcp.x_congr hps (N := N) (fun _ _ => rfl) hu t (by omega) k (lt_of_lt_of_eq hk enx.symm)).symm
      have hcmp : Asserts (compareAnswer G c x us xs (some V) a) (∀ m ∈ a.modes, m = 0) :=
        compare_asserts hN hcN g1 (fun v hv => (g2 v hv).trans enu) (htr.1.trans (by rw [g1])) (fun v hv => (htr.2.2.1 v hv).trans enx)
          k1.inputs.1 k1.inputs.2 k1.states.1 k1.states.2 o1 hsame
      have hrun : checkHybridLinear L G S1 ⟨S1, N, Q, R, P, D, X_N, none, q⟩ c x = (compareAnswer G c x us xs (some V) a >>= fun _ => compareMpqp L c x us V a.modes) := by
        unfold checkHybridLinear
        rw [hus, Py.ok_bind]
        show (S1.simulate x us >>= _) = _
        rw [show S1.simulate x us = .ok xs from hsim, Py.ok_bind, o1]
        rfl
      rw [hrun]
      refine ⟨fun hz => ?_, fun hz => ?_⟩
      · obtain ⟨e1, e2, -⟩ := hsame hz
        rw [hcmp.1 hz, Py.ok_bind, e1]
        exact compareMpqp_ok hL hG hargs hw hnx hg hno hc hx ht o1 (hle.trans_lt hV) g1 (fun v hv => (g2 v hv).trans enu) e2
      · rw [hcmp.2 hz]
        rfl
  · have hc2 : o = some a := by
      rw [ha] at o1
      exact (Except.ok.inj o1).symm
    obtain ⟨k1, -⟩ := o2 a hc2
    have hq := compareMpqp_ok hL hG hargs hw hnx hg hno hc hx ht ha hV k1.inputs.1 k1.inputs.2 fun _ _ _ _ => rfl
    refine ⟨hq, ?_⟩
    have hrun : checkHybridModes L G c x = (assertTrue (decide (1 ≤ a.modes.sum)) >>= fun _ => compareMpqp L c x a.u a.V a.modes) := by
      unfold checkHybridModes
      rw [ha]
      rfl
    have hsum : 1 ≤ a.modes.sum ↔ ∃ m ∈ a.modes, m ≠ 0 := by
      rw [Nat.one_le_iff_ne_zero, ne_eq, List.sum_eq_zero_iff]
      push Not
      rfl
    rw [hrun]
    refine ⟨fun hm => ?_, fun hm => ?_⟩
    · rw [decide_eq_true (hsum.2 hm), show assertTrue true = .ok () from rfl, Py.ok_bind]
      exact hq
    · rw [decide_eq_false fun e => hm (hsum.1 e)]
      rfl
  · obtain ⟨hP, k1, k2, -⟩ := solve_dare_ok hda hdare hPK
    obtain ⟨c', hc', h67⟩ := C67 L hL S1 hda.fresh hda.nx N Q R P K D X_N hmargs dare hdare hPK hI
    rw [r1] at hc'
    cases hc'
    obtain ⟨us, V, q1, q2, q3, q4⟩ := h67 x (hx.trans enx.symm) hmem.1
    rcases f1 with k | ⟨us', V', k, g1, g2, g3, g4, g5⟩
    · rw [q1] at k
      cases k
    rw [q1] at k
    cases k
    cases o with
    | none => exact absurd ((hfeas _).2 g3.1) ((o3 hno).1.1 rfl _ _)
    | some a =>
      have hle : a.V ≤ V := by
        rw [g4, ← hcost]
        exact (o2 a rfl).2 _ _ ((hfeas _).2 g3.1)
      obtain ⟨j1, j2⟩ := o2 a rfl
      refine ⟨a, o1, q3 ▸ hle, ?_⟩
      -- the lists of the LQR
      obtain ⟨ys, ul, l1, l2, l3, l4⟩ := lqrInputs_ok hsys k1 k2 N x (hx.trans enx.symm)
      obtain ⟨zs, ul', z1, z2, z3, z4⟩ := (C50 S1.nx S1.nu S1.A S1.B (Vec.zeros S1.nx) hsys x (hx.trans enx.symm) S1._controllable).2 N K k1 k2
      have hlq : ∀ (ys ul : List (Vec ℝ)), ul.length = N → IsTrajectory S1.nx (fun _ => S1.A) (fun _ => S1.B) (fun _ => Vec.zeros S1.nx) x ul ys →
          (∀ (t : ℕ) (y v : Vec ℝ), ys[t]? = some y → ul[t]? = some v → v.n = S1.nu ∧ ∀ s < S1.nu, v.e s = rowVal K s y.e) →
          (∀ t y, ys[t]? = some y → ∀ i < S1.nx, y.e i = p.x x.e (inputsOf ul) t i) ∧ ∀ t < N, ∀ s < S1.nu, inputsOf ul t s = rowVal K s (p.x x.e (inputsOf ul) t) := by
        intro ys ul l2 l3 l4
        have htraj : ∀ t y, ys[t]? = some y → ∀ i < S1.nx, y.e i = p.x x.e (inputsOf ul) t i :=
          l3.traj (nu := S1.nu) (fun _ _ => hsys.2.1) (fun _ _ => hsys.2.2.2.1) (inputsOf ul) (hlist ul)
        refine ⟨htraj, fun t ht s hs => ?_⟩
        have a1 : t < ul.length := by omega
        have a2 : t < ys.length := by rw [l3.1]; omega
        obtain ⟨-, a4⟩ := l4 t ys[t] ul[t] (List.getElem?_eq_getElem a2) (List.getElem?_eq_getElem a1)
        rw [hlist ul t ul[t] (List.getElem?_eq_getElem a1) s hs, a4 s hs]
        exact rowVal_congr' s fun j hj => htraj t _ (List.getElem?_eq_getElem a2) j (k2 ▸ hj)
      obtain ⟨-, w2⟩ := hlq ys ul l2 l3 l4
      obtain ⟨w3, w4⟩ := hlq zs ul' z2 z3 z4
      have hs1 := lqr_same hps q4 w2
      have hs2 := lqr_same hps q4 w4
      have v1 : np.dotVM x P = .ok (Mat.vecMul x P) := if_pos (hx.trans hw.symP.1.symm)
      have v2 : np.dotVV (Mat.vecMul x P) x = .ok ((Mat.vecMul x P).dot x) := if_pos (hw.symP.2.1.trans hx.symm)
      have v3 : 0.5 * (Mat.vecMul x P).dot x = V := by
        have : (Mat.vecMul x P).dot x = quad P x.e := by
          show ∑ j ∈ range P.nc, (∑ i ∈ range x.n, x.e i * P.e i j) * x.e j = _
          unfold quad
          rw [sum_comm, hx, hw.symP.1]
          exact sum_congr rfl fun j _ => sum_mul _ _ _
        rw [this, q3]
        norm_num
      have hrun : checkHybridLqr G S1 N P K X_N c x = compareAnswer G c x ul zs (some V) a := by
        unfold checkHybridLqr
        rw [contains_of_point hX hXr x hx hmem, Py.ok_bind, show assertTrue true = .ok () from rfl, Py.ok_bind, v1, Py.ok_bind, v2, Py.ok_bind, l1, Py.ok_bind,
          show S1.simulate_closed_loop x N K = .ok zs from z1, Py.ok_bind, o1, v3]
        rfl
      rw [hrun]
      refine compare_asserts hN hcN l2 (nu := S.nu) (fun v hv => ?_) (z3.1.trans (by rw [z2])) (fun v hv => (z3.2.2.1 v hv).trans enx)
          j1.inputs.1 j1.inputs.2 j1.states.1 j1.states.2 o1 fun hz => ?_
      · obtain ⟨t, ht, rfl⟩ := List.getElem_of_mem hv
        have a2 : t < ys.length := by rw [l3.1]; omega
        exact (l4 t ys[t] ul[t] (List.getElem?_eq_getElem a2) (List.getElem?_eq_getElem ht)).1.trans enu
      · obtain ⟨m1, m2, m3⟩ := hopt a rfl hz
        have hu := g5 _ m1
        refine ⟨?_, fun t ht s hs => ?_, fun t ht k hk => ?_⟩
        · rw [g4, m2]
          exact LinOcp.cost_congr hps (fun _ _ => rfl) fun t ht s hs => (hu t ht s hs).symm
        · exact ((hs1 t ht.le).2 ht s (lt_of_lt_of_eq hs enu.symm)).symm.trans (hu t ht s (enu ▸ hs)).symm
        · have hlt : t < zs.length := by rw [z3.1, z2]; exact ht
          rw [m3 t (by omega) k hk, List.getD_eq_getElem?_getD, List.getElem?_eq_getElem hlt]
          show zs[t].e k = _
          rw [w3 t _ (List.getElem?_eq_getElem hlt) k (enx ▸ hk), ← (hs2 t (by omega)).1]
          exact (LinOcp.x_congr hps (N := N) (fun _ _ => rfl) hu t (by omega) k (lt_of_lt_of_eq hk enx.symm)).symm

/-- the system of `bent_design` with the horizon 3.  At `2` the second mode, whose domain is `5 ≤ x ≤ 6`, cannot be reached, and the comparison with the LQR passes; at `6` the first mode of the answer is
the second one, and the part `with change of the mode sequence` passes. -/
example (L : Lib) (hL : LibSpec L) (G : Gurobi) (hG : GurobiSpec G) : ∃ K X_N c, HMPC.init L bent 3 half1 one1 one1 X_N = .ok c ∧
    checkHybridLqr G integrator 3 one1 K X_N c ⟨1, fun _ => 2⟩ = .ok () ∧ checkHybridModes L G c ⟨1, fun _ => 6⟩ = .ok () := by
  obtain ⟨dare, K, hda, hd, hPK, T, X_N, c, t1, t2, hI, hset, hX, hXC, hnt, -, a, v, y, m, e1, e2, -⟩ := bent_design L hL G hG
  obtain ⟨hP1, -⟩ := solve_dare_ok integrator_dareArgs hd hPK
  have hw : Weights 1 1 half1 one1 one1 := weights_of_dare integrator_dareArgs hP1
  have hXr : 0 < X_N.A.nr := Nat.pos_of_ne_zero fun e => by
    have := (hset fun _ => 3).1 fun i hi => by omega
    norm_num at this
  obtain ⟨c', cl, s1, s2, s3⟩ := C193 L hL G hG _ _ bent_sys bent bent_init bent_dom one_pos integrator boxXU rfl rfl half1 one1 one1 hw 3 (by norm_num) X_N hX hXr hXC
  rw [t2] at s1
  cases s1
  obtain ⟨hsh, hok, hg, hdm⟩ := pwa_of_init bent_sys bent_init bent_dom
  have hargs : HybArgs bent 3 half1 one1 one1 X_N := ⟨hsh, by norm_num, hw.symQ, hw.symP, ⟨hw.symR.1, hw.symR.2.1⟩, ⟨hX.1, hX.2.1⟩⟩
  have hcons : ∀ n : ℤ, ∀ a, c.feedforward G ⟨1, fun _ => (n : ℝ)⟩ = .ok (some a) → Consistent (hyb bent 3 half1 one1 one1 X_N) (fun _ => (n : ℝ)) a := fun n a ha => by
    obtain ⟨o, o1, o2, -⟩ := C73_partial L hL G hG bent 3 half1 one1 one1 X_N hargs hw one_pos hg c t2 ⟨1, fun _ => (n : ℝ)⟩ rfl (hnt n)
    rw [ha] at o1
    exact (o2 a (Except.ok.inj o1).symm).1
  have hdom0 : ∀ w, IneqHold (domAt bent 0).A (domAt bent 0).b w → -5 ≤ w 0 ∧ w 0 ≤ 5 ∧ -1 ≤ w 1 ∧ w 1 ≤ 1 := fun w hw => by
    have : boxXU.Mem w := (mem_noeq rfl _).2 hw
    obtain ⟨k1, k2⟩ := (boxXU_mem w).1 this
    exact ⟨(abs_le.1 k1).1, (abs_le.1 k1).2, (abs_le.1 k2).1, (abs_le.1 k2).2⟩
  have hdom1 : ∀ w, IneqHold (domAt bent 1).A (domAt bent 1).b w → 5 ≤ w 0 := fun w hw => by
    have : (strip 5 6).Mem w := (mem_noeq rfl _).2 hw
    exact ((strip_mem w).1 this).2.1
  refine ⟨K, X_N, c, t2, ?_, ?_⟩
  · obtain ⟨-, -, k⟩ := s3 ⟨1, fun _ => 2⟩ rfl (by simpa using hnt 2)
    obtain ⟨a, a1, -, a3⟩ := k K dare hda hd hPK hI ((mem_noeq hXC _).2 ((hset _).2 (by norm_num)))
    refine a3.1 fun m hm => ?_
    have hc := hcons 2 a (by simpa using a1)
    obtain ⟨f1, f2, -⟩ := hc.feas
    set μ : ℕ → ℕ := fun t => a.modes.getD t 0 with hμ
    set u := inputsOf a.u
    have hstep : ∀ t, μ t = 0 → (hyb bent 3 half1 one1 one1 X_N).x (fun _ => ((2 : ℤ) : ℝ)) μ u (t + 1) 0 = (hyb bent 3 half1 one1 one1 X_N).x (fun _ => ((2 : ℤ) : ℝ)) μ u t 0 + u t 0 := by
      intro t h0
      show Spec.affine (sysAt bent (μ t)).A (sysAt bent (μ t)).B (sysAt bent (μ t)).c _ _ 0 = _
      rw [h0]
      norm_num [Spec.affine, bent, sysAt, one1, Vec.zeros, HybOcp.x]
    have hmode : ∀ t < 3, (hyb bent 3 half1 one1 one1 X_N).x (fun _ => ((2 : ℤ) : ℝ)) μ u t 0 ≤ 2 + t → μ t = 0 ∧
        (hyb bent 3 half1 one1 one1 X_N).x (fun _ => ((2 : ℤ) : ℝ)) μ u (t + 1) 0 ≤ 2 + (t + 1 : ℕ) := by
      intro t ht hle
      have g1 : μ t < 2 := f1 t ht
      have g2 := f2 t ht
      have h0 : μ t = 0 := by
        by_contra h0
        have h1 : μ t = 1 := by omega
        have g3 : IneqHold (domAt bent (μ t)).A (domAt bent (μ t)).b _ := g2
        rw [h1] at g3
        have g4 := hdom1 _ g3
        have : (5 : ℝ) ≤ (hyb bent 3 half1 one1 one1 X_N).x (fun _ => ((2 : ℤ) : ℝ)) μ u t 0 := g4
        have : (t : ℝ) ≤ 2 := by exact_mod_cast (by omega : t ≤ 2)
        linarith
      refine ⟨h0, ?_⟩
      have g3 : IneqHold (domAt bent (μ t)).A (domAt bent (μ t)).b _ := g2
      rw [h0] at g3
      have g4 := (hdom0 _ g3).2.2.2
      have : u t 0 ≤ 1 := g4
      rw [hstep t h0, Nat.cast_succ]
      linarith
    have hle : ∀ t ≤ 3, (hyb bent 3 half1 one1 one1 X_N).x (fun _ => ((2 : ℤ) : ℝ)) μ u t 0 ≤ 2 + t := by
      intro t
      induction t with
      | zero => intro _; norm_num [HybOcp.x, Spec.traj]
      | succ t ih => exact fun ht => (hmode t (by omega) (ih (by omega))).2
    obtain ⟨t, ht, rfl⟩ := List.getElem_of_mem hm
    have hlen : a.modes.length = 3 := hc.modes
    rw [← List.getD_eq_getElem _ 0 ht]
    exact (hmode t (by omega) (hle t (by omega))).1
  · obtain ⟨-, k, -⟩ := s3 ⟨1, fun _ => 6⟩ rfl (by simpa using hnt 6)
    refine (k a e1 (e2.trans_lt (by norm_num))).2.1 ?_
    have hc := hcons 6 a (by simpa using e1)
    obtain ⟨f1, f2, -⟩ := hc.feas
    have hlen : a.modes.length = 3 := hc.modes
    refine ⟨a.modes[0], List.getElem_mem _, fun h0 => ?_⟩
    have g2 : IneqHold (domAt bent (a.modes.getD 0 0)).A (domAt bent (a.modes.getD 0 0)).b _ := f2 0 (by show 0 < 3; norm_num)
    rw [List.getD_eq_getElem _ 0 (by omega), h0] at g2
    have : ((6 : ℤ) : ℝ) ≤ 5 := (hdom0 _ g2).2.1
    norm_num at this

end Verif.Props
