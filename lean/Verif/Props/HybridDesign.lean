import Verif.Props.HybridLoop
import Verif.Props.MpcStability
import Verif.Props.PwaSystem

/- The design of the hybrid controllers in the example notebooks: C118 of properties.jsonl. -/
namespace Verif.Props
open Finset Spec Dyn Control Filter Topology

/-- a domain of the notebooks: bounded, not empty, given by inequalities only -/
structure DomOk (n : ℕ) (D : Poly) : Prop where
  inv : D.Inv n
  rows : 0 < D.A.nr
  noEq : D.C.nr = 0
  ne : ∃ w, D.Mem w
  bounded : IsBounded n D.A D.b D.C D.d

/-- the feasible trajectory that stays in the terminal set -/
theorem terminal_feas {p : HybOcp} (h : p.TerminalDecrease) {x0 : ℕ → ℝ} (hx : p.Term x0) :
    ∃ m u, p.Feas x0 m u ∧ p.cost x0 m u ≤ 1 / 2 * quad p.P x0 := by
  choose! m hm u hst hT hc using h
  let xl : ℕ → ℕ → ℝ := fun t => Nat.rec x0 (fun _ y => p.next (m y) y (u y)) t
  have hin : ∀ t, p.Term (xl t) := by
    intro t
    induction t with
    | zero => exact hx
    | succ t ih => exact hT _ ih
  have hxl : ∀ t, p.x x0 (fun t => m (xl t)) (fun t => u (xl t)) t = xl t := by
    intro t
    induction t with
    | zero => rfl
    | succ t ih => rw [HybOcp.x_succ, ih]
  refine ⟨fun t => m (xl t), fun t => u (xl t), (HybOcp.feas_iff _ _ _).2 ⟨fun t _ => ⟨hm _ (hin t), ?_⟩, ?_⟩, ?_⟩
  · rw [hxl]
    exact hst _ (hin t)
  · rw [hxl]
    exact hin _
  · rw [HybOcp.cost_eq]
    simp only [hxl]
    have key : ∀ n, ∑ t ∈ range n, p.stageCost (xl t) (u (xl t)) + 1 / 2 * quad p.P (xl n) ≤ 1 / 2 * quad p.P x0 := by
      intro n
      induction n with
      | zero => simp [xl]
      | succ n ih =>
        rw [Finset.sum_range_succ]
        have : 1 / 2 * quad p.P (xl (n + 1)) + _ ≤ _ := hc _ (hin n)
        linarith
    linarith [key p.N]

/-- what the constructor of the piecewise affine system stores -/
theorem pwa_of_init {systems : List Sys} {domains : List Poly} {S : PWA} (hs : ∀ T ∈ systems, SysOk T)
    (hS : PWA.init systems domains = .ok S) (hd : ∀ D ∈ domains, DomOk (S.nx + S.nu) D) :
    PwaShape S ∧ PwaOk S ∧ GoodDomains S ∧ (∀ j < S.nm, DomOk (S.nx + S.nu) (domAt S j)) := by
  obtain ⟨c1, -, c3⟩ := C58 systems domains hs
  obtain ⟨p1, p2, p3, p4, p5, p6, p7⟩ := c3 S hS
  obtain ⟨q1, q2, -⟩ := c1.1 ⟨S, hS⟩
  have hmem : ∀ j < S.nm, DomOk (S.nx + S.nu) (domAt S j) := fun j hj =>
    hd _ (by rw [← p3]; exact getD_mem _ (by rw [p3, ← p4]; exact hj))
  refine ⟨⟨p5, by rw [p3, p4], ?_, p6, fun D hD => ?_⟩, ⟨by rw [p5, p3, p4], fun T hT => (p6 T hT).1, fun D hD => ?_⟩, ⟨fun j hj => (hmem j hj).inv,
    fun j hj => (hmem j hj).rows, fun j hj => (hmem j hj).ne, fun j hj => (hmem j hj).bounded⟩, hmem⟩
  · rw [p4, ← q2]
    exact List.length_pos_of_ne_nil q1
  · rw [p3] at hD
    exact ⟨(hd D hD).inv.1, (hd D hD).inv.2.1⟩
  · rw [p3] at hD
    exact ⟨(hd D hD).inv, (hd D hD).rows⟩

/-- C118: the design of the hybrid notebooks.  Let mode `i` of the piecewise affine system be the linear system `S1` on the domain `D` with the origin in its
interior, and let `P`, `K` be the answer of `S1.solve_dare(Q, R)` with positive definite weights.  Then `S1.mcais(K, D)` returns a set `X_N`, and
`HybridModelPredictiveController(S, N, Q, R, P, X_N)` can be constructed.  Let `X_N` be invariant (as in C99).  For programs without tiny entries: from each
state of `X_N` the controller answers, with a value of at most `1/2 x P x`; from each state with a feasible trajectory the closed loop of `feedback` and
`simulate` stays in the domains and goes on as long as overlapping modes agree along it; the value decreases by at least the stage cost; and the loop
reaches each neighbourhood of the origin after a number of steps that depends only on the first value. -/
theorem C118 (L : Lib) (hL : LibSpec L) (G : Gurobi) (hG : GurobiSpec G) (systems : List Sys) (domains : List Poly) (hs : ∀ T ∈ systems, SysOk T)
    (S : PWA) (hS : PWA.init systems domains = .ok S) (hdom : ∀ D ∈ domains, DomOk (S.nx + S.nu) D)
    (i : ℕ) (S1 : LinearSystem) (D : Poly) (hi : systems[i]? = some (.lin S1)) (hDi : domains[i]? = some D) (hin : OriginInside (S.nx + S.nu) D)
    (Q R P K : Mat ℝ) (h : DareArgs S1 Q R) (dare : Mat ℝ → Mat ℝ → Mat ℝ → Mat ℝ → Py (Mat ℝ))
    (hdare : ∀ P, dare S1.A S1.B Q R = .ok P → DareSpec S1.nx S1.nu S1.A S1.B Q R P)
    (hPK : (LinearSystem.solve_dare dare Q R S1).1 = .ok (P, K)) (N : ℕ) (hN : 0 < N) :
    ∃ T0 X_N c, (∀ fuel ≥ T0, LinearSystem.mcais L S1 K D fuel = .ok (some X_N)) ∧ HMPC.init L S N Q R P X_N = .ok c ∧
      ((problem S1 N Q R P D X_N).TerminalInvariant K →
        (∀ x : Vec ℝ, x.n = S.nx → IneqHold X_N.A X_N.b x.e → MiNoTiny c.mpmiqp x.e →
          ∃ a, c.feedforward G x = .ok (some a) ∧ a.V ≤ 1 / 2 * quad P x.e) ∧
        (∀ (x u : ℕ → Vec ℝ) (T : ℕ), HybridLoop G c S x u T → (∀ t ≤ T, MiNoTiny c.mpmiqp (x t).e) → (∀ t < T, ModesAgree S (x t) (u t)) →
          (∃ m v, (hyb S N Q R P X_N).Feas (x 0).e m v) →
          (∀ t ≤ T, ∃ a v y m, c.feedforward G (x t) = .ok (some a) ∧ c.feedback G (x t) = .ok (some v) ∧ S.simulate (x t) [v] = .ok ([x t, y], [m])) ∧
          (∀ t < T, ∃ E ∈ domains, E.Mem (pair S.nx (x t).e (u t).e)) ∧
          ∀ t < T, ∀ a a', c.feedforward G (x t) = .ok (some a) → c.feedforward G (x (t + 1)) = .ok (some a') →
            a'.V + 1 / 2 * (quad Q (x t).e + quad R (u t).e) ≤ a.V) ∧
        ∀ ε > 0, ∀ V, ∃ T, ∀ x u : ℕ → Vec ℝ, HybridLoop G c S x u T → (∀ t ≤ T, MiNoTiny c.mpmiqp (x t).e) → (∀ t < T, ModesAgree S (x t) (u t)) →
          (∃ a, c.feedforward G (x 0) = .ok (some a) ∧ a.V ≤ V) → ∃ t < T, ∀ k < S.nx, |(x t).e k| ≤ ε) := by
  obtain ⟨hsh, hok, hg, hdm⟩ := pwa_of_init hs hS hdom
  obtain ⟨-, -, c3⟩ := C58 systems domains hs
  obtain ⟨p1, p2, p3, p4, p5, p6, p7⟩ := c3 S hS
  obtain ⟨enx, enu⟩ : S1.nx = S.nx ∧ S1.nu = S.nu := p1 (.lin S1) (List.mem_of_getElem? hi)
  obtain ⟨Ti, hTi, hlaw⟩ := (p7 i).2 S1 hi
  have hil : i < S.nm := by
    rw [p4]
    exact (List.getElem?_eq_some_iff.1 hDi).1
  have hsysi : sysAt S i = Ti := by
    show S.affine_systems.getD i sys0 = Ti
    rw [List.getD_eq_getElem?_getD, hTi]
    rfl
  have hdomi : domAt S i = D := by
    show S.domains.getD i poly0 = D
    rw [List.getD_eq_getElem?_getD, p3, hDi]
    rfl
  have hD := hdomi ▸ hdm i hil
  have hnx : 0 < S.nx := enx ▸ h.nx
  obtain ⟨T0, X_N, cl, t1, t2, -, -⟩ := C99_partial L hL S1 Q R P K h dare hdare hPK D (by rw [enx, enu]; exact hD.inv) hD.noEq
    (by rw [enx, enu]; exact hin) (by rw [enx, enu]; exact hD.bounded) N hN
  have horg : D.Mem fun _ => 0 := by
    obtain ⟨ε, hε, hm⟩ := hin
    exact hm _ fun j _ => by simp [hε.le]
  obtain ⟨hP, k1, k2, hl⟩ := solve_dare_ok h hdare hPK
  obtain ⟨hsz, hXC, -⟩ := terminalInvariant_of_mcais L hL S1 h.nx K D h.sys ⟨k1, k2⟩ (by rw [enx, enu]; exact hD.inv) hD.noEq horg
    (by rw [enx, enu]; exact hD.bounded) T0 X_N (t1 T0 le_rfl) N Q R P
  have hw : Weights S.nx S.nu Q R P := by
    have := weights_of_dare h hP
    rwa [enx, enu] at this
  have hargs : HybArgs S N Q R P X_N := ⟨hsh, hN, hw.symQ, hw.symP, ⟨hw.symR.1, hw.symR.2.1⟩, ⟨hsz.1.trans enx, hsz.2⟩⟩
  have hno : (hyb S N Q R P X_N).NoEq := ⟨fun j hj => (hdm j hj).noEq, hXC⟩
  obtain ⟨c, hc, -, -⟩ := C72 L hL S N Q R P X_N hargs hnx hg
  have hmargs : MpcArgs S1 N Q R P D X_N :=
    ⟨⟨h.sys, hN, weights_of_dare h hP, by rw [enx, enu]; exact ⟨hD.inv.1, hD.inv.2.1⟩, hsz⟩,
      .inl ((Poly.hasRows_of_bounded (by omega) hD.bounded).resolve_right (by have := hD.noEq; omega))⟩
  refine ⟨T0, X_N, c, t1, hc, fun hinv => ?_⟩
  have hlin := terminalDecrease_of_dare S1 h.fresh h.nx N Q R P K D X_N hmargs dare hdare hPK
  -- mode `i` with `u = K x`
  have hnext : ∀ x v : ℕ → ℝ, ∀ k < S.nx, (hyb S N Q R P X_N).next i x v k = (problem S1 N Q R P D X_N).next x v k := by
    intro x v k hk
    show Spec.affine (sysAt S i).A (sysAt S i).B (sysAt S i).c x v k = ∑ j ∈ range S1.A.nc, S1.A.e k j * x j + ∑ j ∈ range S1.B.nc, S1.B.e k j * v j + 0
    rw [hsysi, hlaw x v k hk, h.sys.2.1, h.sys.2.2.2.1, enx, enu, add_zero]
  have hdec : (hyb S N Q R P X_N).TerminalDecrease := by
    rintro x ⟨hx, -⟩
    obtain ⟨i1, i2⟩ := hinv x hx
    refine ⟨i, hil, LinOcp.gain K x, ⟨?_, eqHold_of_noEq (hno.1 i hil) _⟩, ⟨?_, eqHold_of_noEq hXC _⟩, ?_⟩
    · show IneqHold (domAt S i).A (domAt S i).b (pair S.nx x (LinOcp.gain K x))
      rw [hdomi, ← enx]
      exact i1
    · exact (ineq_congr hargs.XN.1 (hnext x _)).2 i2
    · show 1 / 2 * quad P _ + _ ≤ _
      rw [quad_congr hw.symP.1 hw.symP.2.1 (hnext x _)]
      exact hlin x hx
  refine ⟨fun x hx hxN ht => ?_, fun x u T hl ht hagr hf => ?_, (C101_partial L hL G hG S N Q R P X_N hargs hw hnx hg hok hno c hc ?_ hdec).1⟩
  · obtain ⟨m, v, hf, hcost⟩ := terminal_feas hdec (x0 := x.e) ⟨hxN, eqHold_of_noEq hXC _⟩
    obtain ⟨o, o1, o2, o3⟩ := C73_partial L hL G hG S N Q R P X_N hargs hw hnx hg c hc x hx ht
    cases o with
    | none => exact absurd hf ((o3 hno).1.1 rfl m v)
    | some a => exact ⟨a, o1, ((o2 a rfl).2 m v hf).trans hcost⟩
  · obtain ⟨r1, r2⟩ := C100_partial L hL G hG S N Q R P X_N hargs hw hnx hg hok hno c hc x u T hl ht hagr
    obtain ⟨f1, f2⟩ := r1 hdec.invariant hf
    refine ⟨fun t htT => ?_, fun t htT => ?_, fun t htT a a' ha ha' => (r2 hdec).1 t htT a a' ha ha'⟩
    · obtain ⟨g1, -, v, y, m, g3, g4⟩ := f1 t htT
      obtain ⟨a, ha, -⟩ := (hybrid_answer hL hG hargs hw hnx hg hno hc g1 (ht t htT)).1 v g3
      exact ⟨a, v, y, m, ha, g3, g4⟩
    · obtain ⟨j, hj, hm⟩ := f2 t htT
      have hjm : domAt S j ∈ domains := by rw [← p3]; exact getD_mem _ (by rw [p3, ← p4]; exact hj)
      exact ⟨domAt S j, hjm, (mem_noeq (hdm j hj).noEq _).2 hm⟩
  · rw [← enx]
    exact h.Qpos

end Verif.Props
