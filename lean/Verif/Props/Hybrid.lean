import Verif.Props.HybridBigM
import Verif.Proofs.HybridUnpack

/- Properties of the hybrid controller (C71-C73 and the second half of C65). -/
namespace Verif.Props
open Finset Spec Dyn Control

/-- C71: every point of the mixed-integer program with binary `d` is a trajectory of the system: in every step exactly one entry of `d` is
one, the entries of `z` are the next state in the block of that mode and zero elsewhere, the inequalities of the domains of the modes
and of the terminal set hold along the trajectory, and the cost is that of the trajectory.  The big-M constants do not matter here. -/
theorem C71 (L : Lib) (S : PWA) (N : ℕ) (Q R P : Mat ℝ) (X_N : Poly) (h : HybArgs S N Q R P X_N) (c : HMPC)
    (hrun : HMPC.init L S N Q R P X_N = .ok c) (x u z d : ℕ → ℝ) (hd : Binary (S.nm * N) d)
    (hf : MiFeas c.mpmiqp.Au c.mpmiqp.Az c.mpmiqp.Ad c.mpmiqp.Ax c.mpmiqp.b u z d x) :
    ∃ m : ℕ → ℕ, (∀ t < N, m t < S.nm ∧ ∀ i < S.nm, d (S.nm * t + i) = if i = m t then 1 else 0) ∧
      (∀ t < N, ∀ i < S.nm, ∀ k < S.nx, z (S.nx * S.nm * t + (S.nx * i + k))
        = if i = m t then (hyb S N Q R P X_N).x x m (unflat S.nu u) (t + 1) k else 0) ∧
      (hyb S N Q R P X_N).IneqFeas x m (unflat S.nu u) ∧
      miCost c.mpmiqp.Huu c.mpmiqp.Hzz c.mpmiqp.Hzx c.mpmiqp.Hxx u z x = (hyb S N Q R P X_N).cost x m (unflat S.nu u) :=
  miqp_sound h hrun hd hf

/-- the constants of a controller are bounds over the domains -/
theorem valid_bigM {L : Lib} (hL : LibSpec L) {S : PWA} {N : ℕ} {Q R P : Mat ℝ} {X_N : Poly} (h : HybArgs S N Q R P X_N) (hnx : 0 < S.nx)
    (hg : GoodDomains S) {c : HMPC} (hrun : HMPC.init L S N Q R P X_N = .ok c) : ValidBigM S c.alpha c.beta c.gamma := by
  obtain ⟨-, h1, h2, -⟩ := init_inv h hrun
  obtain ⟨al, be, ga, e1, e2, e3, e4⟩ := C70 L hL S h.pwa hnx hg
  rw [h1] at e1
  rw [h2] at e2
  obtain ⟨rfl, rfl⟩ := Prod.mk.inj (Except.ok.inj e1)
  cases Except.ok.inj e2
  intro i hi j hj x u hin
  exact ⟨fun k hk => ⟨(e3 i hi j hj k hk).1.2 ⟨x, u, hin, rfl⟩, (e3 i hi j hj k hk).2.2 ⟨x, u, hin, rfl⟩⟩,
    fun k hk => (e4 i hi j hj k hk).2 ⟨x, u, hin, rfl⟩⟩

theorem eqHold_of_noEq {C : Mat ℝ} {d : Vec ℝ} (h : C.nr = 0) (x : ℕ → ℝ) : EqHold C d x := fun i hi => by omega

theorem feas_iff_ineq {p : HybOcp} (h : p.NoEq) (x : ℕ → ℝ) (m : ℕ → ℕ) (u : ℕ → ℕ → ℝ) : p.Feas x m u ↔ p.IneqFeas x m u :=
  ⟨fun h => h.1, fun hf => ⟨hf, fun t ht => eqHold_of_noEq (h.1 _ (hf.1 t ht)) _, eqHold_of_noEq h.2 _⟩⟩

/-- C72: the constructor succeeds, and every trajectory that stays in the domains of its modes and ends in the terminal set is represented by a
point of the program with the same inputs and the same cost; if there are no equalities the values of the program over the points with binary
`d` are exactly the costs of the trajectories, over all the mode sequences (so the minima, and the infeasibility, agree). -/
theorem C72 (L : Lib) (hL : LibSpec L) (S : PWA) (N : ℕ) (Q R P : Mat ℝ) (X_N : Poly) (h : HybArgs S N Q R P X_N) (hnx : 0 < S.nx)
    (hg : GoodDomains S) :
    ∃ c, HMPC.init L S N Q R P X_N = .ok c ∧
      (∀ x m u, (hyb S N Q R P X_N).Feas x m u → ∃ v z d : ℕ → ℝ, (∀ t < N, ∀ s < S.nu, unflat S.nu v t s = u t s) ∧ Binary (S.nm * N) d ∧
        MiFeas c.mpmiqp.Au c.mpmiqp.Az c.mpmiqp.Ad c.mpmiqp.Ax c.mpmiqp.b v z d x ∧
        miCost c.mpmiqp.Huu c.mpmiqp.Hzz c.mpmiqp.Hzx c.mpmiqp.Hxx v z x = (hyb S N Q R P X_N).cost x m u) ∧
      ((hyb S N Q R P X_N).NoEq → ∀ x : ℕ → ℝ,
        {V | ∃ u z d, Binary (S.nm * N) d ∧ MiFeas c.mpmiqp.Au c.mpmiqp.Az c.mpmiqp.Ad c.mpmiqp.Ax c.mpmiqp.b u z d x ∧
          V = miCost c.mpmiqp.Huu c.mpmiqp.Hzz c.mpmiqp.Hzx c.mpmiqp.Hxx u z x}
        = {V | ∃ m u, (hyb S N Q R P X_N).Feas x m u ∧ V = (hyb S N Q R P X_N).cost x m u}) := by
  have hex : ∃ c, HMPC.init L S N Q R P X_N = .ok c := by
    obtain ⟨al, be, h1⟩ := dynamics_total hL h.pwa hnx hg
    obtain ⟨ga, h2⟩ := domains_total hL h.pwa hg
    obtain ⟨a1, a2, -, -⟩ := bigM_dynamics_inv h.pwa h1
    obtain ⟨a3, -, -⟩ := bigM_domains_inv h.pwa h2
    obtain ⟨q, e1, -⟩ := condense_hybrid_ok h.pwa a1 a2 a3 h.N ⟨h.Q.1, h.Q.2.1⟩ h.R ⟨h.P.1, h.P.2.1⟩ h.XN
    refine ⟨⟨S, N, Q, R, P, X_N, al, be, ga, q⟩, ?_⟩
    unfold HMPC.init
    rw [h1, Py.ok_bind]
    simp only []
    rw [h2, Py.ok_bind, e1, Py.ok_bind]
    rfl
  obtain ⟨c, hc⟩ := hex
  have hv := valid_bigM hL h hnx hg hc
  have main : ∀ x m u, (hyb S N Q R P X_N).Feas x m u → ∃ v z d : ℕ → ℝ, (∀ t < N, ∀ s < S.nu, unflat S.nu v t s = u t s) ∧ Binary (S.nm * N) d ∧
        MiFeas c.mpmiqp.Au c.mpmiqp.Az c.mpmiqp.Ad c.mpmiqp.Ax c.mpmiqp.b v z d x ∧
        miCost c.mpmiqp.Huu c.mpmiqp.Hzz c.mpmiqp.Hzx c.mpmiqp.Hxx v z x = (hyb S N Q R P X_N).cost x m u := by
    rintro x m u ⟨hf, hE, -⟩
    have hm : ∀ t < N, m t < S.nm := hf.1
    have hu : ∀ t < N, ∀ s < S.nu, u t s = unflat S.nu (flat S.nu u) t s := fun t _ s hs => (unflat_flat u t hs).symm
    obtain ⟨f1, f2⟩ := hyb_ineq_congr h (fun _ _ => rfl) hu hf
    have hx := hyb_x_congr (N := N) (Q := Q) (R := R) (P := P) (X_N := X_N) h.pwa (x0 := x) hm (fun _ _ => rfl) hu
    obtain ⟨z, d, k1, k2, k3⟩ := miqp_complete h hc hv f1 (fun t ht => by
      rw [← hx t (le_of_lt ht)]
      exact (eq_congr (hg.shape _ (hm t ht)).2.2.1 (pair_congr (fun _ _ => rfl) (hu t ht))).1 (hE t ht)) fun i hi => (hg.shape i hi).2.2.1
    exact ⟨flat S.nu u, z, d, fun t ht s hs => (hu t ht s hs).symm, k1, k2, k3.trans f2.symm⟩
  refine ⟨c, hc, main, fun hno x => Set.ext fun V => ⟨?_, ?_⟩⟩
  · rintro ⟨u, z, d, k1, k2, rfl⟩
    obtain ⟨m, -, -, k3, k4⟩ := miqp_sound h hc k1 k2
    exact ⟨m, _, (feas_iff_ineq hno _ _ _).2 k3, k4⟩
  · rintro ⟨m, u, k1, rfl⟩
    obtain ⟨v, z, d, -, k2, k3, k4⟩ := main x m u k1
    exact ⟨v, z, d, k2, k3, k4.symm⟩

/-- the lists of an answer are a trajectory of the system from `x0` in the listed modes that satisfies the inequalities of the domains
and of the terminal set, and the value is its cost -/
structure Consistent (p : HybOcp) (x0 : ℕ → ℝ) (a : HMPC.Answer) : Prop where
  inputs : a.u.length = p.N ∧ ∀ v ∈ a.u, v.n = p.nu
  modes : a.modes.length = p.N
  states : a.x.length = p.N + 1 ∧ ∀ v ∈ a.x, v.n = p.nx
  traj : ∀ t ≤ p.N, ∀ k < p.nx, (a.x.getD t vec0).e k = p.x x0 (fun t => a.modes.getD t 0) (inputsOf a.u) t k
  feas : p.IneqFeas x0 (fun t => a.modes.getD t 0) (inputsOf a.u)
  value : a.V = p.cost x0 (fun t => a.modes.getD t 0) (inputsOf a.u)

/-- C73, what holds: for a program without tiny entries at `x` the answer is a trajectory from `x` in the returned modes that satisfies the
inequalities, the value is its cost, and no trajectory in the domains that ends in the terminal set is cheaper; if there are no equalities
the answer is optimal, and four `None` are returned exactly when there is no trajectory.  Missing with respect to C73: tiny entries (false,
see `C73_false`), and `None` for problems that are infeasible because of equalities (see C75). -/
theorem C73_partial (L : Lib) (hL : LibSpec L) (G : Gurobi) (hG : GurobiSpec G) (S : PWA) (N : ℕ) (Q R P : Mat ℝ) (X_N : Poly)
    (h : HybArgs S N Q R P X_N) (hw : Weights S.nx S.nu Q R P) (hnx : 0 < S.nx) (hg : GoodDomains S) (c : HMPC)
    (hrun : HMPC.init L S N Q R P X_N = .ok c) (x : Vec ℝ) (hx : x.n = S.nx) (ht : MiNoTiny c.mpmiqp x.e) :
    ∃ o, c.feedforward G x = .ok o ∧
      (∀ a, o = some a → Consistent (hyb S N Q R P X_N) x.e a ∧ ∀ m u, (hyb S N Q R P X_N).Feas x.e m u → a.V ≤ (hyb S N Q R P X_N).cost x.e m u) ∧
      ((hyb S N Q R P X_N).NoEq → (o = none ↔ ∀ m u, ¬ (hyb S N Q R P X_N).Feas x.e m u) ∧
        ∀ a, o = some a → (hyb S N Q R P X_N).Opt x.e (fun t => a.modes.getD t 0) (inputsOf a.u)) := by
  obtain ⟨⟨cS, cN, -⟩, -, -, hsh, -, -⟩ := init_inv h hrun
  obtain ⟨c', hc', hcomp, -⟩ := C72 L hL S N Q R P X_N h hnx hg
  rw [hrun] at hc'
  cases Except.ok.inj hc'
  obtain ⟨s, s1, s2, s3, s4⟩ := C85_partial G hG _ _ _ _ c.mpmiqp hsh x hx ht
  have hff : c.feedforward G x = (c.mpmiqp.solve G x >>= fun sol => match sol.min with
      | none => return none
      | some V => match sol.u, sol.z, sol.d with
        | some u, some z, some d => do
          let a ← HMPC.unpack c.S c.N x u z d V
          return some a
        | _, _, _ => .error .typeError) := rfl
  have hmin : ∀ u z d, MiOpt c.mpmiqp.Huu c.mpmiqp.Hzz c.mpmiqp.Hzx c.mpmiqp.Hxx c.mpmiqp.Au c.mpmiqp.Az c.mpmiqp.Ad c.mpmiqp.Ax c.mpmiqp.b
      (S.nm * N) x.e u z d → ∀ m' u', (hyb S N Q R P X_N).Feas x.e m' u' →
        miCost c.mpmiqp.Huu c.mpmiqp.Hzz c.mpmiqp.Hzx c.mpmiqp.Hxx u z x.e ≤ (hyb S N Q R P X_N).cost x.e m' u' := by
    rintro u z d ⟨-, ho⟩ m' u' hf'
    obtain ⟨v', z', d', -, k1, k2, k3⟩ := hcomp x.e m' u' hf'
    rw [← k3]
    exact ho v' z' d' k1 k2
  cases hm : s.min with
  | none =>
    refine ⟨none, ?_, fun a ha => (by cases ha), fun hno => ⟨⟨fun _ m u hf => ?_, fun _ => rfl⟩, fun a ha => (by cases ha)⟩⟩
    · rw [hff, s1, Py.ok_bind]
      simp only [hm]
      rfl
    · -- the cheapest trajectory is an optimal point of the program
      refine s2.1 hm ?_
      obtain ⟨m', u', f', o'⟩ := hyb_opt_exists hL h hw ⟨m, u, hf.1⟩
      obtain ⟨v', z', d', -, k1, k2, k3⟩ := hcomp x.e m' u' ((feas_iff_ineq hno _ _ _).2 f')
      refine ⟨v', z', d', ⟨k1, k2⟩, fun v z d b1 b2 => ?_⟩
      obtain ⟨m2, -, -, b3, b4⟩ := miqp_sound h hrun b1 b2
      rw [k3, b4]
      exact o' m2 _ b3
  | some V =>
    obtain ⟨u, z, d, e1, e2, e3, n1, n2, n3, ho, hV⟩ := s4 V hm
    obtain ⟨m, m1, m2, m3, m4⟩ := miqp_sound h hrun ho.1.1 ho.1.2
    obtain ⟨a, a1, a2, a3, a4, a5, a6, a7, a8, a9, a10⟩ := HMPC.unpack_ok (S := S) (N := N) (x := x) (V := V) h.pwa.pos n1 n2 n3 m1
    have hfa : c.feedforward G x = .ok (some a) := by
      rw [hff, s1, Py.ok_bind]
      simp only [hm, e1, e2, e3]
      rw [cS, cN, a1, Py.ok_bind]
      rfl
    have hmt : ∀ t < N, m t = a.modes.getD t 0 := fun t ht => (a7 t ht).symm
    have hut : ∀ t < N, ∀ k < S.nu, unflat S.nu u.e t k = inputsOf a.u t k := fun t ht k _ => by rw [a5 t ht]
    obtain ⟨f1, f2⟩ := hyb_ineq_congr h hmt hut m3
    have hxt := hyb_x_congr (N := N) (Q := Q) (R := R) (P := P) (X_N := X_N) h.pwa (x0 := x.e) (fun t ht => (m1 t ht).1) hmt hut
    have hcons : Consistent (hyb S N Q R P X_N) x.e a := by
      refine ⟨⟨a3, a4⟩, a6, ⟨a8, fun v hv => ?_⟩, fun t ht k hk => ?_, f1, ?_⟩
      · obtain ⟨i, hi, rfl⟩ := List.getElem_of_mem hv
        rw [← List.getD_eq_getElem _ vec0 hi]
        cases i with
        | zero => rw [a9]; exact hx
        | succ i => exact (a10 i (by omega)).1
      · have ht' : t ≤ N := ht
        rw [← congrFun (hxt t ht') k]
        cases t with
        | zero => rw [a9]; rfl
        | succ t =>
          rw [(a10 t ht').2 k]
          exact block_sum (m1 t ht').1 (fun i hi => m2 t ht' i hi k hk) x.e
      · rw [a2, hV, m4]
        exact f2
    have hbest : ∀ m' u', (hyb S N Q R P X_N).Feas x.e m' u' → a.V ≤ (hyb S N Q R P X_N).cost x.e m' u' := fun m' u' hf' => by
      rw [a2, hV]
      exact hmin u.e z.e d.e ho m' u' hf'
    refine ⟨some a, hfa, fun a' ha' => ?_, fun hno => ⟨⟨fun h => (by cases h), fun h => absurd ((feas_iff_ineq hno _ _ _).2 m3) (h _ _)⟩, fun a' ha' => ?_⟩⟩
    · cases ha'
      exact ⟨hcons, hbest⟩
    · cases ha'
      refine ⟨(feas_iff_ineq hno _ _ _).2 f1, fun m' u' hf' => ?_⟩
      rw [← hcons.value]
      exact hbest m' u' hf'

/-- C65 for the hybrid controller: `feedback(x)` is the first input of `feedforward(x)`, `None` when there is none, and it raises when
`feedforward` raises -/
theorem C65_hybrid (G : Gurobi) (c : HMPC) (hN : 0 < c.N) (x : Vec ℝ) :
    (∀ e, c.feedforward G x = .error e → c.feedback G x = .error e) ∧
    (∀ a, c.feedforward G x = .ok (some a) → ∃ u, a.u[0]? = some u ∧ c.feedback G x = .ok (some u)) ∧
    (c.feedforward G x = .ok none → c.feedback G x = .ok none) := by
  refine ⟨fun e he => ?_, fun a ha => ?_, fun h => ?_⟩
  · unfold HMPC.feedback
    rw [he]
    rfl
  · have hu : ∃ v : Vec ℝ, a.u = MPC.slices v c.S.nu c.N := by
      unfold HMPC.feedforward at ha
      obtain ⟨s, -, ha⟩ := Py.bind_eq_ok ha
      cases hm : s.min with
      | none => rw [hm] at ha; cases ha
      | some V =>
        cases h1 : s.u <;> cases h2 : s.z <;> cases h3 : s.d <;> simp only [hm, h1, h2, h3] at ha <;> try (cases ha; done)
        obtain ⟨a', h4, h5⟩ := Py.bind_eq_ok ha
        cases h5
        unfold HMPC.unpack at h4
        obtain ⟨xs, -, h4⟩ := Py.bind_eq_ok h4
        obtain ⟨ms, -, h4⟩ := Py.bind_eq_ok h4
        cases h4
        exact ⟨_, rfl⟩
    obtain ⟨v, hv⟩ := hu
    cases hl : a.u with
    | nil =>
      have := congrArg List.length hv
      rw [hl] at this
      simp [MPC.slices] at this
      omega
    | cons u l =>
      refine ⟨u, rfl, ?_⟩
      unfold HMPC.feedback
      rw [ha, Py.ok_bind]
      show MPC.firstInput (some a.u) = _
      rw [hl]
      rfl
  · unfold HMPC.feedback
    rw [h]
    rfl

end Verif.Props
