import Verif.Props.MpQPTolerance
import Verif.Props.MpcRobust
import Verif.Props.MpcExplicitFalse

/- The closed loop of the explicit controller of `/repo/pympc/control/controllers.py` (C156). -/
namespace Verif.Props
open Finset Spec Dyn Control MpQP

/-- `x`, `u` is the loop of `feedback_explicit` with the system during the first `T` steps -/
def ExplicitLoop (c : MPC) (p : LinOcp) (x u : ℕ → Vec ℝ) (T : ℕ) : Prop :=
  (x 0).n = p.nx ∧ ∀ t < T, c.feedback_explicit (x t) = .ok (some (u t)) ∧ (x (t + 1)).n = p.nx ∧
    ∀ i < p.nx, (x (t + 1)).e i = p.next (x t).e (u t).e i

/-- `x`, `u` is a loop in which each input is the first one of `u(x)` of some critical region that contains the state within the tolerance `tol` -/
def TolLoop (q : MpQP) (p : LinOcp) (tol : ℝ) (x u : ℕ → Vec ℝ) (T : ℕ) : Prop :=
  (x 0).n = p.nx ∧ ∀ t < T, (∃ (a : List ℕ) (cr : CritReg) (U : Vec ℝ), q.explicit_solve_given_active_set a = .ok (some cr) ∧
      cr.polyhedron.contains (x t) tol = .ok true ∧ cr.u (x t) = .ok U ∧ ∀ s < p.nu, (u t).e s = U.e s) ∧
    (x (t + 1)).n = p.nx ∧ ∀ i < p.nx, (x (t + 1)).e i = p.next (x t).e (u t).e i

theorem TolLoop.size {q : MpQP} {p : LinOcp} {tol : ℝ} {x u : ℕ → Vec ℝ} {T : ℕ} (h : TolLoop q p tol x u T) : ∀ t ≤ T, (x t).n = p.nx := by
  intro t ht
  cases t with
  | zero => exact h.1
  | succ t => exact (h.2 t (by omega)).2.1

theorem next_sub {p : LinOcp} (x y u v : ℕ → ℝ) (i : ℕ) :
    p.next (fun j => x j - y j) (fun j => u j - v j) i = p.next x u i - p.next y v i := by
  simp only [LinOcp.next, Spec.affine, mul_sub, Finset.sum_sub_distrib]
  ring

/-- what the inputs of `feedforward_explicit` are -/
theorem explicit_inputs {S : LinearSystem} {N : ℕ} {Q R P : Mat ℝ} {D X_N : Poly} (h : MpcArgs S N Q R P D X_N) {L : Lib} (hL : LibSpec L)
    {c c' : MPC} (hc : MPC.init S N Q R P D X_N = .ok c) {fuel : ℕ} {step : ℝ} (hst : c.store_explicit_solution L fuel step = .ok (some c'))
    {x : Vec ℝ} (hx : x.n = S.nx) : c'.feedforward_explicit x = .ok (none, none) ∨
    ∃ (a : List ℕ) (cr : CritReg) (U : Vec ℝ) (V : ℝ), c'.feedforward_explicit x = .ok (some (MPC.slices U S.nu N), some V) ∧
      c.mpqp.explicit_solve_given_active_set a = .ok (some cr) ∧ cr.polyhedron.contains x 1e-7 = .ok true ∧ cr.u x = .ok U ∧ U.n = S.nu * N := by
  obtain ⟨q, h1, hm, hs, hF, hC, hnr⟩ := init_run h.toMpcSizes
  rw [h1] at hc
  cases hc
  have hpos : 0 < q.Au.nr := by
    have := h.rows
    rcases this with k | k
    · have := Nat.mul_pos h.N k
      omega
    · omega
  unfold MPC.store_explicit_solution at hst
  obtain ⟨s, hs1, hst⟩ := Py.bind_eq_ok hst
  cases s with
  | none => cases hst
  | some sol =>
    cases hst
    have hall : ∀ cr ∈ sol, ∃ (a : List ℕ) (cr0 : CritReg), q.explicit_solve_given_active_set a = .ok (some cr0) ∧ Like cr cr0 := by
      intro cr hcr
      obtain ⟨i, hi, rfl⟩ := List.getElem_of_mem hcr
      obtain ⟨⟨y, g, cr0, l, g1, -, g3, -⟩, -⟩ := (C43 L _ _ q hm hs step fuel _ sol hs1).2 i _ (List.getElem?_eq_getElem hi)
      obtain ⟨a, ha⟩ := point_from g1
      exact ⟨a, cr0, ha, g3⟩
    rcases C42_partial L hL _ _ q hm hs hpos sol hall x hx with ⟨k1, k2, -, k4⟩ |
      ⟨i, cr, k1, k2, k3, U, pp, v, l1, l2, l3, l4, l5, l6, -⟩
    · left
      unfold MPC.feedforward_explicit
      simp only
      rw [k2, Py.ok_bind, k4]
      rfl
    · right
      obtain ⟨a, cr0, ha, hl⟩ := hall cr (List.mem_of_getElem? k1)
      obtain ⟨U', -, e1, -, e2, -⟩ := C40 _ _ q hm hs a cr0 ha x hx
      have e3 : cr0.u x = .ok U := by rw [← hl.u]; exact l1
      rw [e3] at e1
      cases e1
      refine ⟨a, cr0, U, v, ?_, ha, ?_, e3, e2⟩
      · unfold MPC.feedforward_explicit
        simp only
        rw [l4, Py.ok_bind, l6]
        rfl
      · rw [hl.contains] at k2
        exact k2

/-- what the inputs of `feedback_explicit` are -/
theorem explicit_region {S : LinearSystem} {N : ℕ} {Q R P : Mat ℝ} {D X_N : Poly} (h : MpcArgs S N Q R P D X_N) {L : Lib} (hL : LibSpec L)
    {c c' : MPC} (hc : MPC.init S N Q R P D X_N = .ok c) {fuel : ℕ} {step : ℝ} (hst : c.store_explicit_solution L fuel step = .ok (some c'))
    {x u : Vec ℝ} (hx : x.n = S.nx) (hu : c'.feedback_explicit x = .ok (some u)) :
    ∃ (a : List ℕ) (cr : CritReg) (U : Vec ℝ), c.mpqp.explicit_solve_given_active_set a = .ok (some cr) ∧
      cr.polyhedron.contains x 1e-7 = .ok true ∧ cr.u x = .ok U ∧ ∀ s < S.nu, u.e s = U.e s := by
  have hN : c'.N = N := by
    obtain ⟨q, h1, -⟩ := init_run h.toMpcSizes
    rw [h1] at hc
    cases hc
    unfold MPC.store_explicit_solution at hst
    obtain ⟨s, hs1, hst⟩ := Py.bind_eq_ok hst
    cases s with
    | none => cases hst
    | some sol => cases hst; rfl
  have h65 := C65_linear L c' (hN.symm ▸ h.N) x
  rcases explicit_inputs h hL hc hst hx with k | ⟨a, cr, U, V, k1, k2, k3, k4, k5⟩
  · have := h65.2.2.2.2.2 _ k
    rw [hu] at this
    cases this
  · obtain ⟨u', hu0, hu1⟩ := h65.2.2.2.2.1 _ _ k1
    rw [hu] at hu1
    cases hu1
    refine ⟨a, cr, U, k2, k3, k4, fun s hs => ?_⟩
    obtain ⟨-, -, m3⟩ := slices_spec (nu := S.nu) (N := N) k5
    have := congrFun (m3 0 h.N) s
    unfold inputsOf at this
    rw [List.getD_eq_getElem?_getD, hu0] at this
    simpa [unflat] using this

/-- an optimizer of the quadratic program gives optimal inputs -/
theorem unflat_opt {S : LinearSystem} {N : ℕ} {Q R P : Mat ℝ} {D X_N : Poly} (h : MpcArgs S N Q R P D X_N) {q : MpQP}
    (hF : ∀ x v : ℕ → ℝ, q.data.Feas (S.nu * N) S.nx v x ↔ (problem S N Q R P D X_N).Feas x (unflat S.nu v))
    (hC : ∀ x v : ℕ → ℝ, q.data.cost (S.nu * N) S.nx v x = (problem S N Q R P D X_N).cost x (unflat S.nu v)) {v y : ℕ → ℝ}
    (hv : q.data.Opt (S.nu * N) S.nx v y) : (problem S N Q R P D X_N).Opt y (unflat S.nu v) := by
  have hsh : (problem S N Q R P D X_N).Shape := problem_shape h.toMpcSizes
  have e1 : ∀ u : ℕ → ℕ → ℝ, ∀ t < N, ∀ s < S.nu, unflat S.nu (flat S.nu u) t s = u t s := fun u t _ s hs => unflat_flat u t hs
  refine ⟨(hF _ _).1 hv.1, fun u' hu' => ?_⟩
  have := hv.2 (flat S.nu u') ((hF y _).2 ((LinOcp.feas_congr hsh (fun _ _ => rfl) (e1 u')).2 hu'))
  rwa [hC, hC, LinOcp.cost_congr hsh (fun _ _ => rfl) (e1 u')] at this

/-- C155, of the controller: let inputs be feasible at some state.  There is `κ`, which depends on the controller only, such that the inputs of `feedforward_explicit` at `x` are within
`κ 1e-7` of the optimal inputs at a state within `κ 1e-7` of `x`, and within `κ 1e-7` of the inputs of `feedforward` at `x` if the latter answers. -/
theorem C155_mpc (S : LinearSystem) (N : ℕ) (Q R P : Mat ℝ) (D X_N : Poly) (h : MpcArgs S N Q R P D X_N) (hne : ∃ x u, (problem S N Q R P D X_N).Feas x u)
    (c : MPC) (hc : MPC.init S N Q R P D X_N = .ok c) :
    ∃ κ : ℝ, 0 ≤ κ ∧ ∀ (L : Lib) (fuel : ℕ) (step : ℝ) (c' : MPC), LibSpec L → c.store_explicit_solution L fuel step = .ok (some c') →
      ∀ (x : Vec ℝ) (us : List (Vec ℝ)) (V : Option ℝ), x.n = S.nx → c'.feedforward_explicit x = .ok (some us, V) →
        (∃ (y : ℕ → ℝ) (v : ℕ → ℕ → ℝ), (problem S N Q R P D X_N).Opt y v ∧ (∀ i < S.nx, |x.e i - y i| ≤ κ * 1e-7) ∧
          ∀ t < N, ∀ s < S.nu, |inputsOf us t s - v t s| ≤ κ * 1e-7) ∧
        ∀ us' V', c'.feedforward L x = .ok (some us', V') → ∀ t < N, ∀ s < S.nu, |inputsOf us t s - inputsOf us' t s| ≤ κ * 1e-7 := by
  have hc0 := hc
  obtain ⟨q, h1, hm, hs, hF, hC, hnr⟩ := init_run h.toMpcSizes
  rw [h1] at hc
  cases hc
  have hsh : (problem S N Q R P D X_N).Shape := problem_shape h.toMpcSizes
  have e1 : ∀ u : ℕ → ℕ → ℝ, ∀ t < N, ∀ s < S.nu, unflat S.nu (flat S.nu u) t s = u t s := fun u t _ s hs => unflat_flat u t hs
  have hpos : 0 < q.Au.nr := by
    have := h.rows
    rcases this with k | k
    · have := Nat.mul_pos h.N k
      omega
    · omega
  obtain ⟨κ, hκ, hreg⟩ := C155 _ _ q hm hs hpos (by
    obtain ⟨x, u, hu⟩ := hne
    exact ⟨flat S.nu u, x, (hF _ _).2 ((LinOcp.feas_congr hsh (fun _ _ => rfl) (e1 u)).2 hu)⟩)
  refine ⟨κ, hκ, fun L fuel step c' hL hst x us V hx hus => ?_⟩
  rcases explicit_inputs h hL hc0 hst hx with k | ⟨a, cr, U, V0, k1, k2, k3, k4, k5⟩
  · rw [hus] at k
    cases k
  rw [hus] at k1
  cases k1
  obtain ⟨U', g1, -, ⟨y, v, g2, g3, g4⟩, g5⟩ := hreg a cr k2 x 1e-7 hx (by norm_num) k3
  rw [k4] at g1
  cases g1
  obtain ⟨-, -, m3⟩ := slices_spec (nu := S.nu) (N := N) k5
  have hidx : ∀ t < N, ∀ s < S.nu, S.nu * t + s < S.nu * N := fun t ht s hs => by nlinarith
  refine ⟨⟨y, unflat S.nu v, unflat_opt h hF hC g2, g3, fun t ht s hs => ?_⟩, fun us' V' hff t ht s hs' => ?_⟩
  · rw [m3 t ht]
    exact g4 _ (hidx t ht s hs)
  · obtain ⟨q', r1, r2⟩ := feedforward_run hL h
    rw [h1] at r1
    cases r1
    have hc' : ∃ sol, c' = ⟨S, N, Q, R, P, D, X_N, sol, q⟩ := by
      unfold MPC.store_explicit_solution at hst
      obtain ⟨s, hs1, hst⟩ := Py.bind_eq_ok hst
      cases s with
      | none => cases hst
      | some sol => cases hst; exact ⟨_, rfl⟩
    obtain ⟨sol, rfl⟩ := hc'
    rcases (r2 sol x hx).1 with k | ⟨us1, V1, n1, n2, n3, n4, n5, n6⟩
    · rw [hff] at k
      cases k
    · rw [hff] at n1
      cases n1
      have hopt : q.data.Opt (S.nu * N) S.nx (flat S.nu (inputsOf us')) x.e := by
        refine ⟨(hF _ _).2 ((LinOcp.feas_congr hsh (fun _ _ => rfl) (e1 _)).2 n4.1), fun w hw => ?_⟩
        rw [hC, hC, LinOcp.cost_congr hsh (fun _ _ => rfl) (e1 _)]
        exact n4.2 _ ((hF _ _).1 hw)
      have := g5 x.e _ hopt _ (hidx t ht s hs')
      simp only [sub_self, abs_zero, Finset.sum_const_zero, zero_add] at this
      rw [m3 t ht]
      have e2 : flat S.nu (inputsOf us') (S.nu * t + s) = inputsOf us' t s := unflat_flat _ t hs'
      rw [e2] at this
      exact this

/-- the hypotheses are met where the explicit inputs differ from the optimal ones -/
example (L : Lib) (hL : LibSpec L) : ∃ (S : LinearSystem) (N : ℕ) (Q R P : Mat ℝ) (D X_N : Poly) (c c' : MPC) (x : Vec ℝ) (us us' : List (Vec ℝ)) (V V' : Option ℝ),
    MpcArgs S N Q R P D X_N ∧ (∃ x u, (problem S N Q R P D X_N).Feas x u) ∧ MPC.init S N Q R P D X_N = .ok c ∧ c.store_explicit_solution L 3 = .ok (some c') ∧
      x.n = S.nx ∧ c'.feedforward_explicit x = .ok (some us, V) ∧ c'.feedforward L x = .ok (some us', V') ∧ V ≠ V' := by
  obtain ⟨S, N, Q, R, P, D, X_N, c, x, h1, h2, h3, h4⟩ := C66_false L hL
  obtain ⟨c', sol, g1, -, -, us, V, us', V', g2, g3, -, g4, g5⟩ := h4 3 le_rfl
  exact ⟨S, N, Q, R, P, D, X_N, c, c', x, us, us', some V, some V', h1, ⟨_, _, g4.1⟩, h2, g1, h3, g2, g3, by simpa using g5⟩

/-- C156: let `Q` be positive definite, the terminal set not empty, invariant and admissible for some gain `K`, and let the terminal cost decrease by the stage cost there.  Then there are
`M`, `G` and `r < 1`, which depend on the controller only, such that in each loop whose inputs come from critical regions that contain the states within a tolerance `tol`, the states
and inputs are at most `M r^t` times the size of the initial state plus `G tol`.  The loop of `feedback_explicit`, with a solution stored by `store_explicit_solution`, is such a loop with
the tolerance `1e-7`, as long as it answers. -/
theorem C156 (S : LinearSystem) (N : ℕ) (Q R P K : Mat ℝ) (D X_N : Poly) (h : MpcArgs S N Q R P D X_N)
    (hQ : ∀ x, (∃ i < S.nx, x i ≠ 0) → 0 < quad Q x)
    (hK : (problem S N Q R P D X_N).TerminalInvariant K) (hd : (problem S N Q R P D X_N).TerminalDecrease K) (hne : ∃ x, IneqHold X_N.A X_N.b x)
    (c : MPC) (hc : MPC.init S N Q R P D X_N = .ok c) :
    ∃ M r G : ℝ, 0 ≤ M ∧ 0 ≤ r ∧ r < 1 ∧ 0 ≤ G ∧
      (∀ (tol : ℝ) (x u : ℕ → Vec ℝ) (T : ℕ), 0 ≤ tol → TolLoop c.mpqp (problem S N Q R P D X_N) tol x u T →
        ∀ t < T, (∀ i < S.nx, |(x t).e i| ≤ M * r ^ t * ∑ l ∈ range S.nx, |(x 0).e l| + G * tol) ∧
          ∀ s < S.nu, |(u t).e s| ≤ M * r ^ t * ∑ l ∈ range S.nx, |(x 0).e l| + G * tol) ∧
      ∀ (L : Lib) (fuel : ℕ) (step : ℝ) (c' : MPC) (x u : ℕ → Vec ℝ) (T : ℕ), LibSpec L → c.store_explicit_solution L fuel step = .ok (some c') →
        ExplicitLoop c' (problem S N Q R P D X_N) x u T → TolLoop c.mpqp (problem S N Q R P D X_N) 1e-7 x u T ∧
        ∀ t < T, (∀ i < S.nx, |(x t).e i| ≤ M * r ^ t * ∑ l ∈ range S.nx, |(x 0).e l| + G * 1e-7) ∧
          ∀ s < S.nu, |(u t).e s| ≤ M * r ^ t * ∑ l ∈ range S.nx, |(x 0).e l| + G * 1e-7 := by
  obtain ⟨M, r, G, hM, hr0, hr1, hG, hmain⟩ := opt_sequence h hQ hK hd hne
  have hc0 := hc
  obtain ⟨q, h1, hm, hs, hF, hC, hnr⟩ := init_run h.toMpcSizes
  rw [h1] at hc
  cases hc
  set p := problem S N Q R P D X_N with hp
  have hsh : p.Shape := problem_shape h.toMpcSizes
  have hpos : 0 < q.Au.nr := by
    have := h.rows
    rcases this with k | k
    · have := Nat.mul_pos h.N k
      omega
    · omega
  obtain ⟨κ, hκ, hreg⟩ := C155 _ _ q hm hs hpos (by
    obtain ⟨x0, hx0⟩ := hne
    obtain ⟨v, hv, -⟩ := terminal_inputs N hK hd hx0
    obtain ⟨v', hv'⟩ := mpc_opt_exists h hv
    refine ⟨flat S.nu v', x0, (hF _ _).2 ((LinOcp.feas_congr hsh (fun _ _ => rfl) fun t _ s hs => ?_).2 hv'.1)⟩
    exact unflat_flat v' t hs)
  have hn0 : 0 ≤ (S.nx : ℝ) := Nat.cast_nonneg _
  set bA := ∑ i ∈ range p.nx, ∑ j ∈ range p.nx, |p.A.e i j| with hbA
  set bB := ∑ i ∈ range p.nx, ∑ j ∈ range p.nu, |p.B.e i j| with hbB
  have hA0 : 0 ≤ bA := Finset.sum_nonneg fun i _ => Finset.sum_nonneg fun j _ => abs_nonneg _
  have hB0 : 0 ≤ bB := Finset.sum_nonneg fun i _ => Finset.sum_nonneg fun j _ => abs_nonneg _
  set ω := S.nx * (κ + bA * κ + bB * κ) with hω
  have hω0 : 0 ≤ ω := by positivity
  have habs : ∀ (x : ℕ → ℝ), 0 ≤ ∑ l ∈ range S.nx, |x l| := fun x => Finset.sum_nonneg fun _ _ => abs_nonneg _
  have tolMain : ∀ (tol : ℝ) (x u : ℕ → Vec ℝ) (T : ℕ), 0 ≤ tol → TolLoop q p tol x u T →
        ∀ t < T, (∀ i < S.nx, |(x t).e i| ≤ M * r ^ t * ∑ l ∈ range S.nx, |(x 0).e l| + (M * (S.nx * κ) + G * ω + κ) * tol) ∧
          ∀ s < S.nu, |(u t).e s| ≤ M * r ^ t * ∑ l ∈ range S.nx, |(x 0).e l| + (M * (S.nx * κ) + G * ω + κ) * tol := by
    intro tol x u T htol hloop t ht
    have near : ∀ t, ∃ (y : ℕ → ℝ) (v : ℕ → ℕ → ℝ), t < T → p.Opt y v ∧ (∀ i < S.nx, |(x t).e i - y i| ≤ κ * tol) ∧
        ∀ s < S.nu, |(u t).e s - v 0 s| ≤ κ * tol := by
      intro t
      by_cases ht : t < T
      · obtain ⟨⟨a, cr, U, g1, g2, g3, g4⟩, -⟩ := hloop.2 t ht
        obtain ⟨U', e1, -, ⟨y, v, e2, e3, e4⟩, -⟩ := hreg a cr g1 (x t) tol (hloop.size t ht.le) htol g2
        rw [g3] at e1
        cases e1
        refine ⟨y, unflat S.nu v, fun _ => ⟨unflat_opt h hF hC e2, e3, fun s hs => ?_⟩⟩
        rw [g4 s hs]
        have hN := h.N
        have := e4 s (by nlinarith)
        simpa [unflat] using this
      · exact ⟨fun _ => 0, fun _ _ => 0, fun h => absurd h ht⟩
    choose y v hyv using near
    have hw : ∀ t, t + 1 < T → ∑ i ∈ range S.nx, |y (t + 1) i - p.next (y t) (v t 0) i| ≤ ω * tol := by
      intro t ht
      obtain ⟨-, a1, a2⟩ := hyv t (by omega)
      obtain ⟨-, b1, -⟩ := hyv (t + 1) ht
      have h3 := next_bound hsh (x := fun i => (x t).e i - y t i) (u := fun s => (u t).e s - v t 0 s) a1 a2
      have h4 : ∀ i ∈ range S.nx, |y (t + 1) i - p.next (y t) (v t 0) i| ≤ (κ + bA * κ + bB * κ) * tol := by
        intro i hi
        have hi := mem_range.1 hi
        have h5 := h3 i hi
        rw [next_sub] at h5
        have h6 := b1 i hi
        rw [(hloop.2 t (by omega)).2.2 i hi] at h6
        have e : y (t + 1) i - p.next (y t) (v t 0) i = (p.next (x t).e (u t).e i - p.next (y t) (v t 0) i) - (p.next (x t).e (u t).e i - y (t + 1) i) := by ring
        rw [e]
        refine (abs_sub _ _).trans ?_
        linarith
      have := Finset.sum_le_sum h4
      rw [Finset.sum_const, card_range, nsmul_eq_mul] at this
      rw [hω]
      linarith
    obtain ⟨g1, g2⟩ := hmain y (fun t i => y (t + 1) i - p.next (y t) (v t 0) i) v T (ω * tol) (by positivity) (fun t ht => (hyv t ht).1)
      (fun t ht i hi => by ring) hw t ht
    obtain ⟨-, a1, a2⟩ := hyv t ht
    obtain ⟨-, c1, -⟩ := hyv 0 (by omega)
    have h0 : ∑ l ∈ range S.nx, |y 0 l| ≤ ∑ l ∈ range S.nx, |(x 0).e l| + S.nx * κ * tol := by
      have : ∀ l ∈ range S.nx, |y 0 l| ≤ |(x 0).e l| + κ * tol := by
        intro l hl
        have h1 := c1 l (mem_range.1 hl)
        have h2 := abs_sub_abs_le_abs_sub (y 0 l) ((x 0).e l)
        rw [abs_sub_comm] at h1
        linarith
      have := Finset.sum_le_sum this
      rw [Finset.sum_add_distrib, Finset.sum_const, card_range, nsmul_eq_mul] at this
      linarith
    have hMr : 0 ≤ M * r ^ t := by positivity
    have hMr' : M * r ^ t ≤ M := mul_le_of_le_one_right hM (pow_le_one₀ hr0 hr1.le)
    have h5 := mul_le_mul_of_nonneg_left h0 hMr
    have h6 := mul_le_mul_of_nonneg_right hMr' (show 0 ≤ S.nx * κ * tol by positivity)
    have base : M * r ^ t * ∑ l ∈ range S.nx, |y 0 l| + G * (ω * tol) + κ * tol
        ≤ M * r ^ t * ∑ l ∈ range S.nx, |(x 0).e l| + (M * (S.nx * κ) + G * ω + κ) * tol := by
      have e : (M * (S.nx * κ) + G * ω + κ) * tol = M * (S.nx * κ * tol) + G * (ω * tol) + κ * tol := by ring
      rw [e]
      linarith
    refine ⟨fun i hi => le_trans ?_ base, fun s hs => le_trans ?_ base⟩
    · have h7 := Finset.single_le_sum (f := fun l => |y t l|) (fun _ _ => abs_nonneg _) (mem_range.2 hi)
      have h8 := a1 i hi
      have h9 := abs_sub_abs_le_abs_sub ((x t).e i) (y t i)
      linarith
    · have h7 := g2 s hs
      have h8 := a2 s hs
      have h9 := abs_sub_abs_le_abs_sub ((u t).e s) (v t 0 s)
      linarith
  refine ⟨M, r, M * (S.nx * κ) + G * ω + κ, hM, hr0, hr1, by positivity, tolMain, fun L fuel step c' x u T hL hst hloop => ?_⟩
  have hx : ∀ t ≤ T, (x t).n = S.nx := by
    intro t ht
    cases t with
    | zero => exact hloop.1
    | succ t => exact (hloop.2 t (by omega)).2.1
  have htl : TolLoop q p 1e-7 x u T := ⟨hloop.1, fun t ht => ⟨explicit_region h hL hc0 hst (hx t ht.le) (hloop.2 t ht).1, (hloop.2 t ht).2⟩⟩
  exact ⟨htl, tolMain 1e-7 x u T (by norm_num) htl⟩

/-- from each state where inputs are feasible there is a loop through critical regions that contain the states exactly, and it runs forever -/
theorem tol_loop_exists {S : LinearSystem} {N : ℕ} {Q R P K : Mat ℝ} {D X_N : Poly} (h : MpcArgs S N Q R P D X_N)
    (hK : (problem S N Q R P D X_N).TerminalInvariant K) {c : MPC} (hc : MPC.init S N Q R P D X_N = .ok c) {x0 : Vec ℝ} (hn : x0.n = S.nx)
    {u0 : ℕ → ℕ → ℝ} (hu0 : (problem S N Q R P D X_N).Feas x0.e u0) :
    ∃ x u : ℕ → Vec ℝ, x 0 = x0 ∧ ∀ (T : ℕ) (tol : ℝ), 0 ≤ tol → TolLoop c.mpqp (problem S N Q R P D X_N) tol x u T := by
  classical
  obtain ⟨q, h1, hm, hs, hF, hC, hnr⟩ := init_run h.toMpcSizes
  rw [h1] at hc
  cases hc
  set p := problem S N Q R P D X_N with hp
  have hsh : p.Shape := problem_shape h.toMpcSizes
  have hpos : 0 < q.Au.nr := by
    have := h.rows
    rcases this with k | k
    · have := Nat.mul_pos h.N k
      omega
    · omega
  have ans : ∀ y : Vec ℝ, ∃ U : Vec ℝ, y.n = S.nx → (∃ v, p.Feas y.e v) → (∀ tol : ℝ, 0 ≤ tol → ∃ (a : List ℕ) (cr : CritReg) (V : Vec ℝ),
      q.explicit_solve_given_active_set a = .ok (some cr) ∧ cr.polyhedron.contains y tol = .ok true ∧ cr.u y = .ok V ∧ ∀ s < S.nu, U.e s = V.e s) ∧
      ∃ v, p.Feas (p.next y.e U.e) v := by
    intro y
    by_cases hy : y.n = S.nx ∧ ∃ v, p.Feas y.e v
    swap
    · exact ⟨y, fun h1 h2 => absurd ⟨h1, h2⟩ hy⟩
    obtain ⟨hyn, v, hv⟩ := hy
    have e1 : ∀ u : ℕ → ℕ → ℝ, ∀ t < N, ∀ s < S.nu, unflat S.nu (flat S.nu u) t s = u t s := fun u t _ s hs => unflat_flat u t hs
    obtain ⟨V, hV⟩ := opt_exists hs ⟨_, (hF y.e (flat S.nu v)).2 ((LinOcp.feas_congr hsh (fun _ _ => rfl) (e1 v)).2 hv)⟩
    obtain ⟨s, k1, k2, k3⟩ := opt_region hm hs hV
    have hrun := explicit_some hm hs (a := s.sort (· ≤ ·)) (fun i hi => mem_range.1 (k1 ((s.mem_sort _).1 hi))) k2
    obtain ⟨U, _, g1, _, g2, _, g3, _⟩ := C40 _ _ q hm hs _ _ hrun y hyn
    obtain ⟨-, g4, -⟩ := g3 k3
    have hI := fCr_inv (a := s.sort (· ≤ ·)) hs
    have hrows : (q.fCr (s.sort (· ≤ ·))).polyhedron.A.nr = (s.sort (· ≤ ·)).length + (q.inactive (s.sort (· ≤ ·))).length :=
      (Props.C07 S.nx _ (fPoly_inv (a := s.sort (· ≤ ·)) hs) 1e-7 (by norm_num)).2.1
    have hC0 : (q.fCr (s.sort (· ≤ ·))).polyhedron.C.nr = 0 := (Props.C07 S.nx _ (fPoly_inv (a := s.sort (· ≤ ·)) hs) 1e-7 (by norm_num)).2.2.1
    have hA : 0 < (q.fCr (s.sort (· ≤ ·))).polyhedron.A.nr := by
      rw [hrows]
      by_cases h0 : s.sort (· ≤ ·) = []
      · rw [h0]
        have : q.inactive [] = List.range q.Ax.nr := by simp [inactive]
        rw [this]
        have : q.Ax.nr = q.Au.nr := hs.rows
        simp [this, hpos]
      · have := List.length_pos_of_ne_nil h0
        omega
    refine ⟨U, fun _ _ => ⟨fun tol htol => ⟨_, _, U, hrun, ?_, g1, fun _ _ => rfl⟩, ?_⟩⟩
    · obtain ⟨r, c1, c2⟩ := contains_iff hI hA y hyn tol
      rw [c1]
      congr 1
      refine c2.2 ⟨fun i hi => ?_, fun hc => absurd hc (by omega)⟩
      have := k3.1 i hi
      rw [hI.1] at this
      linarith
    · have h2 := unflat_opt h hF hC g4
      have h3 := LinOcp.shifted_feas hsh h.N hK h2.1
      have e : unflat S.nu U.e 0 = U.e := by funext s; simp [unflat]
      rw [e] at h3
      exact ⟨_, h3⟩
  choose fb hfb using ans
  let x : ℕ → Vec ℝ := fun t => Nat.rec x0 (fun _ y => ⟨S.nx, fun i => p.next y.e (fb y).e i⟩) t
  have inv : ∀ t, (x t).n = S.nx ∧ ∃ v, p.Feas (x t).e v := by
    intro t
    induction t with
    | zero => exact ⟨hn, u0, hu0⟩
    | succ t ih => exact ⟨rfl, (hfb (x t) ih.1 ih.2).2⟩
  exact ⟨x, fun t => fb (x t), rfl, fun T tol htol => ⟨hn, fun t _ => ⟨(hfb (x t) (inv t).1 (inv t).2).1 tol htol, rfl, fun i _ => rfl⟩⟩⟩

/-- the integrator: from each state of the terminal interval there is a loop through critical regions that runs forever, and it converges -/
example : ∃ c, MPC.init integrator 3 half1 one1 one1 boxXU interval1 = .ok c ∧ ∃ M r : ℝ, 0 ≤ M ∧ 0 ≤ r ∧ r < 1 ∧ ∀ y : ℝ, |y| ≤ 1 →
      ∃ x u : ℕ → Vec ℝ, x 0 = ⟨1, fun _ => y⟩ ∧ (∀ T, TolLoop c.mpqp (problem integrator 3 half1 one1 one1 boxXU interval1) 0 x u T) ∧
        ∀ t, |(x t).e 0| ≤ M * r ^ t * |y| := by
  have hargs := integrator_args 3 (by norm_num)
  obtain ⟨q, h1, -⟩ := init_run hargs.toMpcSizes
  have hQ : ∀ x : ℕ → ℝ, (∃ i < integrator.nx, x i ≠ 0) → 0 < quad half1 x := by
    rintro x ⟨i, hi, hx⟩
    have hi' : i < 1 := by simpa [integrator] using hi
    obtain rfl : i = 0 := by omega
    rw [half1_quad]
    positivity
  have hin : ∀ y : ℝ, |y| ≤ 1 → IneqHold interval1.A interval1.b fun _ => y := by
    intro y hy i hi
    have h0 := abs_le.1 hy
    have hi' : i < 2 := hi
    interval_cases i <;> simp [interval1, Poly.fresh, rowVal] <;> linarith
  obtain ⟨M, r, G, hM, hr, hr1, hG, h2, -⟩ := C156 _ _ _ _ _ _ _ _ hargs hQ (integrator_invariant 3) (integrator_decrease 3) ⟨_, hin 0 (by simp)⟩ _ h1
  refine ⟨_, h1, M, r, hM, hr, hr1, fun y hy => ?_⟩
  obtain ⟨v, hv, -⟩ := terminal_inputs 3 (integrator_invariant 3) (integrator_decrease 3) (hin y hy)
  obtain ⟨x, u, e0, hloop⟩ := tol_loop_exists hargs (integrator_invariant 3) h1 (x0 := ⟨1, fun _ => y⟩) rfl hv
  refine ⟨x, u, e0, fun T => hloop T 0 le_rfl, fun t => ?_⟩
  have := (h2 0 x u (t + 1) le_rfl (hloop _ 0 le_rfl) t (by omega)).1 0 (by norm_num [integrator])
  rw [e0] at this
  simpa [integrator] using this

end Verif.Props
