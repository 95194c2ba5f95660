import Verif.Proofs.Mpc
import Verif.Props.Lqr

/- Properties of the linear model predictive controller. -/
namespace Verif.Props
open Finset Spec Dyn Control

/-- C64 without constraints: if neither `D` nor `X_N` has an inequality then `feedforward(x)` raises `RuntimeError` for every `x`, although all inputs are
feasible -/
theorem C64_no_rows (L : Lib) (hL : LibSpec L) (S : LinearSystem) (N : ℕ) (Q R P : Mat ℝ) (D X_N : Poly) (h : MpcSizes S N Q R P D X_N)
    (hD : D.A.nr = 0) (hX : X_N.A.nr = 0) :
    ∃ c, MPC.init S N Q R P D X_N = .ok c ∧ ∀ x : Vec ℝ, x.n = S.nx →
      (∀ u, (problem S N Q R P D X_N).Feas x.e u) ∧ c.feedforward L x = .error .runtimeError := by
  obtain ⟨q, h1, h2⟩ := feedforward_no_rows hL h hD hX
  exact ⟨_, h1, fun x hx => ⟨fun u => ⟨fun t _ i hi => absurd hi (by show ¬ i < D.A.nr; omega), fun i hi => absurd hi (by show ¬ i < X_N.A.nr; omega)⟩,
    h2 none x hx⟩⟩

/-- C64 (what holds of it): the controller can be constructed; `feedforward(x)` returns either `(None, None)` or `N` inputs of size `nu`
that are feasible, optimal and the only optimal ones, with `V` their cost.  `(None, None)` is returned exactly when no inputs are feasible,
or when the optimal cost exceeds the unconstrained optimal cost by about `5e13` or more.  In particular
inputs are returned whenever there are feasible inputs with a cost below that number.  Missing: inputs whenever some are feasible, see
`C64_false`, and an answer without any inequality, see `C64_no_rows`. -/
theorem C64_partial (L : Lib) (hL : LibSpec L) (S : LinearSystem) (N : ℕ) (Q R P : Mat ℝ) (D X_N : Poly) (h : MpcArgs S N Q R P D X_N) :
    ∃ c, MPC.init S N Q R P D X_N = .ok c ∧ ∀ x : Vec ℝ, x.n = S.nx →
      let p := problem S N Q R P D X_N
      (c.feedforward L x = .ok (none, none) ∨ ∃ us V, c.feedforward L x = .ok (some us, some V) ∧ us.length = N ∧
        (∀ u ∈ us, u.n = S.nu) ∧ p.Opt x.e (inputsOf us) ∧ V = p.cost x.e (inputsOf us) ∧
        ∀ u, p.Opt x.e u → ∀ t < N, ∀ s < S.nu, u t s = inputsOf us t s) ∧
      (c.feedforward L x = .ok (none, none) ↔ (∀ u, ¬ p.Feas x.e u) ∨ ∃ u u0, p.Opt x.e u ∧
        (∀ u', p.cost x.e u0 ≤ p.cost x.e u') ∧ (1 / (1e-7 : ℝ) ^ 2 - 1) / 2 ≤ p.cost x.e u - p.cost x.e u0) ∧
      ((∃ u, p.Feas x.e u ∧ p.cost x.e u < (1 / (1e-7 : ℝ) ^ 2 - 1) / 2) →
        ∃ us V, c.feedforward L x = .ok (some us, some V)) := by
  obtain ⟨q, h1, h2⟩ := feedforward_run hL h
  refine ⟨_, h1, fun x hx => ?_⟩
  obtain ⟨k1, k2⟩ := h2 none x hx
  refine ⟨k1, k2, ?_⟩
  rintro ⟨u, hu, hc⟩
  rcases k1 with k | ⟨us, V, k, -⟩
  · rcases k2.1 k with k3 | ⟨v, u0, g1, g2, g3⟩
    · exact absurd hu (k3 u)
    · have a1 := g1.2 u hu
      have a2 := LinOcp.cost_nonneg (p := problem S N Q R P D X_N) h.w x.e u0
      linarith
  · exact ⟨us, V, k⟩

/-- C65 for `ModelPredictiveController`: `feedback(x)` is the first input of `feedforward(x)`, it is `None` exactly when `feedforward(x)`
has no inputs, and it raises the exceptions of `feedforward(x)`; likewise for the explicit versions. -/
theorem C65_linear (L : Lib) (c : MPC) (hN : 0 < c.N) (x : Vec ℝ) :
    (∀ e, c.feedforward L x = .error e → c.feedback L x = .error e) ∧
    (∀ us V, c.feedforward L x = .ok (some us, V) → ∃ u, us[0]? = some u ∧ c.feedback L x = .ok (some u)) ∧
    (∀ V, c.feedforward L x = .ok (none, V) → c.feedback L x = .ok none) ∧
    (∀ e, c.feedforward_explicit x = .error e → c.feedback_explicit x = .error e) ∧
    (∀ us V, c.feedforward_explicit x = .ok (some us, V) → ∃ u, us[0]? = some u ∧ c.feedback_explicit x = .ok (some u)) ∧
    (∀ V, c.feedforward_explicit x = .ok (none, V) → c.feedback_explicit x = .ok none) := by
  have hne : ∀ v : Vec ℝ, ∃ u l, MPC.slices v c.S.nu c.N = u :: l := by
    intro v
    have : (MPC.slices v c.S.nu c.N).length = c.N := by simp [MPC.slices]
    cases hl : MPC.slices v c.S.nu c.N with
    | nil => rw [hl] at this; simp at this; omega
    | cons u l => exact ⟨u, l, rfl⟩
  refine ⟨fun e he => ?_, fun us V hf => ?_, fun V hf => ?_, fun e he => ?_, fun us V hf => ?_, fun V hf => ?_⟩
  · unfold MPC.feedback; rw [he]; rfl
  · have : ∃ v, us = MPC.slices v c.S.nu c.N := by
      unfold MPC.feedforward at hf
      obtain ⟨s, -, hf⟩ := Py.bind_eq_ok hf
      split at hf
      · cases hf
      · split at hf
        · cases hf
        · injection hf with hf
          simp only [Prod.mk.injEq, Option.some.injEq] at hf
          exact ⟨_, hf.1.symm⟩
    obtain ⟨v, rfl⟩ := this
    obtain ⟨u, l, hl⟩ := hne v
    refine ⟨u, by rw [hl]; rfl, ?_⟩
    unfold MPC.feedback
    rw [hf, hl]; rfl
  · unfold MPC.feedback; rw [hf]; rfl
  · unfold MPC.feedback_explicit; rw [he]; rfl
  · have : ∃ v, us = MPC.slices v c.S.nu c.N := by
      unfold MPC.feedforward_explicit at hf
      split at hf
      · cases hf
      · obtain ⟨u, -, hf⟩ := Py.bind_eq_ok hf
        obtain ⟨V', -, hf⟩ := Py.bind_eq_ok hf
        injection hf with hf
        simp only [Prod.mk.injEq] at hf
        cases u with
        | none => simp at hf
        | some u =>
          simp only [Option.map_some, Option.some.injEq] at hf
          exact ⟨u, hf.1.symm⟩
    obtain ⟨v, rfl⟩ := this
    obtain ⟨u, l, hl⟩ := hne v
    refine ⟨u, by rw [hl]; rfl, ?_⟩
    unfold MPC.feedback_explicit
    rw [hf, hl]; rfl
  · unfold MPC.feedback_explicit; rw [hf]; rfl

/-- the cost with terminal weight `P` from `solve_dare` -/
theorem dare_lqr (S : LinearSystem) (hS : S._controllable = none) (hnx : 0 < S.nx) (N : ℕ) (Q R P K : Mat ℝ)
    (D X_N : Poly) (h : MpcArgs S N Q R P D X_N) (dare : Mat ℝ → Mat ℝ → Mat ℝ → Mat ℝ → Py (Mat ℝ))
    (hdare : ∀ P, dare S.A S.B Q R = .ok P → DareSpec S.nx S.nu S.A S.B Q R P)
    (hPK : (LinearSystem.solve_dare dare Q R S).1 = .ok (P, K)) {M : ℕ} (x0 : ℕ → ℝ) (u : ℕ → ℕ → ℝ) :
    1 / 2 * quad P x0 ≤ (problem S M Q R P D X_N).cost x0 u ∧
      ((problem S M Q R P D X_N).cost x0 u = 1 / 2 * quad P x0 ↔
        ∀ t < M, ∀ s < S.nu, u t s = rowVal K s ((problem S M Q R P D X_N).x x0 u t)) := by
  have hnu : 0 < S.nu := by
    by_contra h0
    have h0 : S.nu = 0 := by omega
    rw [solve_dare_no_inputs hS h.sys.1 h.sys.2.1 h.sys.2.2.1 (h.sys.2.2.2.1.trans h0) h0 hnx] at hPK
    cases hPK
  obtain ⟨a1, a2, a3⟩ := C53 S.nx S.nu S.A S.B Q R h.sys.1 h.sys.2.1 h.sys.2.2.1 h.sys.2.2.2.1 hnx hnu h.w.symR h.w.Rpos dare
    ⟨h.w.symQ.1, h.w.symQ.2.1⟩ hdare
  have eS : S = ⟨S.A, S.B, S.nx, S.nu, none⟩ := by cases S; cases hS; rfl
  rw [eS] at hPK
  by_cases hst : Steerable S.nx S.A S.B S.nx
  · cases hd : dare S.A S.B Q R with
    | error e => rw [a2 hst e hd] at hPK; cases hPK
    | ok P' =>
      obtain ⟨K', b1, -, -, b4⟩ := a3 hst P' hd
      rw [b1] at hPK
      injection hPK with hPK
      obtain ⟨rfl, rfl⟩ := Prod.mk.inj hPK
      exact b4 x0 u M
  · rw [a1 hst] at hPK; cases hPK

/-- C67: let `P`, `K` be the answer of `solve_dare`, let the terminal set be invariant and admissible for `u = K x`.  Then for `x` in the terminal
set `feedforward(x)` returns the inputs `u = K x` along their trajectory, and `V = 1/2 x P x`. -/
theorem C67 (L : Lib) (hL : LibSpec L) (S : LinearSystem) (hS : S._controllable = none) (hnx : 0 < S.nx) (N : ℕ) (Q R P K : Mat ℝ)
    (D X_N : Poly) (h : MpcArgs S N Q R P D X_N) (dare : Mat ℝ → Mat ℝ → Mat ℝ → Mat ℝ → Py (Mat ℝ))
    (hdare : ∀ P, dare S.A S.B Q R = .ok P → DareSpec S.nx S.nu S.A S.B Q R P)
    (hPK : (LinearSystem.solve_dare dare Q R S).1 = .ok (P, K)) (hK : (problem S N Q R P D X_N).TerminalInvariant K) :
    ∃ c, MPC.init S N Q R P D X_N = .ok c ∧ ∀ x : Vec ℝ, x.n = S.nx → IneqHold X_N.A X_N.b x.e →
      ∃ us V, c.feedforward L x = .ok (some us, some V) ∧ us.length = N ∧ V = 1 / 2 * quad P x.e ∧
        ∀ t < N, ∀ s < S.nu, inputsOf us t s = rowVal K s ((problem S N Q R P D X_N).x x.e (inputsOf us) t) := by
  obtain ⟨q, h1, h2⟩ := feedforward_run hL h
  set p := problem S N Q R P D X_N with hp
  refine ⟨_, h1, fun x hx hxN => ?_⟩
  have hlqr := dare_lqr S hS hnx N Q R P K D X_N h dare hdare hPK (M := N)
  -- the trajectory of `u = K x`
  let xl : ℕ → ℕ → ℝ := fun t => Nat.rec x.e (fun _ y => p.next y (LinOcp.gain K y)) t
  let ul : ℕ → ℕ → ℝ := fun t => LinOcp.gain K (xl t)
  have hxl : ∀ t, p.x x.e ul t = xl t := by
    intro t
    induction t with
    | zero => rfl
    | succ t ih => rw [LinOcp.x_succ, ih]
  have hin : ∀ t, IneqHold p.XA p.Xb (xl t) := by
    intro t
    induction t with
    | zero => exact hxN
    | succ t ih => exact (hK _ ih).2
  have hfeas : p.Feas x.e ul := by
    refine ⟨fun t _ => ?_, by rw [hxl]; exact hin _⟩
    rw [hxl]
    exact (hK _ (hin t)).1
  have hcost : p.cost x.e ul = 1 / 2 * quad P x.e := by
    rw [(hlqr x.e ul).2]
    intro t _ s _
    rw [hxl]
    rfl
  obtain ⟨k1, k2⟩ := h2 none x hx
  rcases k1 with k | ⟨us, V, k, l1, -, l3, l4, -⟩
  · exfalso
    rcases k2.1 k with k3 | ⟨v, u0, g1, g2, g3⟩
    · exact k3 _ hfeas
    · have a1 := g1.2 ul hfeas
      have a2 := (hlqr x.e u0).1
      rw [hcost] at a1
      norm_num at g3
      linarith
  · have e : p.cost x.e (inputsOf us) = 1 / 2 * quad P x.e :=
      le_antisymm (hcost ▸ l3.2 ul hfeas) (hlqr x.e _).1
    exact ⟨us, V, k, l1, l4.trans e, (hlqr x.e _).2.1 e⟩

/-- what one step of the closed loop does -/
theorem closed_step {L : Lib} (hL : LibSpec L) {S : LinearSystem} {N : ℕ} {Q R P : Mat ℝ} {D X_N : Poly} (h : MpcArgs S N Q R P D X_N)
    {c : MPC} (hc : MPC.init S N Q R P D X_N = .ok c) {x : Vec ℝ} (hx : x.n = S.nx) {u : Vec ℝ} (hu : c.feedback L x = .ok (some u)) :
    ∃ us V, c.feedforward L x = .ok (some us, some V) ∧ u.n = S.nu ∧ inputsOf us 0 = u.e ∧
      (problem S N Q R P D X_N).Opt x.e (inputsOf us) ∧ V = (problem S N Q R P D X_N).cost x.e (inputsOf us) := by
  obtain ⟨q, h1, h2⟩ := feedforward_run hL h
  rw [h1] at hc
  cases hc
  obtain ⟨k1, -⟩ := h2 none x hx
  obtain ⟨-, b2, b3, -⟩ := C65_linear L ⟨S, N, Q, R, P, D, X_N, none, q⟩ h.N x
  rcases k1 with k | ⟨us, V, k, l1, l2, l3, l4, -⟩
  · rw [b3 _ k] at hu; cases hu
  · obtain ⟨u', g1, g2⟩ := b2 _ _ k
    rw [g2] at hu
    cases hu
    refine ⟨us, V, k, l2 _ (List.mem_of_getElem? g1), ?_, l3, l4⟩
    unfold inputsOf
    rw [List.getD_eq_getElem?_getD, g1]
    rfl

/-- `x`, `u` is the closed loop of the controller with the system during the first `T` steps -/
def ClosedLoop (L : Lib) (c : MPC) (p : LinOcp) (x u : ℕ → Vec ℝ) (T : ℕ) : Prop :=
  (x 0).n = p.nx ∧ ∀ t < T, c.feedback L (x t) = .ok (some (u t)) ∧ (x (t + 1)).n = p.nx ∧
    ∀ i < p.nx, (x (t + 1)).e i = p.next (x t).e (u t).e i

theorem ClosedLoop.size {L : Lib} {c : MPC} {p : LinOcp} {x u : ℕ → Vec ℝ} {T : ℕ} (h : ClosedLoop L c p x u T) :
    ∀ t ≤ T, (x t).n = p.nx := by
  intro t ht
  cases t with
  | zero => exact h.1
  | succ t => exact (h.2 t ht).2.1

/-- C68: let the terminal set be invariant and admissible for some gain `K`.  If there are feasible inputs at the initial state then
there are feasible inputs at every state of the closed loop, and the states and inputs of the closed loop satisfy the constraints. -/
theorem C68 (L : Lib) (hL : LibSpec L) (S : LinearSystem) (N : ℕ) (Q R P K : Mat ℝ) (D X_N : Poly) (h : MpcArgs S N Q R P D X_N)
    (hK : (problem S N Q R P D X_N).TerminalInvariant K) (c : MPC) (hc : MPC.init S N Q R P D X_N = .ok c)
    (x u : ℕ → Vec ℝ) (T : ℕ) (hcl : ClosedLoop L c (problem S N Q R P D X_N) x u T)
    (h0 : ∃ v, (problem S N Q R P D X_N).Feas (x 0).e v) :
    (∀ t ≤ T, ∃ v, (problem S N Q R P D X_N).Feas (x t).e v) ∧
    ∀ t < T, (u t).n = S.nu ∧ (problem S N Q R P D X_N).Stage (x t).e (u t).e := by
  set p := problem S N Q R P D X_N
  have hp : p.Shape := problem_shape h.toMpcSizes
  refine ⟨fun t ht => ?_, fun t ht => ?_⟩
  · cases t with
    | zero => exact h0
    | succ t =>
      obtain ⟨us, V, -, -, e, ho, -⟩ := closed_step hL h hc (hcl.size t (by omega)) (hcl.2 t ht).1
      have hf := LinOcp.shifted_feas hp h.N hK ho.1
      rw [e] at hf
      exact ⟨_, (LinOcp.feas_congr hp (fun i hi => (hcl.2 t ht).2.2 i hi) fun _ _ _ _ => rfl).2 hf⟩
  · obtain ⟨us, V, -, hn, e, ho, -⟩ := closed_step hL h hc (hcl.size t (by omega)) (hcl.2 t ht).1
    have := ho.1.1 0 h.N
    rw [e] at this
    exact ⟨hn, this⟩

/-- C69: let in addition the terminal cost decrease by the stage cost in the terminal set.  Then along the closed loop the value
decreases by at least the stage cost, and the sum of the stage costs is at most the value at the initial state; and if that value is less than about `5e13`
then the controller has an answer at every state. -/
theorem C69 (L : Lib) (hL : LibSpec L) (S : LinearSystem) (N : ℕ) (Q R P K : Mat ℝ) (D X_N : Poly) (h : MpcArgs S N Q R P D X_N)
    (hK : (problem S N Q R P D X_N).TerminalInvariant K) (hd : (problem S N Q R P D X_N).TerminalDecrease K) (c : MPC)
    (hc : MPC.init S N Q R P D X_N = .ok c) (x u : ℕ → Vec ℝ) (T : ℕ)
    (hcl : ClosedLoop L c (problem S N Q R P D X_N) x u T) :
    (∀ t < T, ∀ us V us' V', c.feedforward L (x t) = .ok (some us, some V) →
      c.feedforward L (x (t + 1)) = .ok (some us', some V') →
      V' ≤ V - (problem S N Q R P D X_N).stageCost (x t).e (u t).e) ∧
    (∀ us V, c.feedforward L (x 0) = .ok (some us, some V) →
      ∑ t ∈ range T, (problem S N Q R P D X_N).stageCost (x t).e (u t).e ≤ V) ∧
    ∀ us V, c.feedforward L (x 0) = .ok (some us, some V) → V < (1 / (1e-7 : ℝ) ^ 2 - 1) / 2 →
      ∃ us' V', c.feedforward L (x T) = .ok (some us', some V') ∧
        V' ≤ V - ∑ t ∈ range T, (problem S N Q R P D X_N).stageCost (x t).e (u t).e := by
  set p := problem S N Q R P D X_N with hpdef
  have hp : p.Shape := problem_shape h.toMpcSizes
  obtain ⟨c', hc', h64⟩ := C64_partial L hL S N Q R P D X_N h
  rw [hc] at hc'
  obtain rfl : c = c' := by injection hc'
  -- feasible inputs at the next state
  have step : ∀ t < T, ∃ us V v, c.feedforward L (x t) = .ok (some us, some V) ∧ p.Feas (x (t + 1)).e v ∧
      p.cost (x (t + 1)).e v ≤ V - p.stageCost (x t).e (u t).e := by
    intro t ht
    obtain ⟨us, V, e1, -, e, ho, hV⟩ := closed_step hL h hc (hcl.size t (by omega)) (hcl.2 t ht).1
    have hf := LinOcp.shifted_feas hp h.N hK ho.1
    have hcst := LinOcp.shifted_cost hp h.N K (x t).e (inputsOf us)
    have hdec := hd _ ho.1.2
    rw [e] at hf hcst
    refine ⟨us, V, _, e1, (LinOcp.feas_congr hp (fun i hi => (hcl.2 t ht).2.2 i hi) fun _ _ _ _ => rfl).2 hf, ?_⟩
    rw [LinOcp.cost_congr hp (fun i hi => (hcl.2 t ht).2.2 i hi) (fun _ _ _ _ => rfl), hcst, hV]
    linarith
  have opt : ∀ t ≤ T, ∀ us V, c.feedforward L (x t) = .ok (some us, some V) → p.Opt (x t).e (inputsOf us) ∧
      V = p.cost (x t).e (inputsOf us) := by
    intro t ht us V hus
    rcases (h64 (x t) (hcl.size t ht)).1 with k | ⟨us', V', k, -, -, l3, l4, -⟩
    · rw [k] at hus; cases hus
    · rw [k] at hus; cases hus; exact ⟨l3, l4⟩
  have dec : ∀ t < T, ∀ us V us' V', c.feedforward L (x t) = .ok (some us, some V) →
      c.feedforward L (x (t + 1)) = .ok (some us', some V') → V' ≤ V - p.stageCost (x t).e (u t).e := by
    intro t ht us V us' V' h1 h2
    obtain ⟨us2, V2, v, e1, hf, hcst⟩ := step t ht
    rw [e1] at h1
    cases h1
    obtain ⟨o1, o2⟩ := opt (t + 1) ht us' V' h2
    rw [o2]
    exact (o1.2 v hf).trans hcst
  -- the values at the states with an answer
  have chain : ∀ us V, c.feedforward L (x 0) = .ok (some us, some V) → ∀ t < T, ∃ us' V',
      c.feedforward L (x t) = .ok (some us', some V') ∧ V' ≤ V - ∑ k ∈ range t, p.stageCost (x k).e (u k).e := by
    intro us V h0 t
    induction t with
    | zero => intro _; exact ⟨us, V, h0, by simp⟩
    | succ t ih =>
      intro ht
      obtain ⟨us1, V1, e1, hV1⟩ := ih (by omega)
      obtain ⟨us2, V2, v, e2, -⟩ := step (t + 1) ht
      refine ⟨us2, V2, e2, ?_⟩
      have := dec t (by omega) _ _ _ _ e1 e2
      rw [Finset.sum_range_succ]
      linarith
  -- feasible inputs at the last state, and their cost
  have last : ∀ us V, c.feedforward L (x 0) = .ok (some us, some V) → ∃ v, p.Feas (x T).e v ∧
      p.cost (x T).e v ≤ V - ∑ k ∈ range T, p.stageCost (x k).e (u k).e := by
    intro us V h0
    cases T with
    | zero =>
      obtain ⟨o1, o2⟩ := opt 0 le_rfl us V h0
      exact ⟨_, o1.1, by rw [o2]; simp⟩
    | succ T =>
      obtain ⟨us1, V1, e1, hV1⟩ := chain us V h0 T (by omega)
      obtain ⟨us2, V2, v, e2, hf, hcst⟩ := step T (by omega)
      rw [e2] at e1
      cases e1
      refine ⟨v, hf, ?_⟩
      rw [Finset.sum_range_succ]
      linarith
  refine ⟨dec, fun us V h0 => ?_, fun us V h0 hV => ?_⟩
  · obtain ⟨v, -, hv⟩ := last us V h0
    have := LinOcp.cost_nonneg (p := p) h.w (x T).e v
    linarith
  · obtain ⟨v, hf, hv⟩ := last us V h0
    have hs := Finset.sum_nonneg fun t (_ : t ∈ range T) => LinOcp.stageCost_nonneg (p := p) h.w (x t).e (u t).e
    obtain ⟨us', V', e⟩ := (h64 (x T) (hcl.size T le_rfl)).2.2 ⟨v, hf, by linarith⟩
    obtain ⟨o1, o2⟩ := opt T le_rfl us' V' e
    refine ⟨us', V', e, ?_⟩
    rw [o2]
    exact (o1.2 v hf).trans hv

end Verif.Props
