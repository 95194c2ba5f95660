import Verif.Props.Hybrid
import Verif.Props.PwaSystem
import Verif.Proofs.HybridLoop
import Verif.Math.QuadBound

/- The closed loop of the hybrid controller: C100 and C101 of properties.jsonl. -/
namespace Verif.Props
open Finset Spec Dyn Control Filter Topology

/-- `x`, `u` are the states and inputs up to time `T` of the piecewise affine system in closed loop with the controller: the input is the answer of
`feedback`, the next state that of `simulate` -/
def HybridLoop (G : Gurobi) (c : HMPC) (S : PWA) (x u : ℕ → Vec ℝ) (T : ℕ) : Prop :=
  (x 0).n = S.nx ∧ ∀ t < T, c.feedback G (x t) = .ok (some (u t)) ∧ ∃ m, S.simulate (x t) [u t] = .ok ([x t, x (t + 1)], [m])

/-- modes whose domains contain `(x, u)` lead to the same next state, where one of them may contain it only up to the tolerance of `simulate` -/
def ModesAgree (S : PWA) (x u : Vec ℝ) : Prop :=
  ∀ i < S.nm, ∀ j < S.nm, InsideTol 1e-7 (domAt S i) (x.append u).e → IneqHold (domAt S j).A (domAt S j).b (x.append u).e →
    ∀ k < S.nx, affine (sysAt S i).A (sysAt S i).B (sysAt S i).c x.e u.e k = affine (sysAt S j).A (sysAt S j).B (sysAt S j).c x.e u.e k

/-- one step of `simulate` -/
theorem simulate_one {S : PWA} (hS : PwaOk S) {x u x' y : Vec ℝ} {m : ℕ} (hx : x.n = S.nx) (hu : u.n = S.nu)
    (h : S.simulate x [u] = .ok ([x', y], [m])) :
    FirstMode S x u m ∧ y.n = S.nx ∧ ∀ k < S.nx, y.e k = affine (sysAt S m).A (sysAt S m).B (sysAt S m).c x.e u.e k := by
  have hrun := (C59 S hS x hx [u] (by simpa using hu)).1 _ _ h
  have ht := hrun.traj sys0
  have hx' : x' = x := by simpa using ht.2.1
  subst hx'
  exact ⟨hrun.mode 0 x' u m rfl rfl rfl, ht.2.2.1 y (by simp), fun k hk => ht.2.2.2 0 x' y u rfl rfl rfl k hk⟩

/-- `simulate` makes a step if state and input are in the domain of a mode without equalities -/
theorem simulate_step {S : PWA} (hS : PwaOk S) {x u : Vec ℝ} (hx : x.n = S.nx) (hu : u.n = S.nu) {j : ℕ} (hj : j < S.domains.length)
    (hno : (domAt S j).C.nr = 0) (hin : IneqHold (domAt S j).A (domAt S j).b (x.append u).e) :
    ∃ y m, S.simulate x [u] = .ok ([x, y], [m]) := by
  obtain ⟨a1, a2, a3, -⟩ := C59 S hS x hx [u] (by simpa using hu)
  cases h : S.simulate x [u] with
  | error e =>
    exfalso
    have he := a2 e h
    subst he
    refine a3.1 h ?_
    rcases get_mode_ok hS hx hu with ⟨-, h2⟩ | ⟨m, -, h2⟩
    · exfalso
      have hD : S.domains[j]? = some (domAt S j) := by
        rw [List.getElem?_eq_getElem hj, ← List.getD_eq_getElem _ poly0 hj]
      have hins : InsideTol 1e-7 (domAt S j) (x.append u).e :=
        ⟨fun i hi => (hin i hi).trans (by linarith [show (0 : ℝ) ≤ 1e-7 by norm_num]), fun hpos => by omega⟩
      -- the first mode that contains the point
      classical
      have hex : ∃ k, ∃ D, S.domains[k]? = some D ∧ InsideTol 1e-7 D (x.append u).e := ⟨j, _, hD, hins⟩
      exact h2 (Nat.find hex) ⟨Nat.find_spec hex, fun k hk D hD' hin' => Nat.find_min hex hk ⟨D, hD', hin'⟩⟩
    · let T := S.affine_systems.getD m sys0
      refine ⟨[x, ⟨S.nx, affine T.A T.B T.c x.e u.e⟩], [m], PwaRun.cons hx h2 (fun T' k hk => ?_) (.nil rfl)⟩
      have hm := h2.lt hS
      show affine T.A T.B T.c x.e u.e k = _
      simp only [T]
      rw [List.getD_eq_getElem _ _ hm, List.getD_eq_getElem _ _ hm]
  | ok r =>
    obtain ⟨xs, ms⟩ := r
    have hrun := a1 _ _ h
    have hl := hrun.len
    have ht := hrun.traj sys0
    have hlx := ht.1
    match xs, ms with
    | [x', y], [m] =>
      have hx' : x' = x := by simpa using ht.2.1
      exact ⟨y, m, by rw [hx']⟩
    | _, [] => simp at hl
    | _, _ :: _ :: _ => simp at hl
    | [], [_] => simp at hlx
    | [_], [_] => simp at hlx
    | _ :: _ :: _ :: _, [_] => simp at hlx

/-- the answer of the controller in a state from which there is a feasible trajectory -/
theorem hybrid_answer {L : Lib} (hL : LibSpec L) {G : Gurobi} (hG : GurobiSpec G) {S : PWA} {N : ℕ} {Q R P : Mat ℝ} {X_N : Poly}
    (h : HybArgs S N Q R P X_N) (hw : Weights S.nx S.nu Q R P) (hnx : 0 < S.nx) (hg : GoodDomains S) (hno : (hyb S N Q R P X_N).NoEq) {c : HMPC}
    (hrun : HMPC.init L S N Q R P X_N = .ok c) {x : Vec ℝ} (hx : x.n = S.nx) (ht : MiNoTiny c.mpmiqp x.e) :
    (∀ u, c.feedback G x = .ok (some u) → ∃ a, c.feedforward G x = .ok (some a) ∧ u.n = S.nu ∧ inputsOf a.u 0 = u.e ∧
      Consistent (hyb S N Q R P X_N) x.e a ∧ (hyb S N Q R P X_N).Opt x.e (fun t => a.modes.getD t 0) (inputsOf a.u)) ∧
    ((∃ m u, (hyb S N Q R P X_N).Feas x.e m u) → ∃ u, c.feedback G x = .ok (some u)) := by
  obtain ⟨⟨-, cN, -⟩, -⟩ := init_inv h hrun
  obtain ⟨o, k1, k2, k3⟩ := C73_partial L hL G hG S N Q R P X_N h hw hnx hg c hrun x hx ht
  obtain ⟨-, b2, b3⟩ := C65_hybrid G c (by rw [cN]; exact h.N) x
  obtain ⟨k4, k5⟩ := k3 hno
  constructor
  · intro u hu
    cases o with
    | none => rw [b3 k1] at hu; cases hu
    | some a =>
      obtain ⟨v, v1, v2⟩ := b2 a k1
      rw [hu] at v2
      cases v2
      refine ⟨a, k1, (k2 a rfl).1.inputs.2 u (List.mem_of_getElem? v1), ?_, (k2 a rfl).1, k5 a rfl⟩
      unfold inputsOf
      rw [List.getD_eq_getElem?_getD, v1]
      rfl
  · rintro ⟨m, u, hf⟩
    cases o with
    | none => exact absurd hf (k4.1 rfl m u)
    | some a =>
      obtain ⟨v, -, v2⟩ := b2 a k1
      exact ⟨v, v2⟩

theorem append_pair {nx nu : ℕ} {x u : Vec ℝ} (hx : x.n = nx) (j : ℕ) (_ : j < nx + nu) : (x.append u).e j = pair nx x.e u.e j := by
  unfold pair
  split_ifs with hj
  · exact Vec.append_e_lt _ _ (by omega)
  · obtain ⟨k, rfl⟩ := Nat.exists_eq_add_of_le (not_lt.1 hj)
    rw [← hx, Vec.append_e_add]
    congr 1
    omega

/-- one step of the closed loop -/
theorem hybrid_step {L : Lib} (hL : LibSpec L) {G : Gurobi} (hG : GurobiSpec G) {S : PWA} {N : ℕ} {Q R P : Mat ℝ} {X_N : Poly}
    (h : HybArgs S N Q R P X_N) (hw : Weights S.nx S.nu Q R P) (hnx : 0 < S.nx) (hg : GoodDomains S) (hS : PwaOk S) (hno : (hyb S N Q R P X_N).NoEq)
    {c : HMPC} (hrun : HMPC.init L S N Q R P X_N = .ok c) {x u : Vec ℝ} (hx : x.n = S.nx) (ht : MiNoTiny c.mpmiqp x.e)
    (hu : c.feedback G x = .ok (some u)) :
    u.n = S.nu ∧ (∃ j < S.nm, IneqHold (domAt S j).A (domAt S j).b (pair S.nx x.e u.e)) ∧ (∃ y m, S.simulate x [u] = .ok ([x, y], [m])) ∧
    ∃ a, c.feedforward G x = .ok (some a) ∧ ∀ y m, S.simulate x [u] = .ok ([x, y], [m]) → ModesAgree S x u →
      y.n = S.nx ∧
      ((hyb S N Q R P X_N).TerminalInvariant → ∃ m v, (hyb S N Q R P X_N).Feas y.e m v) ∧
      ((hyb S N Q R P X_N).TerminalDecrease → ∃ m v, (hyb S N Q R P X_N).Feas y.e m v ∧
        (hyb S N Q R P X_N).cost y.e m v + (hyb S N Q R P X_N).stageCost x.e u.e ≤ a.V) := by
  obtain ⟨a, k1, k2, k3, k4, k5⟩ := (hybrid_answer hL hG h hw hnx hg hno hrun hx ht).1 u hu
  have hj : a.modes.getD 0 0 < S.nm := k4.feas.1 0 h.N
  have hin : IneqHold (domAt S (a.modes.getD 0 0)).A (domAt S (a.modes.getD 0 0)).b (pair S.nx x.e (inputsOf a.u 0)) := k4.feas.2.1 0 h.N
  rw [k3] at hin
  have hin' : IneqHold (domAt S (a.modes.getD 0 0)).A (domAt S (a.modes.getD 0 0)).b (x.append u).e :=
    (ineq_congr (hg.shape _ hj).1 fun j hj => append_pair hx j hj).2 hin
  refine ⟨k2, ⟨_, hj, hin⟩, simulate_step hS hx k2 (by rw [h.pwa.lenD]; exact hj) (hno.1 _ hj) hin', a, k1, fun y m hsim hagr => ?_⟩
  obtain ⟨⟨⟨D, hD, hins⟩, -⟩, hyn, hy⟩ := simulate_one hS hx k2 hsim
  have hm : m < S.nm := by rw [← h.pwa.lenD]; exact (List.getElem?_eq_some_iff.1 hD).1
  have hDm : D = domAt S m := by
    rw [List.getElem?_eq_some_iff] at hD
    obtain ⟨hlt, rfl⟩ := hD
    rw [← List.getD_eq_getElem _ poly0 hlt]
  rw [hDm] at hins
  -- the simulated state is the predicted one
  have hpred : ∀ k < S.nx, (hyb S N Q R P X_N).next (a.modes.getD 0 0) x.e u.e k = y.e k := fun k hk => by
    rw [hy k hk]
    exact (hagr m hm _ hj hins hin' k hk).symm
  have hN : 0 < (hyb S N Q R P X_N).N := h.N
  have hfe := k5.1
  have hterm := ((HybOcp.feas_iff _ _ _).1 hfe).2
  refine ⟨hyn, fun hinv => ?_, fun hdec => ?_⟩
  · obtain ⟨i, hi, v, c1, c2⟩ := hinv _ hterm
    have hf := HybOcp.shifted_feas hN hfe hi c1 c2
    rw [k3] at hf
    exact ⟨_, _, (feas_iff_ineq hno _ _ _).2 (hyb_ineq_start h hpred hf.1).1⟩
  · obtain ⟨i, hi, v, c1, c2, c3⟩ := hdec _ hterm
    have hf := HybOcp.shifted_feas hN hfe hi c1 c2
    have hc := HybOcp.shifted_cost hN x.e (fun t => a.modes.getD t 0) (inputsOf a.u) i v
    rw [k3] at hf hc
    obtain ⟨f1, f2⟩ := hyb_ineq_start h hpred hf.1
    refine ⟨_, _, (feas_iff_ineq hno _ _ _).2 f1, ?_⟩
    rw [← f2, k4.value]
    linarith

/-- C100, what holds: let the domains have no equalities, the programs in the visited states no tiny entries, and let overlapping modes agree along the
closed loop.  If the terminal set is invariant then from a state with a feasible trajectory the closed loop never leaves the domains and never stops: in
each state there is a feasible trajectory, the controller answers, and `simulate` makes the next step.  If the terminal cost decreases, then the value
decreases by at least the stage cost, and the cost of the closed loop is at most the first value.  Missing with respect to C100: modes
that do not agree (false, see `C100_false`), tiny entries and equalities (see C73, C75). -/
theorem C100_partial (L : Lib) (hL : LibSpec L) (G : Gurobi) (hG : GurobiSpec G) (S : PWA) (N : ℕ) (Q R P : Mat ℝ) (X_N : Poly)
    (h : HybArgs S N Q R P X_N) (hw : Weights S.nx S.nu Q R P) (hnx : 0 < S.nx) (hg : GoodDomains S) (hS : PwaOk S)
    (hno : (hyb S N Q R P X_N).NoEq) (c : HMPC) (hrun : HMPC.init L S N Q R P X_N = .ok c) (x u : ℕ → Vec ℝ) (T : ℕ)
    (hl : HybridLoop G c S x u T) (ht : ∀ t ≤ T, MiNoTiny c.mpmiqp (x t).e) (hagr : ∀ t < T, ModesAgree S (x t) (u t)) :
    ((hyb S N Q R P X_N).TerminalInvariant → (∃ m v, (hyb S N Q R P X_N).Feas (x 0).e m v) →
      (∀ t ≤ T, (x t).n = S.nx ∧ (∃ m v, (hyb S N Q R P X_N).Feas (x t).e m v) ∧
        ∃ v y m, c.feedback G (x t) = .ok (some v) ∧ S.simulate (x t) [v] = .ok ([x t, y], [m])) ∧
      ∀ t < T, ∃ j < S.nm, IneqHold (domAt S j).A (domAt S j).b (pair S.nx (x t).e (u t).e)) ∧
    ((hyb S N Q R P X_N).TerminalDecrease →
      (∀ t < T, ∀ a a', c.feedforward G (x t) = .ok (some a) → c.feedforward G (x (t + 1)) = .ok (some a') →
        a'.V + (hyb S N Q R P X_N).stageCost (x t).e (u t).e ≤ a.V) ∧
      ∀ a, c.feedforward G (x 0) = .ok (some a) → ∑ t ∈ range T, (hyb S N Q R P X_N).stageCost (x t).e (u t).e ≤ a.V) := by
  have hxn : ∀ t ≤ T, (x t).n = S.nx := by
    intro t
    induction t with
    | zero => intro _; exact hl.1
    | succ t ih =>
      intro hT
      obtain ⟨e1, m, e2⟩ := hl.2 t (by omega)
      obtain ⟨un, -⟩ := hybrid_step hL hG h hw hnx hg hS hno hrun (ih (by omega)) (ht t (by omega)) e1
      exact (simulate_one hS (ih (by omega)) un e2).2.1
  refine ⟨fun hinv hf0 => ?_, fun hdec => ?_⟩
  · have hfe : ∀ t ≤ T, ∃ m v, (hyb S N Q R P X_N).Feas (x t).e m v := by
      intro t hT
      cases t with
      | zero => exact hf0
      | succ t =>
        obtain ⟨e1, m, e2⟩ := hl.2 t (by omega)
        obtain ⟨-, -, -, a, -, hnext⟩ := hybrid_step hL hG h hw hnx hg hS hno hrun (hxn t (by omega)) (ht t (by omega)) e1
        exact (hnext _ m e2 (hagr t (by omega))).2.1 hinv
    refine ⟨fun t hT => ⟨hxn t hT, hfe t hT, ?_⟩, fun t hT => ?_⟩
    · obtain ⟨v, hv⟩ := (hybrid_answer hL hG h hw hnx hg hno hrun (hxn t hT) (ht t hT)).2 (hfe t hT)
      obtain ⟨-, -, ⟨y, m, hs⟩, -⟩ := hybrid_step hL hG h hw hnx hg hS hno hrun (hxn t hT) (ht t hT) hv
      exact ⟨v, y, m, hv, hs⟩
    · exact (hybrid_step hL hG h hw hnx hg hS hno hrun (hxn t hT.le) (ht t hT.le) (hl.2 t hT).1).2.1
  · have hval : ∀ t < T, ∃ a, c.feedforward G (x t) = .ok (some a) ∧ ∃ m v, (hyb S N Q R P X_N).Feas (x (t + 1)).e m v ∧
        (hyb S N Q R P X_N).cost (x (t + 1)).e m v + (hyb S N Q R P X_N).stageCost (x t).e (u t).e ≤ a.V := by
      intro t hT
      obtain ⟨e1, m, e2⟩ := hl.2 t hT
      obtain ⟨-, -, -, a, ha, hnext⟩ := hybrid_step hL hG h hw hnx hg hS hno hrun (hxn t hT.le) (ht t hT.le) e1
      exact ⟨a, ha, (hnext _ m e2 (hagr t hT)).2.2 hdec⟩
    have hstep : ∀ t < T, ∀ a a', c.feedforward G (x t) = .ok (some a) → c.feedforward G (x (t + 1)) = .ok (some a') →
        a'.V + (hyb S N Q R P X_N).stageCost (x t).e (u t).e ≤ a.V := by
      intro t hT a a' ha ha'
      obtain ⟨b, hb, m, v, hf, hle⟩ := hval t hT
      rw [ha] at hb
      cases hb
      obtain ⟨o, k1, k2, -⟩ := C73_partial L hL G hG S N Q R P X_N h hw hnx hg c hrun (x (t + 1)) (hxn _ hT) (ht _ hT)
      rw [ha'] at k1
      cases k1
      have := (k2 a' rfl).2 m v hf
      linarith
    refine ⟨hstep, fun a ha => ?_⟩
    -- the sum and the value of the current state
    suffices hs : ∀ τ ≤ T, (∑ t ∈ range τ, (hyb S N Q R P X_N).stageCost (x t).e (u t).e ≤ a.V) ∧ ∀ b, c.feedforward G (x τ) = .ok (some b) →
        ∑ t ∈ range τ, (hyb S N Q R P X_N).stageCost (x t).e (u t).e + b.V ≤ a.V from (hs T le_rfl).1
    intro τ
    induction τ with
    | zero =>
      intro _
      obtain ⟨o, k1, k2, -⟩ := C73_partial L hL G hG S N Q R P X_N h hw hnx hg c hrun (x 0) (hxn _ (by omega)) (ht _ (by omega))
      rw [ha] at k1
      cases k1
      refine ⟨?_, fun b hb => ?_⟩
      · rw [Finset.sum_range_zero, (k2 a rfl).1.value]
        exact HybOcp.cost_nonneg (p := hyb S N Q R P X_N) hw _ _ _
      · rw [ha] at hb
        cases hb
        simp
    | succ τ ih =>
      intro hT
      obtain ⟨b, hb, m, v, hf, hle⟩ := hval τ (by omega)
      have h1 := (ih (by omega)).2 b hb
      have h2 := HybOcp.cost_nonneg (p := hyb S N Q R P X_N) hw (x (τ + 1)).e m v
      refine ⟨by rw [Finset.sum_range_succ]; linarith, fun b' hb' => ?_⟩
      have := hstep τ (by omega) b b' hb hb'
      rw [Finset.sum_range_succ]
      linarith

/-- C101, what holds: with the hypotheses of `C100_partial`, positive definite `Q` and a decreasing terminal cost, the closed loop reaches each neighbourhood of the
origin, after a number of steps that depends only on the first value.  Missing with respect to C101: the programs in the
visited states must have no tiny entries; this excludes states near the origin, where the loop need not converge (see `C101_false`). -/
theorem C101_partial (L : Lib) (hL : LibSpec L) (G : Gurobi) (hG : GurobiSpec G) (S : PWA) (N : ℕ) (Q R P : Mat ℝ) (X_N : Poly)
    (h : HybArgs S N Q R P X_N) (hw : Weights S.nx S.nu Q R P) (hnx : 0 < S.nx) (hg : GoodDomains S) (hS : PwaOk S)
    (hno : (hyb S N Q R P X_N).NoEq) (c : HMPC) (hrun : HMPC.init L S N Q R P X_N = .ok c)
    (hQ : ∀ x, (∃ i < S.nx, x i ≠ 0) → 0 < quad Q x) (hdec : (hyb S N Q R P X_N).TerminalDecrease) :
    (∀ ε > 0, ∀ V, ∃ T, ∀ x u : ℕ → Vec ℝ, HybridLoop G c S x u T → (∀ t ≤ T, MiNoTiny c.mpmiqp (x t).e) → (∀ t < T, ModesAgree S (x t) (u t)) →
      (∃ a, c.feedforward G (x 0) = .ok (some a) ∧ a.V ≤ V) → ∃ t < T, ∀ i < S.nx, |(x t).e i| ≤ ε) ∧
    ∀ x u : ℕ → Vec ℝ, (∀ T, HybridLoop G c S x u T) → (∀ t, MiNoTiny c.mpmiqp (x t).e) → (∀ t, ModesAgree S (x t) (u t)) →
      ∀ i < S.nx, Tendsto (fun t => (x t).e i) atTop (𝓝 0) := by
  have hsum : ∀ T, ∀ x u : ℕ → Vec ℝ, HybridLoop G c S x u T → (∀ t ≤ T, MiNoTiny c.mpmiqp (x t).e) → (∀ t < T, ModesAgree S (x t) (u t)) →
      ∀ a, c.feedforward G (x 0) = .ok (some a) → ∑ t ∈ range T, (hyb S N Q R P X_N).stageCost (x t).e (u t).e ≤ a.V :=
    fun T x u hl ht hagr => ((C100_partial L hL G hG S N Q R P X_N h hw hnx hg hS hno c hrun x u T hl ht hagr).2 hdec).2
  have hQR : ∀ x u, quad Q x ≤ 2 * (hyb S N Q R P X_N).stageCost x u := fun x u => by
    have := HybOcp.stageCost_nonneg (p := hyb S N Q R P X_N) hw (fun _ => 0) u
    have e : ∀ y, (hyb S N Q R P X_N).stageCost y u = 1 / 2 * (quad Q y + quad R u) := fun _ => rfl
    rw [e] at this ⊢
    have z : quad Q (fun _ => 0) = 0 := by simp [quad]
    rw [z] at this
    linarith
  refine ⟨fun ε hε V => ?_, fun x u hl ht hagr => ?_⟩
  · obtain ⟨α, hα, hlow⟩ := Math.quad_lower h.Q.1 h.Q.2.1 hQ
    obtain ⟨T, hT⟩ := exists_nat_gt (V / (1 / 2 * (α * ε ^ 2)))
    have hpos : 0 < 1 / 2 * (α * ε ^ 2) := by positivity
    rw [div_lt_iff₀ hpos] at hT
    refine ⟨T, fun x u hl ht hagr ⟨a, ha, haV⟩ => ?_⟩
    by_contra hcon
    push Not at hcon
    have hle := hsum T x u hl ht hagr a ha
    have hge : ∑ _t ∈ range T, (1 / 2 * (α * ε ^ 2)) ≤ ∑ t ∈ range T, (hyb S N Q R P X_N).stageCost (x t).e (u t).e := by
      refine Finset.sum_le_sum fun t htm => ?_
      obtain ⟨i, hi, hlt⟩ := hcon t (Finset.mem_range.1 htm)
      have h1 := hlow (x t).e i hi
      have h2 := hQR (x t).e (u t).e
      have h3 : ε ^ 2 ≤ ((x t).e i) ^ 2 := by
        rw [← sq_abs ((x t).e i)]
        exact pow_le_pow_left₀ hε.le hlt.le 2
      have h4 : α * ε ^ 2 ≤ α * ((x t).e i) ^ 2 := mul_le_mul_of_nonneg_left h3 hα.le
      linarith
    rw [Finset.sum_const, Finset.card_range, nsmul_eq_mul] at hge
    linarith
  · obtain ⟨a, ha, -⟩ := (hybrid_answer hL hG h hw hnx hg hno hrun (hl 1).1 (ht 0)).1 (u 0) ((hl 1).2 0 one_pos).1
    have hst := Math.tendsto_of_sum_le (fun t => HybOcp.stageCost_nonneg (p := hyb S N Q R P X_N) hw (x t).e (u t).e)
      fun T => hsum T x u (hl T) (fun t _ => ht t) (fun t _ => hagr t) a ha
    refine Math.tendsto_of_quad h.Q.1 h.Q.2.1 hQ (x := fun t => (x t).e) ?_
    exact squeeze_zero (fun t => hw.Q0 _) (fun t => hQR (x t).e (u t).e) (by simpa using hst.const_mul 2)

end Verif.Props
