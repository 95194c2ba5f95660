import Verif.Proofs.ExampleSolve
import Verif.Props.HybridExamples

/- The controller of the drake example (C76, C78, C93, C94, C96). -/
namespace Verif.Props
open Finset Spec Dyn Control
open Example (Solver SolverSpec GoodIneqs NoCut NotCut nextOf)

/-- the values of a list of arrays of variables -/
def valuesOf (v : ℕ → ℝ) (l : List (Vec ℕ)) : ℕ → ℕ → ℝ := fun t k => v ((l.getD t ⟨0, fun _ => 0⟩).e k)

theorem valuesOf_map (v : ℕ → ℝ) (f : ℕ → Vec ℕ) {n t : ℕ} (ht : t < n) (k : ℕ) : valuesOf v ((List.range n).map f) t k = v ((f t).e k) := by
  unfold valuesOf
  rw [List.getD_eq_getElem _ _ (by simpa using ht)]
  simp

/-- the controller with the initial state `x0` -/
theorem set_ok {S : PWA} {N : ℕ} {Q R P : Mat ℝ} {X_N : Poly} {Gs : List Poly} {m : List (List (Vec ℝ))} {rest : List Example.LinCon} {a : ℕ → ℝ}
    {c : Example.Ctrl} (hc : Example.IsCtrl S N Q R P X_N Gs m rest c) (hi : Example.HasInits S.nx a rest c) {x0 : Vec ℝ} (hx : S.nx ≤ x0.n) :
    ∃ c', Example.set_initial_condition x0 c = (.ok (), c') ∧ Example.IsCtrl S N Q R P X_N Gs m rest c' ∧ Example.HasInits S.nx x0.e rest c' := by
  refine ⟨{ c with prog := { c.prog with cons := Example.inits S.nx x0.e ++ rest } }, ?_, ⟨hc.sys, hc.hor, hc.x, hc.u, hc.d, hc.rest, hc.cost⟩, ⟨hi.ic, rfl⟩⟩
  have e : Example.inits S.nx (fun j => if j < x0.n then x0.e j else a j) = Example.inits S.nx x0.e := Example.inits_congr fun j hj => if_pos (by omega)
  rw [Example.set_initial_condition_spec hi, if_neg (by omega), e]

/-- C76, what holds: let the inequalities of the domains be satisfiable and bounded, and let there be at least two modes.  Then the constructor succeeds,
and after `set_initial_condition(x0)` each point of the program selects one mode per stage, and its states and inputs are a trajectory from `x0` that satisfies
the inequalities of the domains of the selected modes and of the terminal set, with the same cost.  Conversely each such trajectory is a point of the program,
if no greatest violation is strictly between `0` and `1e-6`.  Missing with respect to C76: violations that are rounded to zero (false, see `C76_false`), one
mode (see C96) and the equalities of the domains, which are ignored. -/
theorem C76_partial (L : Lib) (hL : LibSpec L) (S : PWA) (N : ℕ) (Q R P : Mat ℝ) (X_N : Poly) (h : HybArgs S N Q R P X_N) (hg : GoodIneqs S) (h2 : 2 ≤ S.nm) :
    ∃ c0, Example.init L S N Q R P X_N = .ok c0 ∧ ∀ x0 : Vec ℝ, S.nx ≤ x0.n → ∃ c, Example.set_initial_condition x0 c0 = (.ok (), c) ∧
      (∀ v, c.prog.Feasible v → ∃ μ, (∀ t < N, ∀ j < S.nm, valuesOf v c.d t j = if j = μ t then 1 else 0) ∧
        (hyb S N Q R P X_N).IneqFeas x0.e μ (valuesOf v c.u) ∧
        (∀ t ≤ N, ∀ k < S.nx, valuesOf v c.x t k = (hyb S N Q R P X_N).x x0.e μ (valuesOf v c.u) t k) ∧
        c.prog.cost v = (hyb S N Q R P X_N).cost x0.e μ (valuesOf v c.u)) ∧
      (NoCut S → ∀ μ u, (hyb S N Q R P X_N).IneqFeas x0.e μ u → ∃ v, c.prog.Feasible v ∧ (∀ t < N, ∀ k < S.nu, valuesOf v c.u t k = u t k) ∧
        c.prog.cost v = (hyb S N Q R P X_N).cost x0.e μ u) := by
  obtain ⟨Gs, m, c0, rest, hGi, hm, e0, hc0, hi0⟩ := Example.init_ok hL h hg h2
  refine ⟨c0, e0, fun x0 hx => ?_⟩
  obtain ⟨c, e, hc, hi⟩ := set_ok hc0 hi0 hx
  have hu : ∀ v, ∀ t < N, ∀ k, valuesOf v c.u t k = v ((Example.ui S.nx S.nu S.nm t).e k) := fun v t ht k => by
    rw [hc.u]
    exact valuesOf_map v _ ht k
  have hx' : ∀ v, ∀ t ≤ N, ∀ k, valuesOf v c.x t k = v ((Example.xi S.nx S.nu S.nm t).e k) := fun v t ht k => by
    rw [hc.x]
    exact valuesOf_map v _ (by omega) k
  have hd : ∀ v, ∀ t < N, ∀ k, valuesOf v c.d t k = v ((Example.di S.nx S.nu S.nm t).e k) := fun v t ht k => by
    rw [hc.d]
    exact valuesOf_map v _ ht k
  refine ⟨c, e, fun v hv => ?_, fun hcut μ u hf => ?_⟩
  · obtain ⟨v0, vB, vR, vT⟩ := (hc.feas hi v).1 hv
    obtain ⟨μ, m1, m2, m3⟩ := Example.prog_sound h hGi v0 vB vR vT
    obtain ⟨f, g⟩ := hyb_ineq_congr h (u' := valuesOf v c.u) (fun t _ => rfl) (fun t ht k _ => (hu v t ht k).symm) m2
    have hxx := hyb_x_congr (N := N) (Q := Q) (R := R) (P := P) (X_N := X_N) h.pwa (x0 := x0.e) m2.1 (fun t _ => rfl)
      (u := fun t k => v ((Example.ui S.nx S.nu S.nm t).e k)) (u' := valuesOf v c.u) (fun t ht k _ => (hu v t ht k).symm)
    refine ⟨μ, fun t ht j hj => ?_, f, fun t ht k hk => ?_, ?_⟩
    · rw [hd v t ht]
      exact m1 t ht j hj
    · rw [hx' v t ht, m3 t ht k hk, hxx t ht]
    · rw [hc.cost, ← g]
      exact Example.cost_traj h (fun t _ k _ => rfl) m3
  · obtain ⟨v, v0, vB, vR, vT, v1, v2⟩ := Example.prog_complete h hcut hGi hm hf
    refine ⟨v, (hc.feas hi v).2 ⟨v0, vB, vR, vT⟩, fun t ht k hk => ?_, ?_⟩
    · rw [hu v t ht, v1 t ht k hk]
    · rw [hc.cost]
      exact Example.cost_traj h v1 v2

/-! ### the answers -/

/-- what `feedforward` does after the initial condition is set -/
noncomputable def answer (D : Solver) (c : Example.Ctrl) : Py (Option HMPC.Answer) :=
  match D.solve c.prog with
  | none => .ok none
  | some v => do
    let a ← Example.unpack c v
    return some a

theorem feedforward_eq (D : Solver) {x0 : Vec ℝ} {c c' : Example.Ctrl} (h : Example.set_initial_condition x0 c = (.ok (), c')) :
    Example.feedforward D x0 c = (answer D c', c') := by
  unfold Example.feedforward answer
  rw [PyM.bind_ok h, PyM.bind_ok (PyM.get_apply c')]
  cases D.solve c'.prog with
  | none => rfl
  | some v =>
    show (PyM.lift (Example.unpack c' v) >>= fun a => (pure (some a) : PyM Example.Ctrl _)) c' = _
    simp only []
    rw [PyM.bind_apply, PyM.lift_apply]
    cases hu : Example.unpack c' v with
    | ok a => rfl
    | error e => rfl

/-- C93: let the inequalities of the domains be satisfiable and bounded, at least two modes, and no greatest violation strictly between `0` and `1e-6`.  Then
`feedforward(x0)` never raises; it returns four `None` exactly when no trajectory satisfies the inequalities; otherwise it returns a trajectory in
the returned modes with its cost, and no trajectory that satisfies the inequalities is cheaper.  If there are no equalities the answer is optimal. -/
theorem C93 (L : Lib) (hL : LibSpec L) (D : Solver) (hD : SolverSpec D) (S : PWA) (N : ℕ) (Q R P : Mat ℝ) (X_N : Poly) (h : HybArgs S N Q R P X_N)
    (hw : Weights S.nx S.nu Q R P) (hg : GoodIneqs S) (h2 : 2 ≤ S.nm) (hcut : NoCut S) :
    ∃ c0, Example.init L S N Q R P X_N = .ok c0 ∧ ∀ x0 : Vec ℝ, S.nx ≤ x0.n → ∃ o, (Example.feedforward D x0 c0).1 = .ok o ∧
      (o = none ↔ ∀ μ u, ¬ (hyb S N Q R P X_N).IneqFeas x0.e μ u) ∧
      (∀ a, o = some a → Consistent (hyb S N Q R P X_N) x0.e a ∧ ∀ μ u, (hyb S N Q R P X_N).IneqFeas x0.e μ u → a.V ≤ (hyb S N Q R P X_N).cost x0.e μ u) ∧
      ((hyb S N Q R P X_N).NoEq → (o = none ↔ ∀ μ u, ¬ (hyb S N Q R P X_N).Feas x0.e μ u) ∧
        ∀ a, o = some a → (hyb S N Q R P X_N).Opt x0.e (fun t => a.modes.getD t 0) (inputsOf a.u)) := by
  obtain ⟨Gs, m, c0, rest, hGi, hm, e0, hc0, hi0⟩ := Example.init_ok hL h hg h2
  refine ⟨c0, e0, fun x0 hx => ?_⟩
  obtain ⟨c, e, hc, hi⟩ := set_ok hc0 hi0 hx
  rw [feedforward_eq D e]
  have hcost0 : ∀ v, 0 ≤ c.prog.cost v := fun v => by
    rw [hc.cost]
    have hR0 : ∀ u, 0 ≤ quad R u := fun u => by
      by_cases hu : ∃ s < S.nu, u s ≠ 0
      · exact (hw.Rpos u hu).le
      · push Not at hu
        have : quad R u = 0 := by
          unfold quad
          exact Finset.sum_eq_zero fun i hi => Finset.sum_eq_zero fun j _ => by rw [hu i (by rw [← h.R.1]; exact mem_range.1 hi)]; ring
        rw [this]
    have h1 : ∀ t ∈ range N, 0 ≤ Example.StageC S Q R t v := fun t _ => by
      unfold Example.StageC
      have a := hw.Q0 fun i => v ((Example.xi S.nx S.nu S.nm t).e i)
      have b := hR0 fun i => v ((Example.ui S.nx S.nu S.nm t).e i)
      linarith
    have h3 := Finset.sum_nonneg h1
    have h4 := hw.P0 fun i => v ((Example.xi S.nx S.nu S.nm N).e i)
    linarith
  have hdown : ∀ μ u, (hyb S N Q R P X_N).IneqFeas x0.e μ u → ∃ v, c.prog.Feasible v ∧ c.prog.cost v = (hyb S N Q R P X_N).cost x0.e μ u := by
    intro μ u hf
    obtain ⟨v, v0, vB, vR, vT, v1, v2⟩ := Example.prog_complete h hcut hGi hm hf
    exact ⟨v, (hc.feas hi v).2 ⟨v0, vB, vR, vT⟩, by rw [hc.cost]; exact Example.cost_traj h v1 v2⟩
  have hup : ∀ v, c.prog.Feasible v → ∃ μ : ℕ → ℕ, (∀ t < N, ∀ j < S.nm, v ((Example.di S.nx S.nu S.nm t).e j) = if j = μ t then 1 else 0) ∧
      (hyb S N Q R P X_N).IneqFeas x0.e μ (fun t k => v ((Example.ui S.nx S.nu S.nm t).e k)) ∧
      (∀ t ≤ N, ∀ k < S.nx, v ((Example.xi S.nx S.nu S.nm t).e k) = (hyb S N Q R P X_N).x x0.e μ (fun t k => v ((Example.ui S.nx S.nu S.nm t).e k)) t k) ∧
      c.prog.cost v = (hyb S N Q R P X_N).cost x0.e μ (fun t k => v ((Example.ui S.nx S.nu S.nm t).e k)) := by
    intro v hv
    obtain ⟨v0, vB, vR, vT⟩ := (hc.feas hi v).1 hv
    obtain ⟨μ, m1, m2, m3⟩ := Example.prog_sound h hGi v0 vB vR vT
    exact ⟨μ, m1, m2, m3, by rw [hc.cost]; exact Example.cost_traj h (fun t _ k _ => rfl) m3⟩
  have hfeas : ∀ μ u, (hyb S N Q R P X_N).IneqFeas x0.e μ u → ∃ v, D.solve c.prog = some v := by
    intro μ u hf
    obtain ⟨μ', u', f', o'⟩ := hyb_opt_exists hL h hw ⟨μ, u, hf⟩
    obtain ⟨v, hv, cv⟩ := hdown μ' u' f'
    refine hD.complete c.prog hcost0 ⟨v, hv, fun w hw' => ?_⟩
    obtain ⟨μ'', -, k1, -, k2⟩ := hup w hw'
    rw [cv, k2]
    exact o' _ _ k1
  cases hs : D.solve c.prog with
  | none =>
    have hnone : ∀ μ u, ¬ (hyb S N Q R P X_N).IneqFeas x0.e μ u := fun μ u hf => by
      obtain ⟨v, hv⟩ := hfeas μ u hf
      rw [hs] at hv
      cases hv
    refine ⟨none, by unfold answer; rw [hs], ⟨fun _ => hnone, fun _ => rfl⟩, fun a ha => (nomatch ha), fun hno => ⟨⟨fun _ μ u hf => hnone μ u hf.1, fun _ => rfl⟩,
      fun a ha => (nomatch ha)⟩⟩
  | some v =>
    obtain ⟨hv, hopt⟩ := hD.sound c.prog v hs
    obtain ⟨μ, m1, m2, m3, m4⟩ := hup v hv
    -- the modes
    have hms : (c.d.map (Example.getSolution v)).mapM Example.argmax = .ok ((List.range N).map μ) := by
      rw [hc.d, List.map_map]
      have : ∀ l : List ℕ, (∀ t ∈ l, t < N) → (l.map (Example.getSolution v ∘ Example.di S.nx S.nu S.nm)).mapM Example.argmax = .ok (l.map μ) := by
        intro l
        induction l with
        | nil => intro _; rfl
        | cons t l ih =>
          intro hl
          have ht := hl t (List.mem_cons_self ..)
          rw [List.map_cons, List.mapM_cons, show Example.argmax ((Example.getSolution v ∘ Example.di S.nx S.nu S.nm) t) = .ok (μ t) from
            Example.argmax_unit (m2.1 t ht) fun j hj => m1 t ht j hj, Py.ok_bind, ih fun t ht => hl t (List.mem_cons_of_mem _ ht), Py.ok_bind]
          rfl
      exact this _ fun t ht => List.mem_range.1 ht
    set a : HMPC.Answer := ⟨c.u.map (Example.getSolution v), c.x.map (Example.getSolution v), (List.range N).map μ, c.prog.cost v⟩ with ha
    have hun : answer D c = .ok (some a) := by
      unfold answer
      rw [hs]
      show (Example.unpack c v >>= fun a => (.ok (some a) : Py (Option HMPC.Answer))) = _
      unfold Example.unpack
      rw [hms]
      rfl
    have hmod : ∀ t < N, μ t = a.modes.getD t 0 := fun t ht => by
      show μ t = ((List.range N).map μ).getD t 0
      rw [List.getD_eq_getElem _ _ (by simpa using ht)]
      simp
    have hin : ∀ t < N, ∀ k < S.nu, v ((Example.ui S.nx S.nu S.nm t).e k) = inputsOf a.u t k := fun t ht k _ => by
      show _ = ((c.u.map (Example.getSolution v)).getD t ⟨0, fun _ => 0⟩).e k
      rw [hc.u, List.map_map, List.getD_eq_getElem _ _ (by simpa using ht)]
      simp [Example.getSolution]
    obtain ⟨f, g⟩ := hyb_ineq_congr h hmod hin m2
    have hxx := hyb_x_congr (N := N) (Q := Q) (R := R) (P := P) (X_N := X_N) h.pwa (x0 := x0.e) m2.1 hmod hin
    have hcons : Consistent (hyb S N Q R P X_N) x0.e a := by
      refine ⟨⟨?_, fun w hw' => ?_⟩, ?_, ⟨?_, fun w hw' => ?_⟩, fun t ht k hk => ?_, f, ?_⟩
      · show (c.u.map _).length = N
        rw [hc.u]
        simp
      · have hw' : w ∈ c.u.map (Example.getSolution v) := hw'
        rw [hc.u, List.map_map] at hw'
        obtain ⟨t, -, rfl⟩ := List.mem_map.1 hw'
        rfl
      · show ((List.range N).map μ).length = N
        simp
      · show (c.x.map _).length = N + 1
        rw [hc.x]
        simp
      · have hw' : w ∈ c.x.map (Example.getSolution v) := hw'
        rw [hc.x, List.map_map] at hw'
        obtain ⟨t, -, rfl⟩ := List.mem_map.1 hw'
        exact Example.xi_n _ _ _ t
      · show ((c.x.map (Example.getSolution v)).getD t vec0).e k = _
        have ht : t ≤ N := ht
        rw [← hxx t ht, ← m3 t ht k hk, hc.x, List.map_map, List.getD_eq_getElem _ _ (by simp; omega)]
        simp [Example.getSolution]
      · exact m4.trans g
    have hleast : ∀ μ u, (hyb S N Q R P X_N).IneqFeas x0.e μ u → a.V ≤ (hyb S N Q R P X_N).cost x0.e μ u := fun μ' u' hf => by
      obtain ⟨w, hw', cw⟩ := hdown μ' u' hf
      rw [← cw]
      exact hopt w hw'
    refine ⟨some a, hun, ⟨fun h => (nomatch h), fun h => absurd f (h _ _)⟩, fun a' ha' => ?_, fun hno => ⟨⟨fun h => (nomatch h), fun h => ?_⟩, fun a' ha' => ?_⟩⟩
    · cases ha'
      exact ⟨hcons, hleast⟩
    · exact absurd ((feas_iff_ineq hno _ _ _).2 f) (h _ _)
    · cases ha'
      refine ⟨(feas_iff_ineq hno _ _ _).2 f, fun μ' u' hf => ?_⟩
      rw [← hcons.value]
      exact hleast _ _ hf.1

/-! ### earlier calls -/

/-- the controllers after some calls of its methods, including calls that raise -/
inductive Reach (D : Solver) (c0 : Example.Ctrl) : Example.Ctrl → Prop
  | start : Reach D c0 c0
  | set (x0 : Vec ℝ) {c : Example.Ctrl} : Reach D c0 c → Reach D c0 (Example.set_initial_condition x0 c).2
  | feedforward (x0 : Vec ℝ) {c : Example.Ctrl} : Reach D c0 c → Reach D c0 (Example.feedforward D x0 c).2
  | feedback (x0 : Vec ℝ) {c : Example.Ctrl} : Reach D c0 c → Reach D c0 (Example.feedback D x0 c).2

theorem feedforward_state (D : Solver) (x0 : Vec ℝ) (c : Example.Ctrl) : (Example.feedforward D x0 c).2 = (Example.set_initial_condition x0 c).2 := by
  cases hs : Example.set_initial_condition x0 c with
  | mk r c' =>
    cases r with
    | ok _ => rw [feedforward_eq D hs]
    | error e =>
      unfold Example.feedforward
      rw [PyM.bind_error hs]

theorem feedback_state (D : Solver) (x0 : Vec ℝ) (c : Example.Ctrl) : (Example.feedback D x0 c).2 = (Example.set_initial_condition x0 c).2 := by
  rw [← feedforward_state D]
  unfold Example.feedback
  cases hs : Example.feedforward D x0 c with
  | mk r c' =>
    cases r with
    | ok a => rw [PyM.bind_ok hs]; rfl
    | error e => rw [PyM.bind_error hs]

theorem reach_state {D : Solver} {nx : ℕ} {a : ℕ → ℝ} {rest : List Example.LinCon} {c0 c : Example.Ctrl} (h0 : Example.HasInits nx a rest c0) (h : Reach D c0 c) :
    ∃ b, c = { c0 with prog := { c0.prog with cons := Example.inits nx b ++ rest } } := by
  have step : ∀ (x0 : Vec ℝ) (c : Example.Ctrl), (∃ b, c = { c0 with prog := { c0.prog with cons := Example.inits nx b ++ rest } }) →
      ∃ b, (Example.set_initial_condition x0 c).2 = { c0 with prog := { c0.prog with cons := Example.inits nx b ++ rest } } := by
    rintro x0 c ⟨b, rfl⟩
    rw [Example.set_initial_condition_spec (nx := nx) (a := b) (rest := rest)
      (c := { c0 with prog := { c0.prog with cons := Example.inits nx b ++ rest } }) ⟨h0.ic, rfl⟩]
    exact ⟨_, rfl⟩
  induction h with
  | start => exact ⟨a, by rw [← h0.cons]⟩
  | set x0 _ ih => exact step x0 _ ih
  | feedforward x0 _ ih => rw [feedforward_state]; exact step x0 _ ih
  | feedback x0 _ ih => rw [feedback_state]; exact step x0 _ ih

/-- a loop that only adds constraints -/
theorem foldlM_cons {α : Type} (cons : α → List Example.LinCon) {f : α → ℕ → Py α} (hf : ∀ p k p', f p k = .ok p' → ∃ l, cons p' = cons p ++ l) (l : List ℕ) :
    ∀ p p', l.foldlM f p = .ok p' → ∃ l, cons p' = cons p ++ l := by
  induction l with
  | nil =>
    intro p p' h
    cases h
    exact ⟨[], (List.append_nil _).symm⟩
  | cons k l ih =>
    intro p p' h
    rw [List.foldlM_cons] at h
    obtain ⟨p1, h1, h2⟩ := Py.bind_eq_ok h
    obtain ⟨l1, e1⟩ := hf p k p1 h1
    obtain ⟨l2, e2⟩ := ih p1 p' h2
    exact ⟨l1 ++ l2, by rw [e2, e1, List.append_assoc]⟩

theorem init_inits {L : Lib} {S : PWA} {N : ℕ} {Q R P : Mat ℝ} {X_N : Poly} {c : Example.Ctrl} (h : Example.init L S N Q R P X_N = .ok c) :
    ∃ rest, Example.HasInits S.nx (fun _ => 0) rest c := by
  unfold Example.init at h
  obtain ⟨G, -, h⟩ := Py.bind_eq_ok h
  obtain ⟨m, -, h⟩ := Py.bind_eq_ok h
  obtain ⟨s, hs, h⟩ := Py.bind_eq_ok h
  obtain ⟨xN, -, h⟩ := Py.bind_eq_ok h
  obtain ⟨p, hp, h⟩ := Py.bind_eq_ok h
  obtain ⟨q, -, h⟩ := Py.bind_eq_ok h
  cases h
  obtain ⟨l1, e1⟩ := foldlM_cons (fun s : Example.Build => s.prog.cons) (f := Example.addStage S Q R G m) (fun s t s' h => by
    unfold Example.addStage at h
    obtain ⟨xt, -, h⟩ := Py.bind_eq_ok h
    obtain ⟨w, -, h⟩ := Py.bind_eq_ok h
    obtain ⟨p, hp, h⟩ := Py.bind_eq_ok h
    obtain ⟨qu, -, h⟩ := Py.bind_eq_ok h
    obtain ⟨qx, -, h⟩ := Py.bind_eq_ok h
    cases h
    obtain ⟨l, e⟩ := foldlM_cons Example.Prog.cons (fun p i p' h => by
      unfold Example.addMode at h
      obtain ⟨Pi, -, h⟩ := Py.bind_eq_ok h
      obtain ⟨mi, -, h⟩ := Py.bind_eq_ok h
      exact foldlM_cons Example.Prog.cons (fun p k p' h => by
        unfold Example.addRow at h
        obtain ⟨a, -, h⟩ := Py.bind_eq_ok h
        obtain ⟨b, -, h⟩ := Py.bind_eq_ok h
        cases h
        exact ⟨_, rfl⟩) _ _ _ h) _ _ _ hp
    have key : ∀ terms, ∃ l', (p.addEq terms 1).cons = s.prog.cons ++ l' := fun terms => ⟨l ++ [⟨terms, some 1, some 1⟩], by
      show p.cons ++ [_] = _
      rw [e, List.append_assoc]
      rfl⟩
    exact key _) _ _ _ hs
  obtain ⟨l2, e2⟩ := foldlM_cons Example.Prog.cons (fun p k p' h => by
    unfold Example.addTerminal at h
    obtain ⟨a, -, h⟩ := Py.bind_eq_ok h
    cases h
    exact ⟨_, rfl⟩) _ _ _ hp
  refine ⟨l1 ++ l2, rfl, ?_⟩
  show p.cons = _
  rw [e2, e1, Example.initial_eq, List.append_assoc]

/-- C94: what `feedforward(x0)` and `feedback(x0)` return, and the controller they leave, does not depend on the earlier calls of the methods of the
controller, even if some of them raised; for vectors that are too short all of them raise. -/
theorem C94 (L : Lib) (D : Solver) (S : PWA) (N : ℕ) (Q R P : Mat ℝ) (X_N : Poly) (c0 : Example.Ctrl) (h0 : Example.init L S N Q R P X_N = .ok c0)
    (c : Example.Ctrl) (hc : Reach D c0 c) (x0 : Vec ℝ) :
    (S.nx ≤ x0.n → Example.feedforward D x0 c = Example.feedforward D x0 c0 ∧ Example.feedback D x0 c = Example.feedback D x0 c0) ∧
    (x0.n < S.nx → (Example.feedforward D x0 c).1 = .error .runtimeError ∧ (Example.feedback D x0 c).1 = .error .runtimeError) := by
  obtain ⟨rest, hi⟩ := init_inits h0
  obtain ⟨b, rfl⟩ := reach_state hi hc
  have s1 := Example.set_initial_condition_spec (x0 := x0) (nx := S.nx) (a := b) (rest := rest)
    (c := { c0 with prog := { c0.prog with cons := Example.inits S.nx b ++ rest } }) ⟨hi.ic, rfl⟩
  constructor
  · intro hx
    have s0 := Example.set_initial_condition_spec (x0 := x0) hi
    have e : ∀ a : ℕ → ℝ, Example.inits S.nx (fun j => if j < x0.n then x0.e j else a j) = Example.inits S.nx x0.e :=
      fun a => Example.inits_congr fun j hj => if_pos (by omega)
    rw [if_neg (by omega), e] at s0 s1
    have hff : Example.feedforward D x0 { c0 with prog := { c0.prog with cons := Example.inits S.nx b ++ rest } } = Example.feedforward D x0 c0 := by
      rw [feedforward_eq D s0, feedforward_eq D s1]
    refine ⟨hff, ?_⟩
    unfold Example.feedback
    rw [PyM.bind_apply, PyM.bind_apply, hff]
  · intro hx
    rw [if_pos hx] at s1
    have hff : ∃ c', Example.feedforward D x0 { c0 with prog := { c0.prog with cons := Example.inits S.nx b ++ rest } } = (.error .runtimeError, c') := by
      unfold Example.feedforward
      exact ⟨_, PyM.bind_error s1⟩
    obtain ⟨c', hff⟩ := hff
    refine ⟨by rw [hff], ?_⟩
    unfold Example.feedback
    rw [PyM.bind_error hff]

/-- C96: for a system with one mode the constructor raises `IndexError` (if the graph has rows: `nx > 0` or some inequality), because the sum
over the other modes is a number and not an array. -/
theorem C96 (L : Lib) (hL : LibSpec L) (S : PWA) (N : ℕ) (Q R P : Mat ℝ) (X_N : Poly) (h : HybArgs S N Q R P X_N) (hg : GoodIneqs S) (h1 : S.nm = 1)
    (hr : 0 < (domAt S 0).A.nr ∨ 0 < S.nx) : Example.init L S N Q R P X_N = .error .indexError := by
  obtain ⟨Gs, m, e1, e2, hG, hGi, hm⟩ := Example.build_m hL h.pwa hg
  have hG0 := hGi 0 (by omega)
  obtain ⟨n, rfl⟩ : ∃ n, N = n + 1 := ⟨N - 1, by have := h.N; omega⟩
  obtain ⟨r, hr'⟩ : ∃ r, (Gs.getD 0 poly0).A.nr = r + 1 := ⟨(Gs.getD 0 poly0).A.nr - 1, by rw [hG0.nr]; omega⟩
  have hrow : ∀ (d : Vec ℕ) (w : Vec ℕ) (hw : w.n = S.nx + S.nu + S.nx) (p : Example.Prog),
      (List.range S.nm).foldlM (Example.addMode Gs m S.nm w d) p = .error .indexError := by
    intro d w hw p
    obtain ⟨t, f1, -⟩ := Example.rowVars_ok (A := (Gs.getD 0 poly0).A) (k := 0) (w := w) (by rw [hG0.nc, hw])
    rw [h1]
    show (Example.addMode Gs m 1 w d p 0 >>= _) = _
    have : Example.addMode Gs m 1 w d p 0 = .error .indexError := by
      unfold Example.addMode
      rw [Dyn.listGet_ok poly0 (show 0 < Gs.length by rw [hG]; omega), Py.ok_bind, Dyn.listGet_ok [] (show 0 < m.length by rw [hm.len]; omega), Py.ok_bind, hr',
        List.range_succ_eq_map, List.foldlM_cons]
      unfold Example.addRow
      rw [f1, Py.ok_bind]
      rfl
    rw [this]
    rfl
  have hst : ∀ s : Example.Build, s.x = [Example.xi S.nx S.nu S.nm 0] → Example.addStage S Q R Gs m s 0 = .error .indexError := by
    intro s hs
    have hx : np.listGet s.x 0 = .ok (Example.xi S.nx S.nu S.nm 0) := by rw [hs]; rfl
    unfold Example.addStage
    rw [hx, Py.ok_bind]
    simp only []
    rw [show np.concatenate [Example.xi S.nx S.nu S.nm 0, (s.prog.newContinuous S.nu).1, (((s.prog.newContinuous S.nu).2.newBinary S.nm).2.newContinuous S.nx).1]
      = .ok ((Example.xi S.nx S.nu S.nm 0).append ((s.prog.newContinuous S.nu).1.append (((s.prog.newContinuous S.nu).2.newBinary S.nm).2.newContinuous S.nx).1))
      from rfl, Py.ok_bind, hrow _ _ (by show S.nx + (S.nu + S.nx) = _; omega)]
    rfl
  unfold Example.init
  rw [e1, Py.ok_bind, e2, Py.ok_bind, List.range_succ_eq_map, List.foldlM_cons, hst _ (by rw [Example.initial_eq]; rfl)]
  rfl

end Verif.Props
