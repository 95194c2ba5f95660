import Verif.Props.CondensedOcp
import Verif.Props.PwaSystem
import Verif.Proofs.QPMain
import Verif.Proofs.KKTNec
import Verif.Proofs.MpQPFree
import Verif.Proofs.LinOcp

/- The linear model predictive controller. -/
namespace Verif
namespace Control
open Finset Spec Dyn Props

/-- the optimal control problem with the given data -/
def problem (S : LinearSystem) (N : ℕ) (Q R P : Mat ℝ) (D X_N : Poly) : LinOcp :=
  ⟨S.nx, S.nu, N, S.A, S.B, Q, R, P, D.A, D.b, X_N.A, X_N.b⟩

/-- the arguments of `ModelPredictiveController` have consistent sizes, the weights are symmetric and positive
(semi)definite, the horizon is positive -/
structure MpcSizes (S : LinearSystem) (N : ℕ) (Q R P : Mat ℝ) (D X_N : Poly) : Prop where
  sys : SystemShape S.nx S.nu S.A S.B (Vec.zeros S.nx)
  N : 0 < N
  w : Weights S.nx S.nu Q R P
  D : D.A.nc = S.nx + S.nu ∧ D.b.n = D.A.nr
  XN : X_N.A.nc = S.nx ∧ X_N.b.n = X_N.A.nr

/-- the same, and `D` or `X_N` has an inequality: without any the quadratic program of the controller has no
constraint, and the solver raises `RuntimeError` -/
structure MpcArgs (S : LinearSystem) (N : ℕ) (Q R P : Mat ℝ) (D1 X_N : Poly) : Prop extends MpcSizes S N Q R P D1 X_N where
  rows : 0 < D1.A.nr ∨ 0 < X_N.A.nr

theorem traj_congr {A A' B B' : ℕ → Mat ℝ} {c c' : ℕ → Vec ℝ} {x0 : ℕ → ℝ} {u u' : ℕ → ℕ → ℝ} {N nx nu : ℕ}
    (hA : ∀ t < N, A t = A' t) (hB : ∀ t < N, B t = B' t) (hc : ∀ t < N, c t = c' t) (hn : ∀ t < N, (B t).nc = nu)
    (hx : ∀ t < N, (A t).nc = nx)
    (hu : ∀ t < N, ∀ s < nu, u t s = u' t s) : ∀ t ≤ N, ∀ i, traj A B c x0 u t i = traj A' B' c' x0 u' t i := by
  intro t
  induction t with
  | zero => intro _ i; rfl
  | succ t ih =>
    intro ht i
    have ht' : t < N := ht
    simp only [traj, affine]
    rw [← hA t ht', ← hB t ht', ← hc t ht']
    congr 2
    · exact Finset.sum_congr rfl fun j _ => by rw [ih ht'.le]
    · exact Finset.sum_congr rfl fun j hj => by rw [hu t ht' j (by rw [← hn t ht']; exact mem_range.1 hj)]

/-- the constructor condenses the problem -/
theorem init_run {S : LinearSystem} {N : ℕ} {Q R P : Mat ℝ} {D X_N : Poly} (h : MpcSizes S N Q R P D X_N) :
    ∃ q, MPC.init S N Q R P D X_N = .ok ⟨S, N, Q, R, P, D, X_N, none, q⟩ ∧ q.Made ∧ q.data.Shape (S.nu * N) S.nx ∧
      (∀ x0 v : ℕ → ℝ, q.data.Feas (S.nu * N) S.nx v x0 ↔ (problem S N Q R P D X_N).Feas x0 (unflat S.nu v)) ∧
      (∀ x0 v : ℕ → ℝ, q.data.cost (S.nu * N) S.nx v x0 = (problem S N Q R P D X_N).cost x0 (unflat S.nu v)) ∧ q.Au.nr = N * D.A.nr + X_N.A.nr := by
  set Sa : AffineSystem := ⟨S.A, S.B, Vec.zeros S.nx, S.nx, S.nu⟩ with hSa
  set Sp : PWA := ⟨S.nx, S.nu, [Sa], [D], 1⟩ with hSp
  have e1 : AffineSystem.init S.A S.B (.d1 (Vec.zeros S.nx)) = .ok Sa := by
    unfold AffineSystem.init
    rw [check_ok' h.sys, Py.ok_bind, h.sys.2.2.1, h.sys.2.2.2.1]
    rfl
  have e2 : PWA.init [.aff Sa] [D] = .ok Sp := by
    unfold PWA.init
    have o1 : onlyElement ([Sys.aff Sa].map Sys.nx) = .ok S.nx := rfl
    have o2 : onlyElement ([Sys.aff Sa].map Sys.nu) = .ok S.nu := rfl
    have o3 : onlyElement ([D].map (·.A.nc)) = .ok (S.nx + S.nu) := by
      show Except.ok D.A.nc = _
      rw [h.D.1]
    rw [o1, o2, o3]
    simp only [List.length_cons, List.length_nil, ne_eq, not_true_eq_false, if_false, Py.ok_bind]
    rfl
  have hs : OcpShape Sp Q R P X_N (List.replicate N 0) := by
    refine ⟨rfl, fun T hT => ?_, fun D' hD' => ?_, ⟨h.w.symQ.1, h.w.symQ.2.1⟩, ⟨h.w.symR.1, h.w.symR.2.1⟩, ⟨h.w.symP.1, h.w.symP.2.1⟩, h.XN, ?_, ?_⟩
    · obtain rfl : T = Sa := by simpa [hSp] using hT
      exact ⟨h.sys, rfl, rfl⟩
    · obtain rfl : D' = D := by simpa [hSp] using hD'
      exact h.D
    · intro hh
      have := congrArg List.length hh
      simp at this
      have := h.N
      omega
    · intro m hm
      rw [(List.mem_replicate.1 hm).2]
      simp [hSp]
  obtain ⟨q, q1, q2, q3, q4⟩ := ocp_made hs h.w
  obtain ⟨-, -, f⟩ := C62 Sp Q R P X_N (List.replicate N 0) hs
  obtain ⟨g, -⟩ := C63 Sp Q R P X_N (List.replicate N 0) hs h.w.symQ h.w.symP
  have hf := f q q1
  have hg := g q q1
  have hl : (List.replicate N 0).length = N := List.length_replicate
  rw [hl] at hf hg q3
  have rep0 : ∀ t < N, (List.replicate N 0).getD t 0 = 0 := by
    intro t ht
    rw [List.getD_eq_getElem (List.replicate N 0) 0 (by rw [hl]; exact ht), List.getElem_replicate]
  have hm : ∀ t < N, Sp.affine_systems.getD ((List.replicate N 0).getD t 0) sys0 = Sa := by
    intro t ht
    rw [rep0 t ht]
    rfl
  have hd : ∀ t < N, Sp.domains.getD ((List.replicate N 0).getD t 0) poly0 = D := by
    intro t ht
    rw [rep0 t ht]
    rfl
  have ht : ∀ x0 u, ∀ t ≤ N, ∀ i, pwaTraj Sp (List.replicate N 0) x0 u t i = (problem S N Q R P D X_N).x x0 u t i := by
    intro x0 u
    refine traj_congr (nu := S.nu) (nx := S.nx) (fun t ht => by rw [hm t ht]; rfl) (fun t ht => by rw [hm t ht]; rfl) (fun t ht => by rw [hm t ht]; rfl)
      (fun t ht => by rw [hm t ht]; exact h.sys.2.2.2.1) (fun t ht => by rw [hm t ht]; exact h.sys.2.1) (fun _ _ _ _ => rfl)
  refine ⟨q, ?_, q2, q3, fun x0 v => ?_, fun x0 v => ?_, ?_⟩
  · unfold MPC.init MPC.condense_program
    rw [e1, Py.ok_bind, e2, Py.ok_bind, q1]
    rfl
  · refine (hf x0 v).trans (and_congr ?_ ?_)
    · refine forall_congr' fun t => forall_congr' fun htN => ?_
      rw [hd t htN, show pwaTraj Sp (List.replicate N 0) x0 (unflat Sp.nu v) t = (problem S N Q R P D X_N).x x0 (unflat S.nu v) t from
        funext fun i => ht _ _ t htN.le i]
      rfl
    · rw [show pwaTraj Sp (List.replicate N 0) x0 (unflat Sp.nu v) N = (problem S N Q R P D X_N).x x0 (unflat S.nu v) N from
        funext fun i => ht _ _ N le_rfl i]
      rfl
  · refine (hg x0 v).trans ?_
    unfold LinOcp.cost lqCost
    show _ = 1 / 2 * ∑ t ∈ range N, (quad Q _ + quad R _) + 1 / 2 * quad P ((problem S N Q R P D X_N).x x0 (unflat S.nu v) N)
    rw [show pwaTraj Sp (List.replicate N 0) x0 (unflat Sp.nu v) N = (problem S N Q R P D X_N).x x0 (unflat S.nu v) N from
        funext fun i => ht _ _ N le_rfl i]
    congr 2
    refine Finset.sum_congr rfl fun t htN => ?_
    rw [show pwaTraj Sp (List.replicate N 0) x0 (unflat Sp.nu v) t = (problem S N Q R P D X_N).x x0 (unflat S.nu v) t from
        funext fun i => ht _ _ t (mem_range.1 htN).le i]
  · rw [q4, List.map_replicate, List.sum_replicate]
    rfl

theorem problem_shape {S : LinearSystem} {N : ℕ} {Q R P : Mat ℝ} {D X_N : Poly} (h : MpcSizes S N Q R P D X_N) :
    (problem S N Q R P D X_N).Shape :=
  ⟨⟨h.sys.1, h.sys.2.1⟩, ⟨h.sys.2.2.1, h.sys.2.2.2.1⟩, ⟨h.w.symQ.1, h.w.symQ.2.1⟩, ⟨h.w.symR.1, h.w.symR.2.1⟩,
    ⟨h.w.symP.1, h.w.symP.2.1⟩, h.D.1, h.XN.1⟩

theorem unflat_flat {nu : ℕ} (u : ℕ → ℕ → ℝ) (t : ℕ) {s : ℕ} (hs : s < nu) : unflat nu (flat nu u) t s = u t s := by
  have hnu : 0 < nu := by omega
  unfold unflat flat
  rw [Nat.mul_add_div hnu, Nat.div_eq_of_lt hs, Nat.mul_add_mod, Nat.mod_eq_of_lt hs, Nat.add_zero]

theorem slices_spec {v : Vec ℝ} {nu N : ℕ} (hv : v.n = nu * N) :
    (MPC.slices v nu N).length = N ∧ (∀ u ∈ MPC.slices v nu N, u.n = nu) ∧
      ∀ t < N, inputsOf (MPC.slices v nu N) t = unflat nu v.e t := by
  have hl : (MPC.slices v nu N).length = N := by simp [MPC.slices]
  refine ⟨hl, fun u hu => ?_, fun t ht => ?_⟩
  · obtain ⟨i, hi, rfl⟩ := List.mem_map.1 hu
    have hi := List.mem_range.1 hi
    show min (nu * (i + 1)) v.n - nu * i = nu
    rw [hv, min_eq_left (Nat.mul_le_mul_left _ hi), Nat.mul_succ]
    omega
  · unfold inputsOf
    rw [List.getD_eq_getElem _ _ (by rw [hl]; exact ht)]
    simp only [MPC.slices, List.getElem_map, List.getElem_range]
    rfl

/-- the answers of `feedforward` -/
theorem feedforward_run {L : Lib} (hL : LibSpec L) {S : LinearSystem} {N : ℕ} {Q R P : Mat ℝ} {D X_N : Poly}
    (h : MpcArgs S N Q R P D X_N) : ∃ q, MPC.init S N Q R P D X_N = .ok ⟨S, N, Q, R, P, D, X_N, none, q⟩ ∧
      ∀ (e : Option ExplicitSolution) (x : Vec ℝ), x.n = S.nx →
      let c : MPC := ⟨S, N, Q, R, P, D, X_N, e, q⟩
      let p := problem S N Q R P D X_N
      (c.feedforward L x = .ok (none, none) ∨ ∃ us V, c.feedforward L x = .ok (some us, some V) ∧ us.length = N ∧
        (∀ u ∈ us, u.n = S.nu) ∧ p.Opt x.e (inputsOf us) ∧ V = p.cost x.e (inputsOf us) ∧
        ∀ u, p.Opt x.e u → ∀ t < N, ∀ s < S.nu, u t s = inputsOf us t s) ∧
      (c.feedforward L x = .ok (none, none) ↔ (∀ u, ¬ p.Feas x.e u) ∨ ∃ u u0, p.Opt x.e u ∧
        (∀ u', p.cost x.e u0 ≤ p.cost x.e u') ∧
        (1 / (1e-7 : ℝ) ^ 2 - 1) / 2 ≤ p.cost x.e u - p.cost x.e u0) := by
  obtain ⟨q, h1, h2, h3, hF, hC, hR⟩ := init_run h.toMpcSizes
  refine ⟨q, h1, fun e x hx => ?_⟩
  intro c p
  have hrows : 0 < q.Au.nr := by
    rw [hR]
    rcases h.rows with k | k
    · exact Nat.lt_of_lt_of_le (Nat.mul_pos h.N k) (Nat.le_add_right _ _)
    · omega
  have hp : p.Shape := problem_shape h.toMpcSizes
  have cF : ∀ u, p.Feas x.e u ↔ q.data.Feas (S.nu * N) S.nx (flat S.nu u) x.e := fun u => by
    rw [hF]
    exact LinOcp.feas_congr hp (fun _ _ => rfl) fun t _ s hs => (unflat_flat u t hs).symm
  have cC : ∀ u, p.cost x.e u = q.data.cost (S.nu * N) S.nx (flat S.nu u) x.e := fun u => by
    rw [hC]
    exact LinOcp.cost_congr hp (fun _ _ => rfl) fun t _ s hs => (unflat_flat u t hs).symm
  have cO : ∀ v, q.data.Opt (S.nu * N) S.nx v x.e ↔ p.Opt x.e (unflat S.nu v) := by
    intro v
    unfold LinOcp.Opt Spec.ParamQP.Opt
    rw [hF x.e v, hC x.e v]
    refine and_congr_right fun _ => ⟨fun k u hu => ?_, fun k v' hv' => ?_⟩
    · rw [cC u]
      exact k _ ((cF u).1 hu)
    · rw [hC]
      exact k _ ((hF _ _).1 hv')
  have cO' : ∀ u, p.Opt x.e u ↔ q.data.Opt (S.nu * N) S.nx (flat S.nu u) x.e := fun u => by
    rw [cO]
    exact LinOcp.opt_congr hp (fun _ _ => rfl) fun t _ s hs => (unflat_flat u t hs).symm
  obtain ⟨s, k1, k2, k3⟩ := MpQP.solve_cost hL h3 hrows hx
  have hnone : s.min = none ↔ c.feedforward L x = .ok (none, none) := by
    unfold MPC.feedforward
    show _ ↔ (q.solve L x >>= _) = _
    rw [k1, Py.ok_bind]
    cases hm : s.min with
    | none => simp; rfl
    | some V =>
      obtain ⟨u, hu, -⟩ := k2 V hm
      simp only [hu]
      constructor
      · intro hh; cases hh
      · intro hh
        injection hh with hh
        simp at hh
  constructor
  · cases hm : s.min with
    | none => exact .inl (hnone.1 hm)
    | some V =>
      obtain ⟨u, hu, hn, ho, huniq, hV⟩ := k2 V hm
      obtain ⟨l1, l2, l3⟩ := slices_spec (nu := S.nu) (N := N) hn
      refine .inr ⟨MPC.slices u S.nu N, V, ?_, l1, l2, ?_, ?_, ?_⟩
      · unfold MPC.feedforward
        show (q.solve L x >>= _) = _
        rw [k1, Py.ok_bind]
        simp only [hm, hu]
        rfl
      · rw [LinOcp.opt_congr hp (x0' := x.e) (u' := unflat S.nu u.e) (fun _ _ => rfl) fun t ht s _ => by rw [l3 t ht], ← cO]
        exact ho
      · rw [LinOcp.cost_congr hp (x0' := x.e) (u' := unflat S.nu u.e) (fun _ _ => rfl) fun t ht s _ => by rw [l3 t ht], ← hC]
        exact hV
      · intro u' hu' t ht s hs
        rw [l3 t ht, ← unflat_flat (nu := S.nu) u' t hs]
        refine huniq _ ((cO' u').1 hu') _ ?_
        calc S.nu * t + s < S.nu * t + S.nu := by omega
          _ = S.nu * (t + 1) := by rw [Nat.mul_succ]
          _ ≤ S.nu * N := Nat.mul_le_mul_left _ ht
  · rw [← hnone, k3]
    refine or_congr ⟨fun k u hu => k _ ((cF u).1 hu), fun k v hv => k _ ((hF _ _).1 hv)⟩ ⟨?_, ?_⟩
    · rintro ⟨u, u0, a1, a2, a3⟩
      refine ⟨_, unflat S.nu u0, (cO u).1 a1, fun u' => ?_, ?_⟩
      · rw [cC u', ← hC]; exact a2 _
      · rw [← hC, ← hC]; exact a3
    · rintro ⟨u, u0, a1, a2, a3⟩
      refine ⟨_, flat S.nu u0, (cO' u).1 a1, fun v => ?_, ?_⟩
      · rw [← cC u0, hC x.e v]; exact a2 _
      · rw [← cC, ← cC]; exact a3

/-- without an inequality in `D` and `X_N` the program of the controller has no constraint -/
theorem feedforward_no_rows {L : Lib} (hL : LibSpec L) {S : LinearSystem} {N : ℕ} {Q R P : Mat ℝ} {D X_N : Poly}
    (h : MpcSizes S N Q R P D X_N) (hD : D.A.nr = 0) (hX : X_N.A.nr = 0) :
    ∃ q, MPC.init S N Q R P D X_N = .ok ⟨S, N, Q, R, P, D, X_N, none, q⟩ ∧
      ∀ (e : Option ExplicitSolution) (x : Vec ℝ), x.n = S.nx →
        (⟨S, N, Q, R, P, D, X_N, e, q⟩ : MPC).feedforward L x = .error .runtimeError := by
  obtain ⟨q, h1, h2, h3, -, -, hR⟩ := init_run h
  refine ⟨q, h1, fun e x hx => ?_⟩
  unfold MPC.feedforward
  show (q.solve L x >>= _) = _
  rw [MpQP.solve_no_rows hL h3 (by rw [hR, hD, hX]; simp) hx]
  rfl

end Control
end Verif
