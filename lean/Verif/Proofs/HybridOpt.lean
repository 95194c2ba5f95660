import Mathlib.Data.Set.Finite.Basic
import Mathlib.Data.Fintype.Pi
import Mathlib.Order.Bounds.Basic
import Verif.Proofs.Hybrid
import Verif.Props.CondensedOcp

/- Existence of optimal modes and inputs. -/
namespace Verif
namespace Control
open Finset Spec Dyn MpQP

/-- a strictly convex program with a feasible point has an optimizer -/
theorem paramQP_opt {L : Lib} (hL : LibSpec L) {nu nx : ℕ} {q : ParamQP} (hs : q.Shape nu nx) {x v : ℕ → ℝ} (hf : q.Feas nu nx v x) :
    ∃ u, q.Opt nu nx u x := by
  have hc : ConstrShape nu q.Au (rhsAt q nx x) none none := ⟨hs.Au, hs.b⟩
  obtain ⟨u, hu⟩ := qp_exists_opt hL (f := linAt q nu nx x) hs.Huu rfl hc ⟨⟨nu, v⟩, (feas_iff hs ⟨nu, v⟩ x).1 hf⟩
  exact ⟨u.e, (opt_iff hs u x).2 hu⟩

theorem ocp_shape {S : PWA} {N : ℕ} {Q R P : Mat ℝ} {X_N : Poly} (h : HybArgs S N Q R P X_N) {l : List ℕ} (hl : l.length = N)
    (hm : ∀ m ∈ l, m < S.nm) : OcpShape S Q R P X_N l :=
  ⟨h.pwa.lenS.trans h.pwa.lenD.symm, h.pwa.sys, h.pwa.dom, ⟨h.Q.1, h.Q.2.1⟩, h.R, ⟨h.P.1, h.P.2.1⟩, h.XN,
    fun e => by subst e; rw [List.length_nil] at hl; exact absurd h.N (by omega), fun m hm' => by rw [h.pwa.lenS]; exact hm m hm'⟩

/-- the condensed program of a mode sequence: its points are the inputs that satisfy the inequalities -/
theorem mpqp_modes {S : PWA} {N : ℕ} {Q R P : Mat ℝ} {X_N : Poly} (h : HybArgs S N Q R P X_N) (hw : Weights S.nx S.nu Q R P) {l : List ℕ}
    (hl : l.length = N) (hm : ∀ m ∈ l, m < S.nm) :
    ∃ q, condense_optimal_control_problem S Q R P X_N l = .ok q ∧ q.data.Shape (S.nu * N) S.nx ∧
      (∀ x v, q.data.Feas (S.nu * N) S.nx v x ↔ (hyb S N Q R P X_N).IneqFeas x (fun t => l.getD t 0) (unflat S.nu v)) ∧
      (∀ x v, q.data.cost (S.nu * N) S.nx v x = (hyb S N Q R P X_N).cost x (fun t => l.getD t 0) (unflat S.nu v)) ∧
      ((∀ m < S.nm, 0 < (domAt S m).A.nr) → 0 < q.Au.nr) := by
  have hs := ocp_shape h hl hm
  obtain ⟨k1, -, k2⟩ := Props.C62 S Q R P X_N l hs
  obtain ⟨k3, k4⟩ := Props.C63 S Q R P X_N l hs h.Q h.P
  obtain ⟨q, hq, hsh⟩ := k4 hw
  subst hl
  have hN := h.N
  refine ⟨q, hq, hsh, fun x v => ?_, fun x v => k3 q hq x v, fun hr => ?_⟩
  swap
  · obtain ⟨q', hq', -, -, hR⟩ := Props.ocp_made hs hw
    rw [hq] at hq'
    cases hq'
    rw [hR]
    obtain ⟨m, l, rfl⟩ := List.exists_cons_of_ne_nil (List.ne_nil_of_length_pos hN)
    have := hr m (hm m (by simp))
    show 0 < ((domAt S m).A.nr + _) + _
    omega
  rw [k2 q hq x v]
  constructor
  · rintro ⟨a, b⟩
    exact ⟨fun t ht => hm _ (getD_mem _ ht), a, b⟩
  · rintro ⟨-, a, b⟩
    exact ⟨a, b⟩

/-- if there is a trajectory that satisfies the inequalities, there is a cheapest one -/
theorem hyb_opt_exists {L : Lib} (hL : LibSpec L) {S : PWA} {N : ℕ} {Q R P : Mat ℝ} {X_N : Poly} (h : HybArgs S N Q R P X_N)
    (hw : Weights S.nx S.nu Q R P) {x : ℕ → ℝ} (hf : ∃ m u, (hyb S N Q R P X_N).IneqFeas x m u) :
    ∃ m u, (hyb S N Q R P X_N).IneqFeas x m u ∧ ∀ m' u', (hyb S N Q R P X_N).IneqFeas x m' u' →
      (hyb S N Q R P X_N).cost x m u ≤ (hyb S N Q R P X_N).cost x m' u' := by
  set p := hyb S N Q R P X_N with hp
  let l : (Fin N → Fin S.nm) → List ℕ := fun σ => List.ofFn fun t => (σ t : ℕ)
  have hl : ∀ σ, (l σ).length = N := fun σ => List.length_ofFn
  have hlm : ∀ σ, ∀ m ∈ l σ, m < S.nm := fun σ m hm => by
    obtain ⟨t, rfl⟩ := (List.mem_ofFn' _ _).1 hm
    exact (σ t).2
  have hget : ∀ σ, ∀ t, (ht : t < N) → (l σ).getD t 0 = σ ⟨t, ht⟩ := fun σ t ht => by
    rw [List.getD_eq_getElem _ _ (by rw [hl]; exact ht)]
    simp [l]
  -- every trajectory has a mode sequence of this form
  have hrep : ∀ m u, p.IneqFeas x m u → ∃ σ, ∃ v, p.IneqFeas x (fun t => (l σ).getD t 0) (unflat S.nu v) ∧
      p.cost x m u = p.cost x (fun t => (l σ).getD t 0) (unflat S.nu v) := by
    intro m u hf
    have hm : ∀ t < N, m t < S.nm := hf.1
    refine ⟨fun t => ⟨m t, hm t t.2⟩, flat S.nu u, ?_⟩
    exact hyb_ineq_congr h (fun t ht => (hget (fun t => ⟨m t, hm t t.2⟩) t ht).symm) (fun t ht k hk => (unflat_flat u t hk).symm) hf
  have hopt : ∀ σ, (∃ v, p.IneqFeas x (fun t => (l σ).getD t 0) (unflat S.nu v)) → ∃ v, p.IneqFeas x (fun t => (l σ).getD t 0) (unflat S.nu v) ∧
      ∀ v', p.IneqFeas x (fun t => (l σ).getD t 0) (unflat S.nu v') → p.cost x (fun t => (l σ).getD t 0) (unflat S.nu v)
        ≤ p.cost x (fun t => (l σ).getD t 0) (unflat S.nu v') := by
    rintro σ ⟨v, hv⟩
    obtain ⟨q, -, hs, q1, q2, -⟩ := mpqp_modes h hw (hl σ) (hlm σ)
    obtain ⟨u, u1, u2⟩ := paramQP_opt hL hs ((q1 x v).2 hv)
    refine ⟨u, (q1 x u).1 u1, fun v' hv' => ?_⟩
    rw [← q2, ← q2]
    exact u2 v' ((q1 x v').2 hv')
  choose! v hv hvo using hopt
  obtain ⟨m0, u0, h0⟩ := hf
  obtain ⟨σ0, v0, f0, -⟩ := hrep m0 u0 h0
  obtain ⟨σ, hσ, hmin⟩ := Set.exists_min_image {σ | ∃ v, p.IneqFeas x (fun t => (l σ).getD t 0) (unflat S.nu v)}
    (fun σ => p.cost x (fun t => (l σ).getD t 0) (unflat S.nu (v σ))) (Set.toFinite _) ⟨σ0, v0, f0⟩
  refine ⟨_, _, hv σ hσ, fun m' u' hf' => ?_⟩
  obtain ⟨σ', v', f', e'⟩ := hrep m' u' hf'
  rw [e']
  exact (hmin σ' ⟨v', f'⟩).trans (hvo σ' ⟨v', f'⟩ v' f')

end Control
end Verif
