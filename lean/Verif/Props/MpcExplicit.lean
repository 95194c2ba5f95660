import Verif.Props.Mpc
import Verif.Props.MpQPSolution
import Verif.Props.MpQPSearch

/- The explicit model predictive controller. -/
namespace Verif.Props
open Finset Spec Dyn Control MpQP

/-- C66 (what holds of it): without a stored solution `feedforward_explicit` raises `ValueError`.  With a solution stored by `store_explicit_solution` it never raises.  It
returns `(None, None)` exactly when no region is found to contain `x`; otherwise it returns the inputs of the first region that is found
to contain `x`, and if `x` satisfies the inequalities of that region then they are the optimal inputs, with their cost, and
`feedforward(x)` returns the same unless it returns `(None, None)`.  Missing: points that a region contains only within the tolerance (false, `C66_false`; how far the inputs then are from the optimal ones is `C155_mpc`). -/
theorem C66_partial (L : Lib) (hL : LibSpec L) (S : LinearSystem) (N : ℕ) (Q R P : Mat ℝ) (D X_N : Poly) (h : MpcArgs S N Q R P D X_N) :
    (∀ (c : MPC) (x : Vec ℝ), c.explicit_solution = none → c.feedforward_explicit x = .error .valueError) ∧
    ∃ c, MPC.init S N Q R P D X_N = .ok c ∧ (∀ fuel step c', c.store_explicit_solution L fuel step = .ok (some c') →
      ∃ sol, c' = { c with explicit_solution := some sol } ∧ ∀ x : Vec ℝ, x.n = S.nx →
        let p := problem S N Q R P D X_N
        ((∀ cr ∈ sol, cr.contains x = .ok false) ∧ c'.feedforward_explicit x = .ok (none, none)) ∨
        ∃ (i : ℕ) (cr : CritReg), sol[i]? = some cr ∧ cr.contains x = .ok true ∧
          (∀ j < i, ∀ cr' : CritReg, sol[j]? = some cr' → cr'.contains x = .ok false) ∧
          ∃ us V, c'.feedforward_explicit x = .ok (some us, some V) ∧ us.length = N ∧ (∀ u ∈ us, u.n = S.nu) ∧
            V = p.cost x.e (inputsOf us) ∧
            (cr.polyhedron.Mem x.e → p.Opt x.e (inputsOf us) ∧
              (c'.feedforward L x = .ok (none, none) ∨ ∃ us', c'.feedforward L x = .ok (some us', some V) ∧ us'.length = N ∧
                (∀ u ∈ us', u.n = S.nu) ∧ ∀ t < N, ∀ s < S.nu, inputsOf us' t s = inputsOf us t s))) := by
  refine ⟨fun c x hc => by unfold MPC.feedforward_explicit; rw [hc], ?_⟩
  obtain ⟨q, h1, h2⟩ := feedforward_run hL h
  obtain ⟨q0, h1', hm, hs, hF, hC, hnr⟩ := init_run h.toMpcSizes
  rw [h1'] at h1
  cases h1
  refine ⟨_, h1', fun fuel step c' hst => ?_⟩
  have hpos : 0 < q.Au.nr := by
    have := h.rows
    rcases this with k | k
    · have := Nat.mul_pos h.N k
      omega
    · omega
  unfold MPC.store_explicit_solution at hst
  obtain ⟨s, hs1, hst⟩ := Py.bind_eq_ok hst
  cases s with
  | none => cases hst
  | some sol =>
    cases hst
    refine ⟨sol, rfl, fun x hx => ?_⟩
    intro p
    have hp : p.Shape := problem_shape h.toMpcSizes
    have hall : ∀ cr ∈ sol, ∃ (a : List ℕ) (cr0 : CritReg), q.explicit_solve_given_active_set a = .ok (some cr0) ∧ Like cr cr0 := by
      intro cr hcr
      obtain ⟨i, hi, rfl⟩ := List.getElem_of_mem hcr
      obtain ⟨⟨y, g, cr0, l, g1, -, g3, -⟩, -⟩ := (C43 L _ _ q hm hs step fuel _ sol hs1).2 i _ (List.getElem?_eq_getElem hi)
      obtain ⟨a, ha⟩ := point_from g1
      exact ⟨a, cr0, ha, g3⟩
    rcases C42_partial L hL _ _ q hm hs hpos sol hall x hx with ⟨k1, k2, -, k4⟩ |
      ⟨i, cr, k1, k2, k3, u, pp, v, l1, l2, l3, l4, l5, l6, l7, l8, -⟩
    · left
      refine ⟨k1, ?_⟩
      unfold MPC.feedforward_explicit
      simp only
      rw [k2, Py.ok_bind, k4]
      rfl
    · right
      have hun : u.n = S.nu * N := by
        obtain ⟨a, cr0, ha, hl⟩ := hall cr (List.mem_of_getElem? k1)
        obtain ⟨u', -, e1, -, e2, -⟩ := C40 _ _ q hm hs a cr0 ha x hx
        rw [← hl.u, l1] at e1
        cases e1
        exact e2
      obtain ⟨m1, m2, m3⟩ := slices_spec (nu := S.nu) (N := N) hun
      have hcost : v = p.cost x.e (inputsOf (MPC.slices u S.nu N)) := by
        rw [l7, hC]
        exact LinOcp.cost_congr hp (fun _ _ => rfl) fun t ht s _ => by rw [m3 t ht]
      refine ⟨i, cr, k1, k2, k3, MPC.slices u S.nu N, v, ?_, m1, m2, hcost, fun hmem => ?_⟩
      · unfold MPC.feedforward_explicit
        simp only
        rw [l4, Py.ok_bind, l6]
        rfl
      · obtain ⟨o1, -, -⟩ := l8 hmem
        have hopt : p.Opt x.e (inputsOf (MPC.slices u S.nu N)) := by
          rw [LinOcp.opt_congr hp (x0' := x.e) (u' := unflat S.nu u.e) (fun _ _ => rfl) fun t ht s _ => by rw [m3 t ht]]
          refine ⟨(hF _ _).1 o1.1, fun w hw => ?_⟩
          rw [← hC]
          have e1 : p.cost x.e w = q.data.cost (S.nu * N) S.nx (flat S.nu w) x.e := by
            rw [hC]
            exact LinOcp.cost_congr hp (fun _ _ => rfl) fun t _ s hs => (unflat_flat w t hs).symm
          rw [e1]
          refine o1.2 _ ((hF _ _).2 ?_)
          exact (LinOcp.feas_congr hp (fun _ _ => rfl) fun t _ s hs => (unflat_flat w t hs).symm).1 hw
        refine ⟨hopt, ?_⟩
        rcases (h2 (some sol) x hx).1 with k | ⟨us', V', n1, n2, n3, n4, n5, n6⟩
        · exact .inl k
        · right
          have e : V' = v := by
            rw [n5, hcost]
            exact le_antisymm (n4.2 _ hopt.1) (hopt.2 _ n4.1)
          subst e
          exact ⟨us', n1, n2, n3, fun t ht s hs => (n6 _ hopt t ht s hs).symm⟩

end Verif.Props
