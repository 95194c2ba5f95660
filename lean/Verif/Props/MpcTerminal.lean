import Verif.Props.Mpc
import Verif.Props.McaisInvariant

/- The terminal cost of `solve_dare` and the terminal set of `mcais` satisfy the hypotheses of the closed loop properties. -/
namespace Verif.Props
open Finset Spec Dyn Control

/-- with `P`, `K` from `solve_dare` the terminal cost decreases by exactly the stage cost -/
theorem terminalDecrease_of_dare (S : LinearSystem) (hS : S._controllable = none) (hnx : 0 < S.nx) (N : ℕ) (Q R P K : Mat ℝ)
    (D X_N : Poly) (h : MpcArgs S N Q R P D X_N) (dare : Mat ℝ → Mat ℝ → Mat ℝ → Mat ℝ → Py (Mat ℝ))
    (hdare : ∀ P, dare S.A S.B Q R = .ok P → DareSpec S.nx S.nu S.A S.B Q R P)
    (hPK : (LinearSystem.solve_dare dare Q R S).1 = .ok (P, K)) : (problem S N Q R P D X_N).TerminalDecrease K := by
  intro x _
  have e := (dare_lqr S hS hnx N Q R P K D X_N h dare hdare hPK (M := 1) x (fun _ => LinOcp.gain K x)).2.2 (by
    intro t ht s _
    obtain rfl : t = 0 := by omega
    rfl)
  rw [LinOcp.cost_eq] at e
  have e' : (∑ t ∈ range 1, (problem S 1 Q R P D X_N).stageCost ((problem S 1 Q R P D X_N).x x (fun _ => LinOcp.gain K x) t) (LinOcp.gain K x))
      + 1 / 2 * quad P ((problem S N Q R P D X_N).next x (LinOcp.gain K x)) = 1 / 2 * quad P x := e
  rw [Finset.sum_range_one] at e'
  have e2 : (problem S 1 Q R P D X_N).stageCost x (LinOcp.gain K x) = (problem S N Q R P D X_N).stageCost x (LinOcp.gain K x) := rfl
  change (problem S 1 Q R P D X_N).stageCost x (LinOcp.gain K x) + _ = _ at e'
  rw [e2] at e'
  show 1 / 2 * quad P _ + _ ≤ 1 / 2 * quad P x
  linarith

/-- let `X_N` be the answer of `S.mcais(K, D)` for a bounded `D` that contains the origin and has no equalities.  Before the redundant
inequalities are removed the set is invariant and admissible; afterwards it still is, unless an inequality was removed that is not redundant
but within the tolerance of being so. -/
theorem terminalInvariant_of_mcais (L : Lib) (hL : LibSpec L) (S : LinearSystem) (hnx : 0 < S.nx) (K : Mat ℝ) (D : Poly)
    (hS : SystemShape S.nx S.nu S.A S.B (Vec.zeros S.nx)) (hK : K.nr = S.nu ∧ K.nc = S.nx) (hD : D.Inv (S.nx + S.nu)) (hC : D.C.nr = 0)
    (h0 : D.Mem fun _ => 0) (hb : IsBounded (S.nx + S.nu) D.A D.b D.C D.d) (fuel : ℕ) (X_N : Poly)
    (hrun : LinearSystem.mcais L S K D fuel = .ok (some X_N)) (N : ℕ) (Q R P : Mat ℝ) :
    (X_N.A.nc = S.nx ∧ X_N.b.n = X_N.A.nr) ∧ X_N.C.nr = 0 ∧
    ∃ Acl Xcl Ob r, closedLoop S K D = .ok (Acl, Xcl) ∧ mcaisBefore L Acl Xcl fuel = .ok (some Ob) ∧
      (problem S N Q R P D Ob).TerminalInvariant K ∧ X_N.A = Ob.A.rows r ∧ X_N.b = Ob.b.take r ∧
      ((∀ i < Ob.A.nr, i ∉ r → GapAt Ob.A Ob.b Ob.C Ob.d 1e-7 {j | j ∈ r ∨ i < j} i) →
        (problem S N Q R P D X_N).TerminalInvariant K) := by
  obtain ⟨Acl, Xcl, h1, h2, h3, h4, h5, h6, h7, h8, h9, -⟩ := closedLoop_ok hS hK hD
  have hw0 : withInput S.nx K (fun _ => 0) = fun _ => 0 := by
    funext j; unfold withInput; split <;> simp
  have hd : McaisData L S.nx Acl Xcl := by
    refine ⟨h2, h3, h4, h5, (h9 hC _).2 (by rw [hw0]; exact h0), ?_, fun e he => (by rw [h6] at he; cases he), hnx⟩
    obtain ⟨M, hM⟩ := hb
    refine ⟨M, fun x hx j hj => ?_⟩
    have := hM _ ((h9 hC x).1 hx) j (by omega)
    unfold withInput at this
    rwa [if_pos hj] at this
  have hrun' : mcais L Acl Xcl fuel = .ok (some X_N) := by
    unfold LinearSystem.mcais at hrun
    rw [h1] at hrun
    exact hrun
  -- membership
  have hpair : ∀ x, D.Mem (withInput S.nx K x) → IneqHold D.A D.b (pair S.nx x (LinOcp.gain K x)) := by
    intro x hx i hi
    have := hx.1 i hi
    rw [rowVal_congr' (y := withInput S.nx K x) i fun j hj => ?_]
    · exact this
    · unfold pair withInput LinOcp.gain rowVal
      rw [hK.2]
  have himg : ∀ x, ∀ i < S.nx, image Acl x i = (problem S N Q R P D D).next x (LinOcp.gain K x) i := by
    intro x i hi
    rw [h8 x i hi]
    unfold LinOcp.next Spec.affine LinOcp.gain rowVal
    show _ = ∑ j ∈ range S.A.nc, S.A.e i j * x j + ∑ j ∈ range S.B.nc, S.B.e i j * _ + 0
    rw [hS.2.1, hS.2.2.2.1, hK.2, add_zero]
  have key : ∀ O : Poly, O.A.nc = S.nx → O.C.nr = 0 → (∀ x, O.Mem x ↔ StaysIn Xcl Acl x) →
      (problem S N Q R P D O).TerminalInvariant K := by
    intro O hO hOC hst x hx
    obtain ⟨k1, k2⟩ := staysIn_invariant ((hst x).1 ((mem_noeq hOC x).2 hx))
    refine ⟨hpair x ((h9 hC x).1 k1), ?_⟩
    have k3 := (mem_noeq hOC _).1 ((hst _).2 k2)
    intro i hi
    have := k3 i hi
    rw [rowVal_congr' (y := (problem S N Q R P D D).next x (LinOcp.gain K x)) i fun j hj => himg x j (hO ▸ hj)] at this
    exact this
  have h' := hrun'
  unfold mcais mcaisBefore at h'
  obtain ⟨_, h', -⟩ := Py.bind_eq_ok h'
  obtain ⟨X', hc, -⟩ := Py.bind_eq_ok h'
  rcases before_ok hL hd hc fuel with ⟨e1, -⟩ | ⟨Ob, t, e1, e2, e3, e4, e5, e6, e7, e8⟩
  · unfold mcais at hrun'
    rw [e1] at hrun'; cases hrun'
  · obtain ⟨r, q, k1, k2, k3, k4, k5, k6, k7, k8⟩ := after_ok hL hd e2 e3 e4 e8 e1
    rw [k1] at hrun'
    cases hrun'
    have hnc : X_N.A.nc = S.nx := by rw [k3]; exact e2.1
    exact ⟨⟨hnc, by rw [k3, k4]; rfl⟩, by rw [k5]; exact e3, Acl, Xcl, Ob, r, h1, e1, key Ob e2.1 e3 e8, k3, k4, fun hg => key X_N hnc (by rw [k5]; exact e3) (k8 hg)⟩

end Verif.Props
