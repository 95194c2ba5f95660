import Verif.Props.RedundancyBound
import Verif.Props.MpcStabilityExamples

/- How far the closed loop that starts in the result of `LinearSystem.mcais` is from its constraints, and the predictive controller with this terminal set. -/
namespace Verif.Props
open Finset Spec Dyn Control

theorem rowVal_over (A : Mat ℝ) (i : ℕ) (x : ℕ → ℝ) (s : ℝ) : rowVal A i (fun j => x j / s) = rowVal A i x / s := by
  unfold rowVal
  rw [Finset.sum_div]
  exact Finset.sum_congr rfl fun j _ => mul_div_assoc' _ _ _

theorem orbit_over (A : Mat ℝ) (x : ℕ → ℝ) (s : ℝ) (t : ℕ) : orbit A (fun j => x j / s) t = fun i => orbit A x t i / s := by
  induction t with
  | zero => rfl
  | succ t ih =>
    funext i
    simp only [orbit, ih]
    rw [Finset.sum_div]
    exact Finset.sum_congr rfl fun j _ => mul_div_assoc' _ _ _

theorem next_over (p : LinOcp) (x u : ℕ → ℝ) (s : ℝ) : p.next (fun j => x j / s) (fun j => u j / s) = fun i => p.next x u i / s := by
  funext i
  unfold LinOcp.next Spec.affine
  simp only [add_zero]
  rw [add_div, Finset.sum_div, Finset.sum_div]
  congr 1 <;> exact Finset.sum_congr rfl fun j _ => mul_div_assoc' _ _ _

theorem states_over (p : LinOcp) (x : ℕ → ℝ) (u : ℕ → ℕ → ℝ) (s : ℝ) (t : ℕ) : p.x (fun j => x j / s) (fun t j => u t j / s) t = fun i => p.x x u t i / s := by
  induction t with
  | zero => rfl
  | succ t ih => rw [LinOcp.x_succ, LinOcp.x_succ, ih, next_over]

theorem pair_over (nx : ℕ) (x u : ℕ → ℝ) (s : ℝ) : pair nx (fun j => x j / s) (fun j => u j / s) = fun j => pair nx x u j / s := by
  funext j
  unfold pair
  split <;> rfl

theorem withInput_over (nx : ℕ) (K : Mat ℝ) (x : ℕ → ℝ) (s : ℝ) : withInput nx K (fun j => x j / s) = fun j => withInput nx K x j / s := by
  funext j
  unfold withInput
  split
  · rfl
  · rw [Finset.sum_div]
    exact Finset.sum_congr rfl fun k _ => mul_div_assoc' _ _ _

theorem ineq_over {A : Mat ℝ} {b : Vec ℝ} (hb : ∀ i < A.nr, 0 ≤ b.e i) {s : ℝ} (hs : 1 ≤ s) {x : ℕ → ℝ} (hx : IneqHold A b x) : IneqHold A b fun j => x j / s :=
  fun i hi => by
    rw [rowVal_over, div_le_iff₀ (by linarith)]
    nlinarith [hx i hi, hb i hi]

/-- C192: let the constraints of the system hold at the origin with a margin `β > 0`.  There is `s`, the power of `1 + 1e-7/β` with the number of the removed facets, such that the
closed loop from each point of the set that `LinearSystem.mcais` returns violates each constraint at most by the factor `s`, at all times; and, in the predictive controller with
this set as terminal set, if the problem is feasible at `x` with the inputs `u`, then it is feasible at the next state divided by `s`. -/
theorem C192 (L : Lib) (hL : LibSpec L) (S : LinearSystem) (hnx : 0 < S.nx) (K : Mat ℝ) (D : Poly)
    (hS : SystemShape S.nx S.nu S.A S.B (Vec.zeros S.nx)) (hK : K.nr = S.nu ∧ K.nc = S.nx) (hD : D.Inv (S.nx + S.nu)) (hC : D.C.nr = 0)
    (hb : IsBounded (S.nx + S.nu) D.A D.b D.C D.d) (β : ℝ) (hβ : 0 < β) (hDb : ∀ i < D.A.nr, β ≤ D.b.e i) (fuel : ℕ) (O : Poly)
    (hrun : LinearSystem.mcais L S K D fuel = .ok (some O)) :
    ∃ Acl Xcl Ob s, closedLoop S K D = .ok (Acl, Xcl) ∧ mcaisBefore L Acl Xcl fuel = .ok (some Ob) ∧ O.A.nr ≤ Ob.A.nr ∧ s = (1 + 1e-7 / β) ^ (Ob.A.nr - O.A.nr) ∧ 1 ≤ s ∧
      (∀ x0 x, O.Mem x0 → ClosedLoopTraj S K x0 x → ∀ t, ∀ i < D.A.nr, rowVal D.A i (withInput S.nx K (x t)) ≤ s * D.b.e i) ∧
      ∀ (N : ℕ) (Q R P : Mat ℝ), 0 < N → ∀ x u, (problem S N Q R P D O).Feas x u →
        ∃ u', (problem S N Q R P D O).Feas (fun i => (problem S N Q R P D O).next x (u 0) i / s) u' := by
  obtain ⟨Acl, Xcl, h1, h2, h3, h4, h5, h6, h7, h8, h9, h10, h11, h12⟩ := closedLoop_ok hS hK hD
  have hw0 : withInput S.nx K (fun _ => 0) = fun _ => 0 := by
    funext j; unfold withInput; split <;> simp
  have h0 : D.Mem fun _ => 0 := (mem_noeq hC _).2 fun i hi => by
    have : rowVal D.A i (fun _ => 0) = 0 := by simp [rowVal]
    rw [this]
    exact hβ.le.trans (hDb i hi)
  have hd : McaisData L S.nx Acl Xcl := by
    refine ⟨h2, h3, h4, h5, (h9 hC _).2 (by rw [hw0]; exact h0), ?_, fun e he => (by rw [h6] at he; cases he), hnx⟩
    obtain ⟨M, hM⟩ := hb
    refine ⟨M, fun x hx j hj => ?_⟩
    have := hM _ ((h9 hC x).1 hx) j (by omega)
    unfold withInput at this
    rwa [if_pos hj] at this
  have hrun' : mcais L Acl Xcl fuel = .ok (some O) := by
    unfold LinearSystem.mcais at hrun
    rw [h1] at hrun
    exact hrun
  obtain ⟨Ob, s, k1, k2, k3, k4, k5, k6⟩ := C189 L hL S.nx Acl Xcl O hd β hβ (fun i hi => by rw [h11]; exact hDb i (h10 ▸ hi)) fuel hrun'
  have hs : 1 ≤ s := by
    rw [k3]
    exact one_le_pow₀ (by have : 0 < 1e-7 / β := div_pos (by norm_num) hβ
                          linarith)
  have hs0 : 0 < s := by linarith
  refine ⟨Acl, Xcl, Ob, s, h1, k1, k2, k3, hs, fun x0 x hx0 hx t i hi => ?_, fun N Q R P hN x u hu => ?_⟩
  · have := (mem_noeq hC _).1 ((h9 hC _).1 (k5 x0 hx0 t)) i hi
    rw [orbit_over, withInput_over, rowVal_over, div_le_iff₀ hs0, withInput_congr K (closedLoop_traj h3 h8 hx t)] at this
    linarith
  · obtain ⟨⟨o1, o2⟩, o3, -⟩ := terminalInvariant_of_mcais L hL S hnx K D hS hK hD hC h0 hb fuel O hrun N Q R P
    set p := problem S N Q R P D O with hp
    have hDb0 : ∀ i < D.A.nr, 0 ≤ D.b.e i := fun i hi => hβ.le.trans (hDb i hi)
    obtain ⟨m1, m2⟩ := k6 _ ((mem_noeq o3 _).2 hu.2)
    have hx1 : ∀ t, t + 1 ≤ N → p.x (p.next x (u 0)) (p.shifted K x u) t = p.x x u (t + 1) := by
      intro t
      induction t with
      | zero => intro _; rfl
      | succ t ih =>
        intro ht
        rw [LinOcp.x_succ, ih (by omega), LinOcp.x_succ (t := t + 1)]
        congr 1
        exact if_pos (by show t + 1 < N; omega)
    have hxN : p.x (p.next x (u 0)) (p.shifted K x u) N = p.next (p.x x u N) (LinOcp.gain K (p.x x u N)) := by
      obtain ⟨M, hM⟩ : ∃ M, N = M + 1 := ⟨N - 1, by omega⟩
      have e : p.shifted K x u M = LinOcp.gain K (p.x x u N) := if_neg (by show ¬ M + 1 < N; omega)
      have : p.x (p.next x (u 0)) (p.shifted K x u) N = p.next (p.x (p.next x (u 0)) (p.shifted K x u) M) (p.shifted K x u M) := by
        rw [hM]; rfl
      rw [this, e, hx1 M (by omega), ← hM]
    have himg : ∀ x, ∀ i < S.nx, image Acl x i = p.next x (LinOcp.gain K x) i := by
      intro x i hi
      rw [h8 x i hi]
      unfold LinOcp.next Spec.affine LinOcp.gain rowVal
      show _ = ∑ j ∈ range S.A.nc, S.A.e i j * x j + ∑ j ∈ range S.B.nc, S.B.e i j * _ + 0
      rw [hS.2.1, hS.2.2.2.1, hK.2, add_zero]
    refine ⟨fun t j => p.shifted K x u t j / s, fun t ht => ?_, ?_⟩
    · show IneqHold D.A D.b (pair S.nx _ _)
      rw [states_over, pair_over, hx1 t ht]
      by_cases hc : t + 1 < N
      · rw [show p.shifted K x u t = u (t + 1) from if_pos hc]
        exact ineq_over hDb0 hs (hu.1 _ hc)
      · rw [show p.shifted K x u t = LinOcp.gain K (p.x x u N) from if_neg hc, show t + 1 = N from le_antisymm ht (not_lt.1 hc)]
        intro i hi
        have := (mem_noeq hC _).1 ((h9 hC _).1 m1) i hi
        rw [withInput_over, rowVal_over] at this
        rw [rowVal_over, rowVal_congr' (y := withInput S.nx K (p.x x u N)) i fun j hj => ?_]
        · exact this
        · unfold pair withInput LinOcp.gain rowVal
          rw [hK.2]
    · show IneqHold O.A O.b _
      have := (mem_noeq o3 _).1 m2
      rw [states_over]
      show IneqHold O.A O.b fun i => p.x (p.next x (u 0)) (p.shifted K x u) N i / s
      rw [hxN]
      intro i hi
      have := this i hi
      rw [rowVal_over] at this ⊢
      have e : rowVal O.A i (image Acl (p.x x u p.N)) = rowVal O.A i (p.next (p.x x u N) (LinOcp.gain K (p.x x u N))) :=
        rowVal_congr' i fun j hj => himg _ j (o1 ▸ hj)
      rwa [e] at this

/-- the integrator with the box `|x| ≤ 5`, `|u| ≤ 1` and the gain of `solve_dare` meets the hypotheses, with `β = 1`; the problem is feasible at a state outside of the terminal set -/
example : ∃ L, LibSpec L ∧ ∃ (K : Mat ℝ) (T : ℕ) (O : Poly), (K.nr = 1 ∧ K.nc = 1) ∧ LinearSystem.mcais L integrator K boxXU T = .ok (some O) ∧
    boxXU.Inv 2 ∧ IsBounded 2 boxXU.A boxXU.b boxXU.C boxXU.d ∧ (∀ i < boxXU.A.nr, 1 ≤ boxXU.b.e i) ∧ (O.Mem fun _ => 2) ∧ ¬ O.Mem fun _ => 3 := by
  obtain ⟨L, hL⟩ := exists_lib
  obtain ⟨dare, K, hd, hPK, T, O, c, h1, h2, h3, h4, -⟩ := integrator_pipeline L hL
  obtain ⟨-, k1, k2, -⟩ := solve_dare_ok integrator_dareArgs hd hPK
  obtain ⟨-, hC, -⟩ := terminalInvariant_of_mcais L hL integrator one_pos K boxXU integrator_dareArgs.sys ⟨k1, k2⟩ ⟨rfl, rfl, rfl, rfl⟩ rfl
    ((boxXU_mem _).2 (by norm_num)) boxXU_bounded T O (h1 T le_rfl) 3 half1 one1 one1
  refine ⟨L, hL, K, T, O, ⟨k1, k2⟩, h1 T le_rfl, ⟨rfl, rfl, rfl, rfl⟩, boxXU_bounded, fun i _ => ?_, (mem_noeq hC _).2 ((h4 _).2 (by norm_num)), fun h => ?_⟩
  · show (1 : ℝ) ≤ if i < 2 then 5 else 1
    split <;> norm_num
  · have := (h4 _).1 ((mem_noeq hC _).1 h)
    norm_num at this

end Verif.Props
