import Verif.Props.MpcStability
import Verif.Props.MpcExamples

/- The hypotheses of the convergence properties are met by the integrator. -/
namespace Verif.Props
open Finset Spec Dyn Control Filter Topology

theorem half1_pos (x : ℕ → ℝ) (h : ∃ i < 1, x i ≠ 0) : 0 < quad half1 x := by
  obtain ⟨i, hi, hx⟩ := h
  obtain rfl : i = 0 := by omega
  rw [half1_quad]
  positivity

theorem integrator_dareArgs : DareArgs integrator half1 one1 :=
  ⟨⟨rfl, rfl, rfl, rfl, rfl⟩, rfl, one_pos, ⟨rfl, rfl, fun _ _ _ _ => rfl⟩, weights1.symR, half1_pos, weights1.Rpos⟩

theorem boxXU_mem (z : ℕ → ℝ) : boxXU.Mem z ↔ |z 0| ≤ 5 ∧ |z 1| ≤ 1 := by
  rw [mem_noeq rfl]
  show (∀ i < 4, _) ↔ _
  constructor
  · intro h
    have h0 := h 0 (by omega)
    have h1 := h 1 (by omega)
    have h2 := h 2 (by omega)
    have h3 := h 3 (by omega)
    simp [boxXU, Poly.fresh, rowVal, Finset.sum_range_succ] at h0 h1 h2 h3
    exact ⟨abs_le.2 ⟨by linarith, h0⟩, abs_le.2 ⟨by linarith, h2⟩⟩
  · rintro ⟨h0, h1⟩ i hi
    obtain ⟨a1, a2⟩ := abs_le.1 h0
    obtain ⟨a3, a4⟩ := abs_le.1 h1
    interval_cases i <;> simp [boxXU, Poly.fresh, rowVal, Finset.sum_range_succ] <;> linarith

theorem boxXU_bounded : IsBounded 2 boxXU.A boxXU.b boxXU.C boxXU.d :=
  ⟨5, fun x hx j hj => by
    obtain ⟨h0, h1⟩ := (boxXU_mem x).1 hx
    interval_cases j
    · exact h0
    · linarith⟩

theorem boxXU_inside : OriginInside 2 boxXU :=
  ⟨1, one_pos, fun x hx => (boxXU_mem x).2 ⟨(hx 0 (by omega)).trans (by norm_num), hx 1 (by omega)⟩⟩

/-- the rows of the closed loop constraints of the integrator with `u = -x/2` and the box `|x| ≤ 5`, `|u| ≤ 1` -/
theorem integrator_rows {K : Mat ℝ} (hK : K.e 0 0 = -1 / 2) (x : ℕ → ℝ) :
    rowVal boxXU.A 0 (withInput 1 K x) = x 0 ∧ rowVal boxXU.A 1 (withInput 1 K x) = - x 0 ∧
    rowVal boxXU.A 2 (withInput 1 K x) = - x 0 / 2 ∧ rowVal boxXU.A 3 (withInput 1 K x) = x 0 / 2 := by
  refine ⟨?_, ?_, ?_, ?_⟩ <;>
    simp [boxXU, Poly.fresh, rowVal, Finset.sum_range_succ, withInput, hK] <;> ring

/-- all hypotheses of C97, C98 and C99 are met: for the integrator, the box `|x| ≤ 5`, `|u| ≤ 1` and the answer of `solve_dare`, the set
that `mcais` returns is invariant, and the controller with horizon 3 has an answer at a state outside of it. -/
theorem integrator_pipeline (L : Lib) (hL : LibSpec L) : ∃ (dare : Mat ℝ → Mat ℝ → Mat ℝ → Mat ℝ → Py (Mat ℝ)) (K : Mat ℝ),
    (∀ P, dare integrator.A integrator.B half1 one1 = .ok P → DareSpec 1 1 integrator.A integrator.B half1 one1 P) ∧
    (LinearSystem.solve_dare dare half1 one1 integrator).1 = .ok (one1, K) ∧ ∃ T X_N c,
    (∀ fuel ≥ T, LinearSystem.mcais L integrator K boxXU fuel = .ok (some X_N)) ∧
    MPC.init integrator 3 half1 one1 one1 boxXU X_N = .ok c ∧
    (problem integrator 3 half1 one1 one1 boxXU X_N).TerminalInvariant K ∧ (∀ x, IneqHold X_N.A X_N.b x ↔ |x 0| ≤ 2) ∧
    (∀ i, ∃ j, X_N.A.e i 0 = rowVal boxXU.A j (withInput 1 K fun _ => 1) ∧ X_N.b.e i = boxXU.b.e j) ∧ K.e 0 0 = -1 / 2 ∧
    ∃ us V, c.feedforward L ⟨1, fun _ => 3⟩ = .ok (some us, some V) ∧ V < (1 / (1e-7 : ℝ) ^ 2 - 1) / 2 := by
  obtain ⟨dare, hd, K, k1, k2, k3, hK⟩ := integrator_dare
  obtain ⟨T, X_N, c, h1, h2, h3, -⟩ := C99_partial L hL integrator half1 one1 one1 K integrator_dareArgs dare hd k1 boxXU ⟨rfl, rfl, rfl, rfl⟩ rfl
    boxXU_inside boxXU_bounded 3 (by norm_num)
  refine ⟨dare, K, hd, k1, T, X_N, c, h1, h2, ?_⟩
  have hw : ∀ x, boxXU.Mem (withInput 1 K x) ↔ |x 0| ≤ 2 := by
    intro x
    rw [boxXU_mem]
    have e0 : withInput 1 K x 0 = x 0 := rfl
    have e1 : withInput 1 K x 1 = -1 / 2 * x 0 := by simp [withInput, hK]
    rw [e0, e1]
    simp only [abs_le]
    constructor
    · rintro ⟨-, a, b⟩; constructor <;> linarith
    · rintro ⟨a, b⟩; refine ⟨⟨?_, ?_⟩, ?_, ?_⟩ <;> linarith
  -- one iteration is enough
  obtain ⟨Acl, Xcl, g1, g2, g3, g4, g5, g6, g7, g8, g9, g10, g11, g12⟩ :=
    closedLoop_ok (S := integrator) integrator_dareArgs.sys (K := K) ⟨k2, k3⟩ (D := boxXU) ⟨rfl, rfl, rfl, rfl⟩
  have hmem : ∀ x, Xcl.Mem x ↔ |x 0| ≤ 2 := fun x => (g9 rfl x).trans (hw x)
  have himg : ∀ x, image Acl x 0 = x 0 / 2 := by
    intro x
    rw [g8 x 0 (by show 0 < 1; omega)]
    show ∑ j ∈ range 1, _ + ∑ k ∈ range 1, _ * ∑ j ∈ range 1, _ = _
    simp [integrator, one1, hK]
    ring
  have hdat : McaisData L 1 Acl Xcl := by
    refine ⟨g2, g3, g4, g5, (hmem _).2 (by simp), ⟨2, fun x hx j hj => ?_⟩, fun e he => (by rw [g6] at he; cases he), one_pos⟩
    obtain rfl : j = 0 := by omega
    exact (hmem x).1 hx
  have hrun : ∀ fuel, LinearSystem.mcais L integrator K boxXU fuel = mcais L Acl Xcl fuel := fun fuel => by
    unfold LinearSystem.mcais
    rw [g1]
    rfl
  have hT := h1 T le_rfl
  rw [hrun] at hT
  have hT' := hT
  unfold mcais mcaisBefore at hT'
  obtain ⟨_, hT2, -⟩ := Py.bind_eq_ok hT'
  obtain ⟨X', hc, -⟩ := Py.bind_eq_ok hT2
  have hone : ∃ q, mcais L Acl Xcl 1 = .ok (some q) ∧ mcaisBefore L Acl Xcl 1 = .ok (some X') := by
    rcases before_ok hL hdat hc 1 with ⟨-, h⟩ | ⟨O, t, e1, e2, e3, e4, e5, e6, e7, e8⟩
    · obtain ⟨x, hx, hx'⟩ := h 1 le_rfl (by omega)
      refine absurd ((hmem _).2 ?_) hx'
      have := (hmem _).1 (hx 0 (by omega))
      have e : orbit Acl x 1 0 = x 0 / 2 := himg x
      have e' : orbit Acl x 0 0 = x 0 := rfl
      rw [e'] at this
      rw [e, abs_div, abs_of_pos (by norm_num : (0 : ℝ) < 2)]
      linarith [abs_nonneg (x 0)]
    · obtain ⟨r, q, q1, -⟩ := after_ok hL hdat e2 e3 e4 e8 e1
      have : O = X' := by
        have e1' := e1
        unfold mcaisBefore at e1'
        rw [hc, Py.ok_bind] at e1'
        exact loop_one e1'
      exact ⟨q, q1, this ▸ e1⟩
  obtain ⟨q, hq, hb⟩ := hone
  have hX1 : mcais L Acl Xcl 1 = .ok (some X_N) := by
    rcases Nat.le_total 1 T with hle | hle
    · rw [mcais_mono hq hle] at hT
      cases hT
      exact hq
    · exact mcais_mono hT hle
  obtain ⟨s1, s2, s3, s4, -⟩ := checks_state hL hdat hc
  obtain ⟨hsz, -, Acl', Xcl', Ob, r, a1, a2, -, a4, a5, a6⟩ := terminalInvariant_of_mcais L hL integrator one_pos K boxXU integrator_dareArgs.sys ⟨k2, k3⟩
    ⟨rfl, rfl, rfl, rfl⟩ rfl ((boxXU_mem _).2 (by simp)) boxXU_bounded 1 X_N ((hrun 1).trans hX1) 3 half1 one1 one1
  rw [g1] at a1
  cases a1
  rw [hb] at a2
  cases a2
  -- the gaps of the four inequalities
  have hb0 : ∀ i, X'.b.e i = if i < 2 then 5 else 1 := fun i => by rw [s2, g11]; rfl
  have hrow : ∀ i x, rowVal X'.A i x = rowVal boxXU.A i (withInput 1 K x) := fun i x => by rw [s1]; exact g12 x i
  have hEq : ∀ x, EqHold X'.C X'.d x := fun x i hi => absurd hi (by rw [s3, g5]; omega)
  have hgap : ∀ i < X'.A.nr, i ∉ r → GapAt X'.A X'.b X'.C X'.d 1e-7 {j | j ∈ r ∨ i < j} i := by
    intro i hi hir
    have hi4 : i < 4 := by rw [s1, g10] at hi; exact hi
    have hnr : X'.A.nr = 4 := by rw [s1, g10]; rfl
    rintro ⟨x, -, hx, hv⟩
    rw [hrow, hb0] at hv
    obtain ⟨r0, r1, r2, r3⟩ := integrator_rows hK x
    have key : ∀ y : ℝ, (∀ j < 4, j ∈ {j | j ∈ r ∨ i < j} → rowVal boxXU.A j (withInput 1 K fun _ => y) ≤ X'.b.e j) →
        X'.b.e i + 1e-7 ≤ rowVal boxXU.A i (withInput 1 K fun _ => y) →
        ∃ x, EqHold X'.C X'.d x ∧ (∀ j < X'.A.nr, j ∈ {j | j ∈ r ∨ i < j} → rowVal X'.A j x ≤ X'.b.e j) ∧ X'.b.e i + 1e-7 ≤ rowVal X'.A i x :=
      fun y e1 e2 => ⟨fun _ => y, hEq _, fun j hj hjr => by rw [hrow]; exact e1 j (hnr ▸ hj) hjr, by rw [hrow]; exact e2⟩
    have hx' : ∀ j < 4, j ∈ {j | j ∈ r ∨ i < j} → rowVal boxXU.A j (withInput 1 K x) ≤ if j < 2 then 5 else 1 := by
      intro j hj hjr
      have := hx j (hnr ▸ hj) hjr
      rwa [hrow, hb0] at this
    interval_cases i
    · rw [r0] at hv
      refine absurd (hx' 3 (by omega) (Or.inr (by omega))) ?_
      rw [r3]; norm_num at hv ⊢; linarith
    · rw [r1] at hv
      refine absurd (hx' 2 (by omega) (Or.inr (by omega))) ?_
      rw [r2]; norm_num at hv ⊢; linarith
    · rw [r2] at hv
      norm_num at hv
      obtain ⟨y0, y1, y2, y3⟩ := integrator_rows hK fun _ => (-5 : ℝ)
      refine key (-5) (fun j hj hjr => ?_) ?_
      · interval_cases j
        · rw [y0, hb0]; norm_num
        · rw [y1, hb0]; norm_num
        · exact absurd hjr (by rintro (h | h); exacts [hir h, by omega])
        · rw [y3, hb0]; norm_num
      · rw [y2, hb0]; norm_num
    · rw [r3] at hv
      norm_num at hv
      obtain ⟨y0, y1, y2, y3⟩ := integrator_rows hK fun _ => (5 : ℝ)
      refine key 5 (fun j hj hjr => ?_) ?_
      · interval_cases j
        · rw [y0, hb0]; norm_num
        · rw [y1, hb0]; norm_num
        · rw [y2, hb0]; norm_num
        · exact absurd hjr (by rintro (h | h); exacts [hir h, by omega])
      · rw [y3, hb0]; norm_num
  have hinv := a6 hgap
  refine ⟨hinv, ?_⟩
  have hset : ∀ x, IneqHold X_N.A X_N.b x ↔ |x 0| ≤ 2 := by
    intro x
    constructor
    · intro hx
      have h := (hinv x hx).1
      refine (hw x).1 ((mem_noeq rfl _).2 fun i hi => ?_)
      have := h i hi
      rw [rowVal_congr' (y := withInput 1 K x) i fun j hj => ?_] at this
      · exact this
      · unfold pair withInput LinOcp.gain rowVal
        rw [k3]
        rfl
    · intro hx
      refine h3 x _ (closed_of_orbit (S := integrator) (K := K) g8 x) fun t => (hw _).2 ?_
      induction t with
      | zero => exact hx
      | succ t ih =>
        have e : orbit Acl x (t + 1) 0 = orbit Acl x t 0 / 2 := himg _
        rw [e, abs_div, abs_of_pos (by norm_num : (0 : ℝ) < 2)]
        linarith [abs_nonneg (orbit Acl x t 0)]
  refine ⟨hset, fun i => ⟨r.getD i 0, ?_, ?_⟩, hK, ?_⟩
  · rw [a4, ← hrow]
    show X'.A.e _ 0 = ∑ j ∈ range X'.A.nc, X'.A.e _ j * 1
    rw [show X'.A.nc = 1 by rw [s1]; exact g4.1]
    simp
  · rw [a5, ← g11, ← s2]
    rfl
  have hargs : MpcArgs integrator 3 half1 one1 one1 boxXU X_N :=
    ⟨⟨integrator_dareArgs.sys, by norm_num, (integrator_args 3 (by norm_num)).w, ⟨rfl, rfl⟩, hsz⟩, .inl (show 0 < 4 by norm_num)⟩
  obtain ⟨c', hc', h4⟩ := C64_partial L hL _ _ _ _ _ _ _ hargs
  rw [h2] at hc'
  cases hc'
  obtain ⟨f1, -, f3⟩ := h4 ⟨1, fun _ => 3⟩ rfl
  have h5 : (problem integrator 3 half1 one1 one1 boxXU X_N).Feas (fun _ => 3) fun t _ => if t < 2 then -1 else 0 := by
    refine ⟨fun t ht i hi => ?_, (hset _).2 ?_⟩
    · have hi' : i < 4 := hi
      have ht' : t < 3 := ht
      interval_cases t <;> interval_cases i <;>
        norm_num [problem, integrator, boxXU, Poly.fresh, rowVal, pair, LinOcp.x, Spec.traj, Spec.affine, one1, Finset.sum_range_succ]
    · norm_num [problem, integrator, LinOcp.x, Spec.traj, Spec.affine, one1, Finset.sum_range_succ]
  have h6 : (problem integrator 3 half1 one1 one1 boxXU X_N).cost (fun _ => 3) (fun t _ => if t < 2 then -1 else 0)
      < (1 / (1e-7 : ℝ) ^ 2 - 1) / 2 := by
    rw [LinOcp.cost_eq]
    simp only [LinOcp.stageCost, problem, half1_quad, one1_quad]
    norm_num [integrator, LinOcp.x, Spec.traj, Spec.affine, one1, Finset.sum_range_succ]
  obtain ⟨us, V, h7⟩ := f3 ⟨_, h5, h6⟩
  refine ⟨us, V, h7, ?_⟩
  rcases f1 with f1 | ⟨us', V', f1, -, -, f2, f4, -⟩
  · rw [h7] at f1; cases f1
  · rw [h7] at f1
    cases f1
    rw [f4]
    exact lt_of_le_of_lt (f2.2 _ h5) h6

end Verif.Props
