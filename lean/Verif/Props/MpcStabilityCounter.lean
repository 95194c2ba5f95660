import Verif.Props.MpcStabilityExamples

/- The terminal set of `mcais` is not always admissible: counterexample for C99. -/
namespace Verif.Props
open Finset Spec Dyn Control Filter Topology

/-- `|u| ≤ 1 - 4e-8`, `|x| ≤ 2` -/
noncomputable def tightUX : Poly :=
  Poly.fresh ⟨4, 2, fun i j => if i + 2 * j = 2 then 1 else if i + 2 * j = 3 then -1 else 0⟩ ⟨4, fun i => if i < 2 then 1 - 4e-8 else 2⟩
    (Mat.zeros 0 2) (Vec.zeros 0)

theorem tightUX_mem (z : ℕ → ℝ) : tightUX.Mem z ↔ |z 0| ≤ 2 ∧ |z 1| ≤ 1 - 4e-8 := by
  rw [mem_noeq rfl]
  show (∀ i < 4, _) ↔ _
  constructor
  · intro h
    have h0 := h 0 (by omega)
    have h1 := h 1 (by omega)
    have h2 := h 2 (by omega)
    have h3 := h 3 (by omega)
    simp [tightUX, Poly.fresh, rowVal, Finset.sum_range_succ] at h0 h1 h2 h3
    exact ⟨abs_le.2 ⟨by linarith, h2⟩, abs_le.2 ⟨by linarith, by linarith⟩⟩
  · rintro ⟨h0, h1⟩ i hi
    obtain ⟨a1, a2⟩ := abs_le.1 h0
    obtain ⟨a3, a4⟩ := abs_le.1 h1
    interval_cases i <;> simp [tightUX, Poly.fresh, rowVal, Finset.sum_range_succ] <;> linarith

theorem tightUX_bounded : IsBounded 2 tightUX.A tightUX.b tightUX.C tightUX.d :=
  ⟨2, fun x hx j hj => by
    obtain ⟨h0, h1⟩ := (tightUX_mem x).1 hx
    interval_cases j
    · exact h0
    · norm_num at h1; linarith⟩

theorem tightUX_inside : OriginInside 2 tightUX :=
  ⟨1 / 2, by norm_num, fun x hx => (tightUX_mem x).2 ⟨(hx 0 (by omega)).trans (by norm_num), (hx 1 (by omega)).trans (by norm_num)⟩⟩

theorem tight_rows {K : Mat ℝ} (hK : K.e 0 0 = -1 / 2) (x : ℕ → ℝ) :
    rowVal tightUX.A 0 (withInput 1 K x) = - x 0 / 2 ∧ rowVal tightUX.A 1 (withInput 1 K x) = x 0 / 2 ∧
    rowVal tightUX.A 2 (withInput 1 K x) = x 0 ∧ rowVal tightUX.A 3 (withInput 1 K x) = - x 0 := by
  refine ⟨?_, ?_, ?_, ?_⟩ <;>
    simp [tightUX, Poly.fresh, rowVal, Finset.sum_range_succ, withInput, hK] <;> ring

/-- C99 is false of the code without the invariance of the terminal set: for the integrator, the gain `-1/2` of `solve_dare`, and the constraints
`|u| ≤ 1 - 4e-8`, `|x| ≤ 2`, the set of `mcais` contains the state 2.  There `u = K x = -1` violates the constraints, and is not the answer of the controller. -/
theorem C99_false (L : Lib) (hL : LibSpec L) : ∃ (dare : Mat ℝ → Mat ℝ → Mat ℝ → Mat ℝ → Py (Mat ℝ)) (K : Mat ℝ),
    DareArgs integrator half1 one1 ∧
    (∀ P, dare integrator.A integrator.B half1 one1 = .ok P → DareSpec 1 1 integrator.A integrator.B half1 one1 P) ∧
    (LinearSystem.solve_dare dare half1 one1 integrator).1 = .ok (one1, K) ∧
    tightUX.Inv 2 ∧ tightUX.C.nr = 0 ∧ OriginInside 2 tightUX ∧ IsBounded 2 tightUX.A tightUX.b tightUX.C tightUX.d ∧
    ∀ N, 0 < N → ∃ T X_N c, (∀ fuel ≥ T, LinearSystem.mcais L integrator K tightUX fuel = .ok (some X_N)) ∧
      MPC.init integrator N half1 one1 one1 tightUX X_N = .ok c ∧ X_N.Mem (fun _ => 2) ∧ ¬ tightUX.Mem (withInput 1 K fun _ => 2) ∧
      ¬ (problem integrator N half1 one1 one1 tightUX X_N).TerminalInvariant K ∧
      ¬ ∃ u, c.feedback L ⟨1, fun _ => 2⟩ = .ok (some u) ∧ ∀ s < 1, u.e s = rowVal K s (fun _ => 2) := by
  obtain ⟨dare, hd, K, k1, k2, k3, hK⟩ := integrator_dare
  refine ⟨dare, K, integrator_dareArgs, hd, k1, ⟨rfl, rfl, rfl, rfl⟩, rfl, tightUX_inside, tightUX_bounded, fun N hN => ?_⟩
  obtain ⟨T, X_N, c, h1, h2, -, h3⟩ := C99_partial L hL integrator half1 one1 one1 K integrator_dareArgs dare hd k1 tightUX ⟨rfl, rfl, rfl, rfl⟩ rfl
    tightUX_inside tightUX_bounded N hN
  refine ⟨T, X_N, c, h1, h2, ?_⟩
  have hnot : ¬ tightUX.Mem (withInput 1 K fun _ => 2) := by
    intro h
    have := ((tightUX_mem _).1 h).2
    have e1 : withInput 1 K (fun _ => 2) 1 = -1 := by simp [withInput, hK]
    rw [e1] at this
    norm_num at this
  have hw : ∀ x, tightUX.Mem (withInput 1 K x) ↔ |x 0| ≤ 2 - 8e-8 := by
    intro x
    rw [tightUX_mem]
    have e0 : withInput 1 K x 0 = x 0 := rfl
    have e1 : withInput 1 K x 1 = -1 / 2 * x 0 := by simp [withInput, hK]
    rw [e0, e1]
    simp only [abs_le]
    constructor
    · rintro ⟨-, a, b⟩; constructor <;> linarith
    · rintro ⟨a, b⟩; refine ⟨⟨?_, ?_⟩, ?_, ?_⟩ <;> linarith
  obtain ⟨Acl, Xcl, g1, g2, g3, g4, g5, g6, g7, g8, g9, g10, g11, g12⟩ :=
    closedLoop_ok (S := integrator) integrator_dareArgs.sys (K := K) ⟨k2, k3⟩ (D := tightUX) ⟨rfl, rfl, rfl, rfl⟩
  have hmem : ∀ x, Xcl.Mem x ↔ |x 0| ≤ 2 - 8e-8 := fun x => (g9 rfl x).trans (hw x)
  have himg : ∀ x, image Acl x 0 = x 0 / 2 := by
    intro x
    rw [g8 x 0 (by show 0 < 1; omega)]
    show ∑ j ∈ range 1, _ + ∑ k ∈ range 1, _ * ∑ j ∈ range 1, _ = _
    simp [integrator, one1, hK]
    ring
  have hdat : McaisData L 1 Acl Xcl := by
    refine ⟨g2, g3, g4, g5, (hmem _).2 (by norm_num), ⟨2 - 8e-8, fun x hx j hj => ?_⟩, fun e he => (by rw [g6] at he; cases he), one_pos⟩
    obtain rfl : j = 0 := by omega
    exact (hmem x).1 hx
  have hrun : ∀ fuel, LinearSystem.mcais L integrator K tightUX fuel = mcais L Acl Xcl fuel := fun fuel => by
    unfold LinearSystem.mcais
    rw [g1]
    rfl
  have hT := h1 T le_rfl
  rw [hrun] at hT
  have hT' := hT
  unfold mcais mcaisBefore at hT'
  obtain ⟨_, hT2, -⟩ := Py.bind_eq_ok hT'
  obtain ⟨X', hc, -⟩ := Py.bind_eq_ok hT2
  have hone : ∃ q, mcais L Acl Xcl 1 = .ok (some q) ∧ mcaisBefore L Acl Xcl 1 = .ok (some X') := by
    rcases before_ok hL hdat hc 1 with ⟨-, h⟩ | ⟨O, t, e1, e2, e3, e4, e5, e6, e7, e8⟩
    · obtain ⟨x, hx, hx'⟩ := h 1 le_rfl (by omega)
      refine absurd ((hmem _).2 ?_) hx'
      have := (hmem _).1 (hx 0 (by omega))
      have e : orbit Acl x 1 0 = x 0 / 2 := himg x
      have e' : orbit Acl x 0 0 = x 0 := rfl
      rw [e'] at this
      rw [e, abs_div, abs_of_pos (by norm_num : (0 : ℝ) < 2)]
      linarith [abs_nonneg (x 0)]
    · obtain ⟨r, q, q1, -⟩ := after_ok hL hdat e2 e3 e4 e8 e1
      have : O = X' := by
        have e1' := e1
        unfold mcaisBefore at e1'
        rw [hc, Py.ok_bind] at e1'
        exact loop_one e1'
      exact ⟨q, q1, this ▸ e1⟩
  obtain ⟨q, hq, hb⟩ := hone
  have hX1 : mcais L Acl Xcl 1 = .ok (some X_N) := by
    rcases Nat.le_total 1 T with hle | hle
    · rw [mcais_mono hq hle] at hT
      cases hT
      exact hq
    · exact mcais_mono hT hle
  obtain ⟨s1, s2, s3, s4, s5⟩ := checks_state hL hdat hc
  have hnr : X'.A.nr = 4 := by rw [s1, g10]; rfl
  have hb0 : ∀ i, X'.b.e i = if i < 2 then 1 - 4e-8 else 2 := fun i => by rw [s2, g11]; rfl
  have hrow : ∀ i x, rowVal X'.A i x = rowVal tightUX.A i (withInput 1 K x) := fun i x => by rw [s1]; exact g12 x i
  have hinv : X'.Inv 1 := by unfold Poly.Inv; rw [s1, s2, s3, s4]; exact hdat.inv
  have hnear : NearPoint 1 X'.A X'.b X'.C X'.d := by rw [s1, s2, s3, s4]; exact near_zero hdat.origin
  obtain ⟨r, -, q2, q3, q4, q5, -⟩ := redundancy_run hL hinv (.inl (by omega)) s5 hnear (.inl (by rw [s3]; exact g5)) (tol := 1e-7) (by norm_num)
  have hOq : mcais L Acl Xcl 1 = .ok (some { X' with _empty := some false, A := X'.A.rows r, b := X'.b.take r }) := by
    unfold mcais
    rw [hb, Py.ok_bind]
    simp only
    rw [Poly.runOn, q2 rfl]
    rfl
  rw [hOq] at hX1
  have hXN : X_N = { X' with _empty := some false, A := X'.A.rows r, b := X'.b.take r } := by
    cases hX1; rfl
  have hm2 : X_N.Mem fun _ => 2 := by
    rw [hXN]
    refine (mem_rows X' r _ _).2 ⟨fun i hi => absurd hi (by rw [s3, g5]; omega), fun j hj => ?_⟩
    have hj4 : j < 4 := hnr ▸ q4 j hj
    have hk : ∀ x, (∀ k < 4, j < k → rowVal tightUX.A k (withInput 1 K x) ≤ if k < 2 then 1 - 4e-8 else 2) →
        (if j < 2 then 1 - 4e-8 else 2) + 1e-7 ≤ rowVal tightUX.A j (withInput 1 K x) → j < 2 → False := by
      intro x e1 e2 hj2
      obtain ⟨r0, r1, r2, r3⟩ := tight_rows hK x
      have e3 := e1 2 (by omega) (by omega)
      have e4 := e1 3 (by omega) (by omega)
      rw [r2] at e3
      rw [r3] at e4
      interval_cases j
      · rw [r0] at e2; norm_num at e2 e3 e4; linarith
      · rw [r1] at e2; norm_num at e2 e3 e4; linarith
    obtain ⟨x, -, -, e1, e2⟩ := q5 j hj
    have hj2 : ¬ j < 2 := fun hj2 => hk x (fun k hk' hjk => by rw [← hrow, ← hb0]; exact e1 k (hnr ▸ hk') hjk) (by rw [← hrow, ← hb0]; exact e2) hj2
    obtain ⟨r0, r1, r2, r3⟩ := tight_rows hK fun _ => 2
    rw [hrow, hb0]
    have hj23 : j = 2 ∨ j = 3 := by omega
    rcases hj23 with rfl | rfl
    · rw [r2]; norm_num
    · rw [r3]; norm_num
  have hfb : ¬ ∃ u, c.feedback L ⟨1, fun _ => 2⟩ = .ok (some u) ∧ ∀ s < 1, u.e s = rowVal K s (fun _ => 2) := by
    rintro ⟨u, hu, hu0⟩
    have hsz : X_N.A.nc = 1 ∧ X_N.b.n = X_N.A.nr := (terminalInvariant_of_mcais L hL integrator one_pos K tightUX integrator_dareArgs.sys ⟨k2, k3⟩
      ⟨rfl, rfl, rfl, rfl⟩ rfl ((tightUX_mem _).2 (by norm_num)) tightUX_bounded T X_N (h1 T le_rfl) N half1 one1 one1).1
    have hargs : MpcArgs integrator N half1 one1 one1 tightUX X_N :=
      ⟨⟨integrator_dareArgs.sys, hN, (integrator_args N hN).w, ⟨rfl, rfl⟩, hsz⟩, .inl (show 0 < 4 by norm_num)⟩
    obtain ⟨us, V, f1, f2, f3, f4, -⟩ := closed_step hL hargs h2 (x := ⟨1, fun _ => 2⟩) rfl hu
    have hfe := f4.1.1 0 hN
    have e : u.e 0 = -1 := by
      rw [hu0 0 one_pos]
      simp [rowVal, k3, hK]
    suffices hm : tightUX.Mem (pair 1 (fun _ => 2) u.e) by
      have := ((tightUX_mem _).1 hm).2
      have e1 : pair 1 (fun _ => (2 : ℝ)) u.e 1 = u.e 0 := rfl
      rw [e1, e] at this
      norm_num at this
    refine (mem_noeq rfl _).2 fun i hi => ?_
    have := hfe i hi
    rw [f3] at this
    exact this
  exact ⟨hm2, hnot, fun hinv' => hfb ((h3 hinv').2 ⟨1, fun _ => 2⟩ rfl hm2.1), hfb⟩

end Verif.Props
