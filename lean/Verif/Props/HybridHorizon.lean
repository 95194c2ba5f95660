import Verif.Props.HybridLoopExamples

/- Hybrid controllers that differ in the horizon: C138 of properties.jsonl. -/
namespace Verif.Props
open Finset Spec Dyn Control

/-- one more step in the terminal set -/
theorem hyb_extend_one {S : PWA} {N : ℕ} {Q R P : Mat ℝ} {X_N : Poly} {x : ℕ → ℝ} {m : ℕ → ℕ} {u : ℕ → ℕ → ℝ}
    (hu : (hyb S N Q R P X_N).Feas x m u) :
    ((hyb S N Q R P X_N).TerminalInvariant → ∃ m' v, (hyb S (N + 1) Q R P X_N).Feas x m' v) ∧
    ((hyb S N Q R P X_N).TerminalDecrease →
      ∃ m' v, (hyb S (N + 1) Q R P X_N).Feas x m' v ∧ (hyb S (N + 1) Q R P X_N).cost x m' v ≤ (hyb S N Q R P X_N).cost x m u) := by
  set p := hyb S N Q R P X_N with hp
  set p' := hyb S (N + 1) Q R P X_N with hp'
  -- the trajectory followed by the mode `i` and the input `w`
  have key : ∀ i < p.s, ∀ w, p.Stage i (p.x x m u N) w → p.Term (p.next i (p.x x m u N) w) → ∃ m' v, p'.Feas x m' v ∧
      p'.cost x m' v = p.cost x m u - 1 / 2 * quad p.P (p.x x m u N) + p.stageCost (p.x x m u N) w + 1 / 2 * quad p.P (p.next i (p.x x m u N) w) := by
    intro i hi w hs ht
    let m' : ℕ → ℕ := fun t => if t < N then m t else i
    let v : ℕ → ℕ → ℝ := fun t => if t < N then u t else w
    have em : ∀ t < N, m' t = m t := fun t h => if_pos h
    have ev : ∀ t < N, v t = u t := fun t h => if_pos h
    have emN : m' N = i := if_neg (lt_irrefl _)
    have evN : v N = w := if_neg (lt_irrefl _)
    have hx : ∀ t ≤ N, p'.x x m' v t = p.x x m u t := by
      intro t
      induction t with
      | zero => intro _; rfl
      | succ t ih =>
        intro ht
        rw [HybOcp.x_succ, HybOcp.x_succ, ih (by omega), em t (by omega), ev t (by omega)]
        rfl
    have hN1 : p'.x x m' v (N + 1) = p.next i (p.x x m u N) w := by
      rw [HybOcp.x_succ, hx N le_rfl, emN, evN]
      rfl
    refine ⟨m', v, (HybOcp.feas_iff _ _ _).2 ⟨fun t ht => ?_, ?_⟩, ?_⟩
    · have ht' : t < N + 1 := ht
      rw [hx t (by omega)]
      by_cases hc : t < N
      · rw [em t hc, ev t hc]
        exact ((HybOcp.feas_iff _ _ _).1 hu).1 t hc
      · obtain rfl : t = N := by omega
        rw [emN, evN]
        exact ⟨hi, hs⟩
    · show p.Term (p'.x x m' v (N + 1))
      rw [hN1]
      exact ht
    · rw [HybOcp.cost_eq, HybOcp.cost_eq]
      show ∑ t ∈ range (N + 1), p.stageCost (p'.x x m' v t) (v t) + 1 / 2 * quad p.P (p'.x x m' v (N + 1)) =
        ∑ t ∈ range N, p.stageCost (p.x x m u t) (u t) + 1 / 2 * quad p.P (p.x x m u N) - _ + _ + _
      have e : ∑ t ∈ range N, p.stageCost (p'.x x m' v t) (v t) = ∑ t ∈ range N, p.stageCost (p.x x m u t) (u t) :=
        Finset.sum_congr rfl fun t ht => by
          have := mem_range.1 ht
          rw [hx t (by omega), ev t this]
      rw [Finset.sum_range_succ, e, hx N le_rfl, evN, hN1]
      ring
  have hterm := ((HybOcp.feas_iff _ _ _).1 hu).2
  refine ⟨fun hinv => ?_, fun hdec => ?_⟩
  · obtain ⟨i, hi, w, c1, c2⟩ := hinv _ hterm
    obtain ⟨m', v, h1, -⟩ := key i hi w c1 c2
    exact ⟨m', v, h1⟩
  · obtain ⟨i, hi, w, c1, c2, c3⟩ := hdec _ hterm
    obtain ⟨m', v, h1, h2⟩ := key i hi w c1 c2
    refine ⟨m', v, h1, ?_⟩
    rw [h2]
    have c3 : 1 / 2 * quad p.P (p.next i (p.x x m u N) w) + p.stageCost (p.x x m u N) w ≤ 1 / 2 * quad p.P (p.x x m u N) := c3
    linarith

/-- more steps in the terminal set -/
theorem hyb_extend {S : PWA} {N : ℕ} {Q R P : Mat ℝ} {X_N : Poly} {x : ℕ → ℝ} {m : ℕ → ℕ} {u : ℕ → ℕ → ℝ} (hu : (hyb S N Q R P X_N).Feas x m u) (M : ℕ)
    (hM : N ≤ M) :
    ((hyb S N Q R P X_N).TerminalInvariant → ∃ m' v, (hyb S M Q R P X_N).Feas x m' v) ∧
    ((hyb S N Q R P X_N).TerminalDecrease →
      ∃ m' v, (hyb S M Q R P X_N).Feas x m' v ∧ (hyb S M Q R P X_N).cost x m' v ≤ (hyb S N Q R P X_N).cost x m u) := by
  induction M, hM using Nat.le_induction with
  | base => exact ⟨fun _ => ⟨m, u, hu⟩, fun _ => ⟨m, u, hu, le_rfl⟩⟩
  | succ M hM ih =>
    obtain ⟨i1, i2⟩ := ih
    refine ⟨fun hinv => ?_, fun hdec => ?_⟩
    · obtain ⟨m', v, h1⟩ := i1 hinv
      exact (hyb_extend_one h1).1 hinv
    · obtain ⟨m', v, h1, h2⟩ := i2 hdec
      obtain ⟨m2, w, h3, h4⟩ := (hyb_extend_one h1).2 hdec
      exact ⟨m2, w, h3, h4.trans h2⟩

theorem HybArgs.horizon {S : PWA} {N : ℕ} {Q R P : Mat ℝ} {X_N : Poly} (h : HybArgs S N Q R P X_N) {M : ℕ} (hM : N ≤ M) : HybArgs S M Q R P X_N :=
  ⟨h.pwa, lt_of_lt_of_le h.N hM, h.Q, h.P, h.R, h.XN⟩

/-- C138: if states of the terminal set can be kept in it, the hybrid controller with a longer horizon answers wherever the one with the shorter horizon
does; if moreover the terminal cost decreases by the stage cost, then its value is not larger.  As in C73: no equalities, and no tiny entries in the programs
of the state. -/
theorem C138 (L : Lib) (hL : LibSpec L) (G : Gurobi) (hG : GurobiSpec G) (S : PWA) (N M : ℕ) (hM : N ≤ M) (Q R P : Mat ℝ) (X_N : Poly)
    (h : HybArgs S N Q R P X_N) (hw : Weights S.nx S.nu Q R P) (hnx : 0 < S.nx) (hg : GoodDomains S) (hno : (hyb S N Q R P X_N).NoEq)
    (hI : (hyb S N Q R P X_N).TerminalInvariant) :
    ∃ c c', HMPC.init L S N Q R P X_N = .ok c ∧ HMPC.init L S M Q R P X_N = .ok c' ∧ ∀ x : Vec ℝ, x.n = S.nx →
      ((∃ m u, (hyb S N Q R P X_N).Feas x.e m u) → ∃ m u, (hyb S M Q R P X_N).Feas x.e m u) ∧
      (MiNoTiny c.mpmiqp x.e → MiNoTiny c'.mpmiqp x.e → ∀ a, c.feedforward G x = .ok (some a) →
        ∃ a', c'.feedforward G x = .ok (some a') ∧ ((hyb S N Q R P X_N).TerminalDecrease → a'.V ≤ a.V)) := by
  obtain ⟨c, h1, -⟩ := C72 L hL S N Q R P X_N h hnx hg
  obtain ⟨c', h1', -⟩ := C72 L hL S M Q R P X_N (HybArgs.horizon h hM) hnx hg
  refine ⟨c, c', h1, h1', fun x hx => ⟨fun ⟨m, u, hu⟩ => (hyb_extend hu M hM).1 hI, fun ht ht' a ha => ?_⟩⟩
  obtain ⟨o, k1, k2, k3⟩ := C73_partial L hL G hG S N Q R P X_N h hw hnx hg c h1 x hx ht
  rw [ha] at k1
  cases k1
  have hopt := (k3 hno).2 a rfl
  obtain ⟨e1, e2⟩ := hyb_extend hopt.1 M hM
  obtain ⟨o', l1, l2, l3⟩ := C73_partial L hL G hG S M Q R P X_N (HybArgs.horizon h hM) hw hnx hg c' h1' x hx ht'
  obtain ⟨m1, v1, f1⟩ := e1 hI
  cases o' with
  | none => exact absurd f1 ((l3 hno).1.1 rfl m1 v1)
  | some a' =>
    refine ⟨a', l1, fun hdec => ?_⟩
    obtain ⟨m2, v2, f2, le⟩ := e2 hdec
    rw [(k2 a rfl).1.value]
    exact ((l2 a' rfl).2 m2 v2 f2).trans le

/-- C138 on `fold`: from the state `1` the controllers of all horizons answer, with values at most `1` -/
example (L : Lib) (hL : LibSpec L) (G : Gurobi) (hG : GurobiSpec G) (M : ℕ) (hM : 1 ≤ M) : ∃ c' a', HMPC.init L fold M one1 one1 one1 origin1 = .ok c' ∧
    c'.feedforward G ⟨1, fun _ => 1⟩ = .ok (some a') ∧ a'.V ≤ 1 := by
  obtain ⟨c, c', h1, h2, h3⟩ := C138 L hL G hG fold 1 M hM one1 one1 one1 origin1 fold_args weights1 one_pos fold_good fold_noEq fold_decrease.invariant
  have z : ∀ (a : ℝ) (n : ℤ), a = n → NotTiny a := fun a n e => e ▸ notTiny_int n
  have hnt : MiNoTiny c.mpmiqp (fun _ => (1 : ℝ)) := by simpa using fold_noTiny hL h1 1
  have hnt' : MiNoTiny c'.mpmiqp (fun _ => (1 : ℝ)) := by
    simpa using intSys_noTiny hL (HybArgs.horizon fold_args hM) fold_good fold_int h2 all_one1 all_one1 all_one1
      ⟨fun i hi j hj => by
        have hi : i < 2 := hi
        interval_cases i
        · exact z _ 1 (by simp [origin1, Poly.fresh])
        · exact z _ (-1) (by simp [origin1, Poly.fresh]), fun i hi => z _ 0 (by simp [origin1, Poly.fresh])⟩ 1
  have hf : (hyb fold 1 one1 one1 one1 origin1).Feas (fun _ => 1) (fun _ => 1) (fun _ _ => 1) := by
    refine ⟨⟨fun t ht => by show 1 < 2; norm_num, fun t ht => ?_, ?_⟩, fun t _ => eqHold_of_noEq rfl _, eqHold_of_noEq rfl _⟩
    · have ht : t < 1 := ht
      interval_cases t
      exact ((strip_mem (lo := 0) (hi := 1) _).2 (by norm_num [pair, hyb, fold, HybOcp.x, Spec.traj])).1
    · exact (origin1_term _).2 (by norm_num [HybOcp.x, Spec.traj, Spec.affine, hyb, fold])
  obtain ⟨o, k1, k2, k3⟩ := C73_partial L hL G hG fold 1 one1 one1 one1 origin1 fold_args weights1 one_pos fold_good c h1 ⟨1, fun _ => 1⟩ rfl hnt
  cases o with
  | none => exact absurd hf ((k3 fold_noEq).1.1 rfl _ _)
  | some a =>
    obtain ⟨a', g1, g2⟩ := (h3 ⟨1, fun _ => 1⟩ rfl).2 hnt hnt' a k1
    refine ⟨c', a', h2, g1, (g2 fold_decrease).trans (((k2 a rfl).2 _ _ hf).trans ?_)⟩
    rw [HybOcp.cost_eq]
    show ∑ t ∈ range 1, 1 / 2 * (quad one1 _ + quad one1 _) + 1 / 2 * quad one1 _ ≤ (1 : ℝ)
    rw [Finset.sum_range_one, one1_quad, one1_quad, one1_quad]
    norm_num [HybOcp.x, Spec.traj, Spec.affine, hyb, fold]

end Verif.Props
