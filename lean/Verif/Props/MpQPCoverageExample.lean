import Verif.Props.MpQPCoverage
import Verif.Props.MpcExplicitFalse

/- The hypotheses of C119 on a program with two regions. -/
namespace Verif.Props
open Finset Verif.MpQP

/-- the solution of the program `clip` at the points of the search -/
theorem clip_answer {L : Lib} (hL : LibSpec L) {q : MpQP} (hm : q.Made) (hd : IsClip q.data) {xa : Vec ℝ × List ℕ} (h : Reached L q 1e-5 xa) :
    ∃ (s : Sol) (lam : Vec ℝ) (act : List ℕ), q.solve L xa.1 = .ok s ∧ s.multiplier_inequality = some lam ∧ s.active_set = some act ∧
      q.data.Licq 1 act ∧ ∀ i < q.Au.nr, 1e-7 < lam.e i ∨ lam.e i = 0 := by
  have hn := reached_size hm hd.shape h
  have hA : q.data.Au.nr = 1 := hd.nr
  have hH : q.Huu.e 0 0 = 100 := by
    have h1 := hd.lag (fun _ => 1) (fun _ => 0) (fun _ => 0)
    have h2 := hd.lag (fun _ => 0) (fun _ => 0) (fun _ => 0)
    unfold Spec.ParamQP.lagrangian at h1 h2
    simp at h1 h2
    show q.data.Huu.e 0 0 = 100
    linarith
  obtain ⟨s, h1, h2, h3, -⟩ := (C45_partial L hL 1 1 q hd.shape xa.1 hn (fun _ => xa.1.e 0) (by
    intro j hj
    obtain rfl : j = 0 := by omega
    rw [hd.lag]; ring)).1 (by have := hd.nr; show 0 < q.data.Au.nr; omega)
  cases hmin : s.min with
  | none =>
    exfalso
    rcases h3.1 hmin with h4 | ⟨v, h4, h5⟩
    · refine h4 (fun _ => 0) fun i hi => ?_
      obtain rfl : i = 0 := by omega
      rw [hd.lhs, hd.b]
    · rw [Finset.sum_range_one, Finset.sum_range_one, hH] at h5
      have hv : (v 0 - xa.1.e 0) ^ 2 ≤ 1 := by
        rcases clip_reached hL hm hd h with hx | hx
        · have hk : q.data.KKT 1 1 (fun _ => xa.1.e 0) (fun _ => 0) xa.1.e := by
            refine ⟨fun i hi => ?_, fun j hj => ?_, fun i hi => le_rfl, fun i hi => by simp⟩
            · obtain rfl : i = 0 := by omega
              rw [hd.lhs, hd.b]; exact hx
            · obtain rfl : j = 0 := by omega
              rw [hd.lag]; ring
          obtain ⟨k1, k2⟩ := opt_of_kkt hd.shape hk
          rw [k2 v h4.1 (h4.2 _ k1.1) 0 (by norm_num)]
          norm_num
        · have hk : q.data.KKT 1 1 (fun _ => 0) (fun _ => 100 * xa.1.e 0) xa.1.e := by
            refine ⟨fun i hi => ?_, fun j hj => ?_, fun i hi => by rw [hx]; norm_num, fun i hi => ?_⟩
            · obtain rfl : i = 0 := by omega
              rw [hd.lhs, hd.b]
            · obtain rfl : j = 0 := by omega
              rw [hd.lag]; ring
            · obtain rfl : i = 0 := by omega
              rw [hd.lhs, hd.b]; ring
          obtain ⟨k1, k2⟩ := opt_of_kkt hd.shape hk
          rw [k2 v h4.1 (h4.2 _ k1.1) 0 (by norm_num), hx]
          norm_num
      norm_num at h5
      nlinarith
  | some m =>
    obtain ⟨u, lam, -, -, -, -, -, h4, -, hk, act, h5, h6, h7⟩ := h2 m hmin
    refine ⟨s, lam, act, h1, h4, h5, hd.licq _ ?_, fun i hi => ?_⟩
    · have hnd : act.Nodup := h6.imp fun h => h.ne
      have h0 : ∀ i ∈ act, i = 0 := fun i hi => by
        have h8 : i < q.data.Au.nr := ((h7 i).1 hi).1
        omega
      match act, hnd, h0 with
      | [], _, _ => exact .inl rfl
      | [i], _, h => rw [h i (by simp)]; exact .inr rfl
      | i :: j :: l, hn, h =>
        have e1 := h i (by simp)
        have e2 := h j (by simp)
        subst e1 e2
        simp at hn
    · have hi : i < q.data.Au.nr := hi
      obtain rfl : i = 0 := by omega
      have hst := hk.stat 0 (by norm_num)
      have hf := hk.feas 0 hi
      have hc := hk.compl 0 hi
      rw [hd.lag] at hst
      rw [hd.lhs, hd.b] at hc
      rcases mul_eq_zero.1 hc with hc | hc
      · exact .inr hc
      · have hu : u.e 0 = 0 := by linarith
        rw [hu] at hst
        rw [hd.lhs, hd.b] at hf
        rcases clip_reached hL hm hd h with h | h
        · right
          have := hk.nonneg 0 hi
          linarith
        · left
          rw [h] at hst
          norm_num at hst ⊢
          linarith

/-- C119 on the program `clip`: each parameter `x` is closer than `2e-5` to a covered point between `0` and `x` -/
example (L : Lib) (hL : LibSpec L) : ∃ (q : MpQP) (sol : ExplicitSolution), q.Made ∧ q.data.Shape 1 1 ∧ 0 < q.Au.nr ∧
    explicit_solve L q 3 = .ok (some sol) ∧ sol.length = 2 ∧
    (∀ cr ∈ sol, ∀ i < cr.polyhedron.A.nr, cr.polyhedron.A.e i 0 = 0 ∨ |cr.polyhedron.A.e i 0| = 1) ∧
    (∀ xa, Reached L q 1e-5 xa → (∃ u, q.data.Feas 1 1 u xa.1.e) →
      ∃ (s : Sol) (lam : Vec ℝ) (act : List ℕ), q.solve L xa.1 = .ok s ∧ s.multiplier_inequality = some lam ∧ s.active_set = some act ∧
        q.data.Licq 1 act ∧ ∀ i < q.Au.nr, 1e-7 < lam.e i ∨ lam.e i = 0) ∧
    ∀ x : ℝ, ∃ cr ∈ sol, ∃ (t : ℝ) (y : Vec ℝ), 0 ≤ t ∧ t ≤ 1 ∧ y.n = 1 ∧ y.e 0 = t * x ∧ cr.contains y = .ok true ∧ |x - y.e 0| ≤ 2e-5 := by
  obtain ⟨q, hm, hd, hs, hA, -⟩ := clip_made
  have hd : IsClip q.data := by rw [hd]; exact clip_is
  obtain ⟨c1, c2, h, l1, l2⟩ := clip_search hL hm hd 0
  obtain ⟨⟨a1, a2, a3⟩, b1, b2, b3⟩ := clip_poly hm hd
  have hrow : ∀ cr ∈ [c1, c2], ∀ i < cr.polyhedron.A.nr, cr.polyhedron.A.e i 0 = 0 ∨ |cr.polyhedron.A.e i 0| = 1 := by
    intro cr hcr i hi
    right
    obtain ⟨P, ⟨e1, -⟩, rfl⟩ := l1
    obtain ⟨P', ⟨e1', -⟩, rfl⟩ := l2
    simp only [List.mem_cons, List.not_mem_nil, or_false] at hcr
    rcases hcr with rfl | rfl
    · simp only [e1] at hi ⊢
      obtain rfl : i = 0 := by omega
      rw [a2]; norm_num
    · simp only [e1'] at hi ⊢
      obtain rfl : i = 0 := by omega
      rw [b2]; norm_num
  have hans := fun xa (hxa : Reached L q 1e-5 xa) (_ : ∃ u, q.data.Feas 1 1 u xa.1.e) => clip_answer hL hm hd hxa
  have hf : ∀ x : ℝ, ∃ u, q.data.Feas 1 1 u fun _ => x := fun x => ⟨fun _ => 0, fun i hi => by
    have : q.data.Au.nr = 1 := hd.nr
    obtain rfl : i = 0 := by omega
    rw [hd.lhs, hd.b]⟩
  refine ⟨q, _, hm, hs, by omega, h, rfl, hrow, hans, fun x => ?_⟩
  obtain ⟨cr, hcr, t, y, k1, k2, k3, k4, k5, k6⟩ := C119 L hL 1 q hm hs one_pos (by omega) 1e-5 (by norm_num) 3 _ h hrow hans (hf 0) x (hf x)
  refine ⟨cr, hcr, t, y, k1, k2, k3, k4, k5, k6.trans ?_⟩
  rw [hA]
  norm_num

end Verif.Props
