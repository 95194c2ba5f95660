import Verif.Model.TestChebyshev
import Verif.Props.PolyhedronTests
import Verif.Props.PolyhedronBallNone
import Verif.Props.LpSolverTest

/-
The test of the largest ball (C198).
-/
namespace Verif.Props
open Finset Spec TestSuite

/-- the norm of a linear function on `n` coordinates -/
noncomputable def dualNorm (n : ℕ) (g : (ℕ → ℝ) → ℝ) : ℝ := Real.sqrt (∑ j ∈ range n, g (fun k => if k = j then 1 else 0) ^ 2)

theorem rowVal_unit (A : Mat ℝ) (i : ℕ) {j : ℕ} (hj : j < A.nc) : rowVal A i (fun k => if k = j then 1 else 0) = A.e i j := by
  unfold rowVal
  simp [hj]

theorem rep_forall' {m : ℕ} {A : Mat ℝ} {b : Vec ℝ} {I : List (((ℕ → ℝ) → ℝ) × ℝ)} (h : (List.range m).map (fun i => (rowVal A i, b.e i)) = I)
    (P : ((ℕ → ℝ) → ℝ) → ℝ → Prop) : (∀ i < m, P (rowVal A i) (b.e i)) ↔ ∀ r ∈ I, P r.1 r.2 := by
  subst h
  simp

/-- the balls that fit -/
theorem Rep.fits {n : ℕ} {p : Poly} {I E} (h : Rep n p I E) (x : ℕ → ℝ) (r : ℝ) : Fits p.A p.b x r ↔ ∀ q ∈ I, q.1 x + r * dualNorm n q.1 ≤ q.2 := by
  rw [← rep_forall' h.ineq fun g b => g x + r * dualNorm n g ≤ b]
  unfold Fits
  have e : ∀ i, rowNorm p.A i = dualNorm n (rowVal p.A i) := by
    intro i
    unfold rowNorm dualNorm
    rw [h.inv.1]
    congr 1
    exact sum_congr rfl fun j hj => by rw [rowVal_unit p.A i (by rw [h.inv.1]; exact mem_range.1 hj)]
  simp only [e]

/-- `_chebyshev` without equalities -/
theorem cheb_free {L : Lib} (hL : LibSpec L) {n : ℕ} {p : Poly} {I} (h : Rep n p I []) (x0 : ℕ → ℝ) (r0 : ℝ) (h0 : ∀ q ∈ I, q.1 x0 + r0 * dualNorm n q.1 ≤ q.2)
    (hM : ∀ x r, (∀ q ∈ I, q.1 x + r * dualNorm n q.1 ≤ q.2) → r ≤ r0) :
    ∃ c, Poly.chebyshev L p.A p.b p.C p.d = .ok (some (r0, c)) ∧ c.n = n ∧ ∀ q ∈ I, q.1 c.e + r0 * dualNorm n q.1 ≤ q.2 := by
  obtain ⟨r, c, k1, k2, k3, k4⟩ := Poly.chebyshevLP_ok hL h.inv.2.1 ((h.fits x0 r0).2 h0) fun x r k => hM x r ((h.fits x r).1 k)
  have hr : r = r0 := le_antisymm (hM _ _ ((h.fits _ _).1 k3)) (k4 _ _ ((h.fits _ _).2 h0))
  subst hr
  refine ⟨c, ?_, k2.trans h.inv.1, (h.fits _ _).1 k3⟩
  unfold Poly.chebyshev
  rw [if_neg (by rw [h.len.2]; simp), k1]

/-- the questions for the radius and the center -/
theorem ask_ball {L : Lib} {n : ℕ} {p : Poly} {I E} (h : Rep n p I E) (hf : p = Poly.fresh p.A p.b p.C p.d) {r : ℝ} {c : Vec ℝ}
    (hc : Poly.chebyshev L p.A p.b p.C p.d = .ok (some (r, c))) :
    ∃ q, ask p (Poly.radius L) = .ok (some r, q) ∧ ask q (Poly.center L) = .ok (some c, q) ∧ ask q (Poly.radius L) = .ok (some r, q) ∧ Rep n q I E := by
  refine ⟨{ p with _radius := some r, _center := some c }, ?_, rfl, rfl, h.inv, h.ineq, h.eqs⟩
  unfold ask
  rw [radius_run L (by rw [hf]; rfl), hc]
  rfl

theorem check_ball {L : Lib} {n : ℕ} {p : Poly} {I E} (h : Rep n p I E) (hf : p = Poly.fresh p.A p.b p.C p.d) {r : ℝ} {c c' : Vec ℝ}
    (hc : Poly.chebyshev L p.A p.b p.C p.d = .ok (some (r, c))) (hn : c.n = c'.n) (he : ∀ i < c.n, c.e i = c'.e i) :
    ∃ q, checkBall L p r c' = .ok q ∧ Rep n q I E := by
  obtain ⟨q, h1, h2, -, h4⟩ := ask_ball h hf hc
  refine ⟨q, ?_, h4⟩
  have e : assertAlmostEqualO (some r) r = .ok () := almost_self r
  unfold checkBall
  rw [h1, Py.ok_bind]
  dsimp only
  rw [e, Py.ok_bind, h2, Py.ok_bind]
  dsimp only
  rw [almost_same hn he]
  rfl

/-- the norm of a coordinate, and of zero -/
theorem dualNorm_coord {n : ℕ} (s : ℝ) (hs : s = 1 ∨ s = -1) {i : ℕ} (hi : i < n) : dualNorm n (fun z => s * z i) = 1 := by
  unfold dualNorm
  have : ∀ j, (s * (if i = j then (1 : ℝ) else 0)) ^ 2 = if i = j then 1 else 0 := by
    intro j
    rcases hs with rfl | rfl <;> split_ifs <;> norm_num
  simp only [this]
  simp [hi]

theorem dualNorm_zero (n : ℕ) : dualNorm n (fun _ => 0) = 0 := by
  unfold dualNorm
  simp

theorem n20 : dualNorm 2 (fun z => 1 * z 0) = 1 := dualNorm_coord 1 (.inl rfl) (by norm_num)
theorem n21 : dualNorm 2 (fun z => 1 * z 1) = 1 := dualNorm_coord 1 (.inl rfl) (by norm_num)
theorem m20 : dualNorm 2 (fun z => -1 * z 0) = 1 := dualNorm_coord (-1) (.inr rfl) (by norm_num)
theorem m21 : dualNorm 2 (fun z => -1 * z 1) = 1 := dualNorm_coord (-1) (.inr rfl) (by norm_num)

/-- the balls in a square with equal bounds, and perhaps a row that is always true -/
theorem square_ball {L : Lib} (hL : LibSpec L) {a b : ℝ} {p : Poly} {I : List (((ℕ → ℝ) → ℝ) × ℝ)}
    (h : Rep 2 p ([((fun z : ℕ → ℝ => -1 * z 0), -a), (fun z => -1 * z 1, -a), (fun z => 1 * z 0, b), (fun z => 1 * z 1, b)] ++ I) [])
    (hI : I = [] ∨ I = [((fun _ => 0), 1)]) :
    ∃ c, Poly.chebyshev L p.A p.b p.C p.d = .ok (some ((b - a) / 2, c)) ∧ c.n = 2 ∧ ∀ i < 2, c.e i = (a + b) / 2 := by
  have key : ∀ x : ℕ → ℝ, ∀ r, (∀ q ∈ [((fun z : ℕ → ℝ => -1 * z 0), -a), (fun z => -1 * z 1, -a), (fun z => 1 * z 0, b), (fun z => 1 * z 1, b)] ++ I,
      q.1 x + r * dualNorm 2 q.1 ≤ q.2) ↔ (-x 0 + r ≤ -a ∧ -x 1 + r ≤ -a ∧ x 0 + r ≤ b ∧ x 1 + r ≤ b) := by
    intro x r
    rcases hI with rfl | rfl
    · simp only [List.cons_append, List.nil_append, List.forall_mem_cons, List.not_mem_nil, false_imp_iff, implies_true, and_true, n20, n21, m20, m21]
      simp
    · simp only [List.cons_append, List.nil_append, List.forall_mem_cons, List.not_mem_nil, false_imp_iff, implies_true, and_true, n20, n21, m20, m21, dualNorm_zero]
      simp
  obtain ⟨c, k1, k2, k3⟩ := cheb_free hL h (fun _ => (a + b) / 2) ((b - a) / 2) ((key _ _).2 (by
    refine ⟨?_, ?_, ?_, ?_⟩ <;> linarith)) fun x r k => by
      obtain ⟨g1, -, g3, -⟩ := (key x r).1 k
      linarith
  obtain ⟨g1, g2, g3, g4⟩ := (key _ _).1 k3
  refine ⟨c, k1, k2, fun i hi => ?_⟩
  interval_cases i <;> linarith

/-- the ball lies in the polyhedron, with one equality -/
def BallL (n : ℕ) (I : List (((ℕ → ℝ) → ℝ) × ℝ)) (g : (ℕ → ℝ) → ℝ) (d : ℝ) (c : ℕ → ℝ) (r : ℝ) : Prop :=
  ∀ v : ℕ → ℝ, g v = 0 → Real.sqrt (∑ j ∈ range n, v j ^ 2) ≤ r → (∀ q ∈ I, q.1 (fun j => c j + v j) ≤ q.2) ∧ g (fun j => c j + v j) = d

theorem Rep.ball {n : ℕ} {p : Poly} {I g d} (h : Rep n p I [(g, d)]) (c : ℕ → ℝ) (r : ℝ) : Spec.BallIn n p.A p.b p.C p.d c r ↔ BallL n I g d c r := by
  unfold Spec.BallIn BallL
  have e1 : ∀ v, (∀ i < p.C.nr, rowVal p.C i v = 0) ↔ g v = 0 := by
    intro v
    rw [rep_forall h.eqs (fun a _ => a = 0) v]
    simp
  have e2 : ∀ z, Spec.InPoly p.A p.b p.C p.d z ↔ (∀ q ∈ I, q.1 z ≤ q.2) ∧ g z = d := by
    intro z
    have := h.mem z
    simp only [List.mem_singleton, forall_eq] at this
    exact this
  simp only [e1, e2]

/-- `_chebyshev` with one equality -/
theorem cheb_eq {L : Lib} (hL : LibSpec L) {n : ℕ} {p : Poly} {I g d} (h : Rep n p I [(g, d)]) {j : ℕ} (hj : j < n) (hg : g (fun k => if k = j then 1 else 0) ≠ 0)
    (hn : 1 < n) {c0 : ℕ → ℝ} {r0 : ℝ} (hr0 : 0 ≤ r0) (h0 : BallL n I g d c0 r0) (hM : ∀ c r, 0 ≤ r → BallL n I g d c r → r ≤ r0) :
    ∃ c, Poly.chebyshev L p.A p.b p.C p.d = .ok (some (r0, c)) ∧ c.n = n ∧ BallL n I g d c.e r0 := by
  have hnr : p.C.nr = 1 := h.len.2
  have hrow : rowVal p.C 0 = g := by
    have := h.eqs
    rw [hnr] at this
    simp at this
    exact this.1
  have hi : Spec.EqIndep n p.C := by
    refine ⟨by omega, fun w hw i hi => ?_⟩
    have := hw j hj
    rw [hnr, sum_range_one, ← rowVal_unit p.C 0 (by rw [h.inv.2.2.1]; exact hj), hrow] at this
    rw [hnr] at hi
    interval_cases i
    exact (mul_eq_zero.1 this).resolve_right hg
  have hmem : p.Mem c0 := by
    have := ((h.ball c0 r0).2 h0) (fun _ => 0) (fun i _ => by simp [rowVal]) (by simpa using hr0)
    simp only [add_zero] at this
    exact this
  obtain ⟨r, c, k1, k2, -, k3, k4, -⟩ := Poly.chebyshev_ok hL h.inv (.inr (Poly.eqRank_iff.2 hi)) (constantRows_of_mem hmem)
    ⟨r0, fun c r hr k => hM c r hr ((h.ball c r).1 k)⟩
  have g1 := k4 c0 r0 hr0 ((h.ball _ _).2 h0)
  have hr : 0 ≤ r := hr0.trans g1
  have g2 := hM _ _ hr ((h.ball _ _).1 (k3 hr))
  obtain rfl : r = r0 := le_antisymm g2 g1
  exact ⟨c, k1, k2, (h.ball _ _).1 (k3 hr)⟩

theorem rep_zeros {p : Poly} {I E} (h : Rep 2 p I E) : ∃ q, Poly.runOn p (Poly.add_inequality (Mat.zeros 1 2) (.d1 (full 1 1))) = .ok q ∧
    q = Poly.fresh q.A q.b q.C q.d ∧ Rep 2 q (I ++ [((fun _ => 0), 1)]) E := by
  obtain ⟨q, h1, h2, h3⟩ := rep_ineq h (F := Mat.zeros 1 2) (f := full 1 1) (idx := none) rfl rfl
  refine ⟨q, h1, h2, ?_⟩
  convert h3 using 2
  simp [full]

/-- the ball in the segment -/
theorem segment_ball {L : Lib} (hL : LibSpec L) {p : Poly}
    (h : Rep 2 p [((fun z : ℕ → ℝ => -1 * z 0), -0), (fun z => -1 * z 1, -0), (fun z => 1 * z 0, 2), (fun z => 1 * z 1, 2), (fun _ => 0, 1)]
      [((fun z => z 0 + z 1), 3)]) :
    ∃ c, Poly.chebyshev L p.A p.b p.C p.d = .ok (some (Real.sqrt 2 / 2, c)) ∧ c.n = 2 ∧ ∀ i < 2, c.e i = 1.5 := by
  have s2 : Real.sqrt 2 ^ 2 = 2 := Real.sq_sqrt (by norm_num)
  have s0 : 0 < Real.sqrt 2 := Real.sqrt_pos.2 (by norm_num)
  have key : ∀ c r, 0 ≤ r → BallL 2 [((fun z : ℕ → ℝ => -1 * z 0), -0), (fun z => -1 * z 1, -0), (fun z => 1 * z 0, 2), (fun z => 1 * z 1, 2), (fun _ => 0, 1)]
      (fun z => z 0 + z 1) 3 c r → c 0 + r * (Real.sqrt 2 / 2) ≤ 2 ∧ c 1 + r * (Real.sqrt 2 / 2) ≤ 2 ∧ c 0 + c 1 = 3 := by
    intro c r hr k
    have n1 : ∀ s : ℝ, s = 1 ∨ s = -1 → Real.sqrt (∑ j ∈ range 2, (fun j : ℕ => if j = 0 then s * (r * (Real.sqrt 2 / 2)) else -s * (r * (Real.sqrt 2 / 2))) j ^ 2) ≤ r := by
      intro s hs
      have : ∑ j ∈ range 2, (fun j : ℕ => if j = 0 then s * (r * (Real.sqrt 2 / 2)) else -s * (r * (Real.sqrt 2 / 2))) j ^ 2 = r ^ 2 := by
        have hs2 : s ^ 2 = 1 := by rcases hs with rfl | rfl <;> norm_num
        have hq : (s * (r * (Real.sqrt 2 / 2))) ^ 2 = r ^ 2 / 2 := by
          rw [mul_pow, mul_pow, div_pow, s2, hs2]
          ring
        simp only [sum_range_succ, sum_range_zero]
        norm_num
        linarith
      rw [this, Real.sqrt_sq hr]
    have a1 := k _ (by norm_num) (n1 1 (.inl rfl))
    have a2 := k _ (by norm_num) (n1 (-1) (.inr rfl))
    simp only [List.forall_mem_cons] at a1 a2
    have b1 := a1.1.2.2.1
    have b2 := a2.1.2.2.2.1
    have b3 := a1.2
    norm_num at b1 b2 b3
    refine ⟨b1, b2, ?_⟩
    linarith
  obtain ⟨c, k1, k2, k3⟩ := cheb_eq hL h (j := 0) (by norm_num) (by norm_num) (by norm_num) (c0 := fun _ => 1.5) (r0 := Real.sqrt 2 / 2) (by positivity) (by
      intro v hv hn
      have hv : v 0 + v 1 = 0 := hv
      have hs : ∑ j ∈ range 2, v j ^ 2 ≤ (Real.sqrt 2 / 2) ^ 2 := (Real.sqrt_le_left (by positivity)).1 hn
      have h1 : v 1 = - v 0 := by linarith
      simp only [sum_range_succ, sum_range_zero, zero_add, h1] at hs
      have hq : (v 0) ^ 2 ≤ (1 / 2) ^ 2 := by nlinarith
      have ha := abs_le.1 (abs_le_of_sq_le_sq hq (by norm_num))
      refine ⟨?_, ?_⟩
      · simp only [List.forall_mem_cons, List.not_mem_nil, false_imp_iff, implies_true, and_true, h1]
        refine ⟨?_, ?_, ?_, ?_, ?_⟩ <;> norm_num <;> linarith
      · show 1.5 + v 0 + (1.5 + v 1) = 3
        linarith) (by
      intro c r hr k
      obtain ⟨g1, g2, g3⟩ := key c r hr k
      nlinarith)
  obtain ⟨g1, g2, g3⟩ := key _ _ (by positivity) k3
  refine ⟨c, k1, k2, fun i hi => ?_⟩
  have e : Real.sqrt 2 / 2 * (Real.sqrt 2 / 2) = 1 / 2 := by nlinarith
  rw [e] at g1 g2
  interval_cases i <;> norm_num <;> linarith

theorem balls_pass {L : Lib} (hL : LibSpec L) : chebyshevBalls L = .ok () := by
  obtain ⟨p1, a1, f1, r1⟩ := rep_box 0 2
  obtain ⟨c1, b1, n1, e1⟩ := square_ball hL (I := []) r1 (.inl rfl)
  rw [show ((2 : ℝ) - 0) / 2 = 1 by norm_num] at b1
  obtain ⟨q1, t1, s1⟩ := check_ball (c' := full 2 1) r1 f1 b1 n1 (fun i hi => by rw [e1 i (by omega)]; norm_num [full])
  obtain ⟨p2, a2, f2, r2⟩ := rep_zeros s1
  obtain ⟨c2, b2, n2, e2⟩ := square_ball hL r2 (.inr rfl)
  rw [show ((2 : ℝ) - 0) / 2 = 1 by norm_num] at b2
  obtain ⟨q2, t2, s2⟩ := check_ball (c' := full 2 1) r2 f2 b2 n2 (fun i hi => by rw [e2 i (by omega)]; norm_num [full])
  obtain ⟨p3, a3, f3, r3⟩ := rep_diag s2 3
  obtain ⟨c3, b3, n3, e3⟩ := segment_ball hL r3
  obtain ⟨q3, t3, -⟩ := check_ball (c' := full 2 1.5) r3 f3 b3 n3 (fun i hi => by rw [e3 i (by omega)]; rfl)
  obtain ⟨p4, a4, f4, r4⟩ := rep_box 1 (-1)
  obtain ⟨c4, b4, n4, e4⟩ := square_ball hL (I := []) r4 (.inl rfl)
  rw [show ((-1 : ℝ) - 1) / 2 = -1 by norm_num] at b4
  obtain ⟨q4, t4, -⟩ := check_ball (c' := full 2 0) r4 f4 b4 n4 (fun i hi => by rw [e4 i (by omega)]; norm_num [full])
  unfold chebyshevBalls
  rw [a1, Py.ok_bind, t1, Py.ok_bind, a2, Py.ok_bind, t2, Py.ok_bind, a3, Py.ok_bind, t3, Py.ok_bind, a4, Py.ok_bind, t4]
  rfl

/-- the quadrant `x ≥ 1` has no largest ball -/
theorem quadrant_none {L : Lib} (hL : LibSpec L) {p : Poly} (h : Rep 2 p [((fun z : ℕ → ℝ => -1 * z 0), -1), (fun z => -1 * z 1, -1)] []) :
    Poly.chebyshev L p.A p.b p.C p.d = .ok none := by
  have nr : p.A.nr = 2 := h.len.1
  have nc : p.A.nc = 2 := h.inv.1
  have hI := h.ineq
  rw [nr] at hI
  simp [List.range_succ] at hI
  have hr0 : rowVal p.A 0 = fun z => -z 0 := hI.1.1
  have hr1 : rowVal p.A 1 = fun z => -z 1 := hI.2.1
  have a : ∀ i, ∀ j < 2, p.A.e i j = rowVal p.A i (fun k => if k = j then 1 else 0) := fun i j hj => (rowVal_unit p.A i (by omega)).symm
  have a00 : p.A.e 0 0 = -1 := by rw [a 0 0 (by norm_num), hr0]; norm_num
  have a01 : p.A.e 0 1 = 0 := by rw [a 0 1 (by norm_num), hr0]; norm_num
  have a10 : p.A.e 1 0 = 0 := by rw [a 1 0 (by norm_num), hr1]; norm_num
  have a11 : p.A.e 1 1 = -1 := by rw [a 1 1 (by norm_num), hr1]; norm_num
  have n0 : vnorm (p.A.row 0) = 1 := by simp [vnorm, Mat.row, nc, sum_range_succ, a00, a01]
  have n1 : vnorm (p.A.row 1) = 1 := by simp [vnorm, Mat.row, nc, sum_range_succ, a10, a11]
  unfold Poly.chebyshev
  rw [if_neg (by rw [h.len.2]; simp), Poly.chebyshevLP_eq]
  unfold lpDefault
  rw [pnnls_lp_none hL (n := 3) (by simp [nc]) (show Spec.ConstrShape 3 (p.A.happ (Poly.rowNorms p.A).neg) p.b none none from ⟨by show p.A.nc + 1 = 3; omega, h.inv.2.1⟩)
    (by show 0 < p.A.nr; omega) ?_]
  · rfl
  intro x lam mu ε he hl _ hs
  have s0 := abs_le.1 (hs 0 (by norm_num))
  have s1 := abs_le.1 (hs 1 (by norm_num))
  have s2 := abs_le.1 (hs 2 (by norm_num))
  have hnr : (p.A.happ (Poly.rowNorms p.A).neg).nr = 2 := nr
  simp [hnr, nr, sum_range_succ, Spec.eqGrad, Vec.append, nc, Mat.happ, Poly.rowNorms, Mat.neg, a00, a01, a10, a11, n0, n1] at s0 s1 s2
  norm_num at he
  linarith

theorem rep_quadrant : ∃ p, Poly.from_lower_bound (fullB 2 1) = .ok p ∧ p = Poly.fresh p.A p.b p.C p.d ∧
    Rep 2 p [((fun z : ℕ → ℝ => -1 * z 0), -1), (fun z => -1 * z 1, -1)] [] :=
  rep_from_lower 2 (full 2 1) none none (Or.inr ⟨rfl, rfl, rfl⟩) rfl

theorem rep_strip {p : Poly} (h : Rep 2 p [((fun z : ℕ → ℝ => -1 * z 0), -1), (fun z => -1 * z 1, -1)] []) :
    ∃ q, Poly.runOn p (Poly.add_upper_bound (fullB 1 2) (some [1])) = .ok q ∧ q = Poly.fresh q.A q.b q.C q.d ∧
      Rep 2 q [((fun z : ℕ → ℝ => -1 * z 0), -1), (fun z => -1 * z 1, -1), (fun z => 1 * z 1, 2)] [] :=
  rep_upper h (full 1 2) (some [1]) rfl

theorem strip_ball {L : Lib} (hL : LibSpec L) {p : Poly} (h : Rep 2 p [((fun z : ℕ → ℝ => -1 * z 0), -1), (fun z => -1 * z 1, -1), (fun z => 1 * z 1, 2)] []) :
    ∃ c, Poly.chebyshev L p.A p.b p.C p.d = .ok (some (0.5, c)) ∧ c.n = 2 ∧ 1.5 ≤ c.e 0 := by
  have key : ∀ x : ℕ → ℝ, ∀ r, (∀ q ∈ [((fun z : ℕ → ℝ => -1 * z 0), (-1 : ℝ)), (fun z => -1 * z 1, -1), (fun z => 1 * z 1, 2)],
      q.1 x + r * dualNorm 2 q.1 ≤ q.2) ↔ (-x 0 + r ≤ -1 ∧ -x 1 + r ≤ -1 ∧ x 1 + r ≤ 2) := by
    intro x r
    simp only [List.forall_mem_cons, List.not_mem_nil, false_imp_iff, implies_true, and_true, n21, m20, m21]
    simp
  obtain ⟨c, k1, k2, k3⟩ := cheb_free hL h (fun _ => 1.5) 0.5 ((key _ _).2 (by norm_num)) fun x r k => by
    obtain ⟨-, g2, g3⟩ := (key x r).1 k
    norm_num
    linarith
  obtain ⟨g1, -, -⟩ := (key _ _).1 k3
  refine ⟨c, k1, k2, by linarith⟩

/-- the ball in three dimensions -/
theorem space_ball {L : Lib} (hL : LibSpec L) {p : Poly}
    (h : Rep 3 p [((fun z : ℕ → ℝ => -1 * z 0), 1), (fun z => -1 * z 1, 2), (fun z => 1 * z 0, 1), (fun z => 1 * z 1, 2)] [((fun z => z 0 - z 2), 0)]) :
    ∃ c, Poly.chebyshev L p.A p.b p.C p.d = .ok (some (Real.sqrt 2, c)) ∧ c.n = 3 ∧ c.e 0 = 0 ∧ c.e 2 = 0 ∧ |c.e 1| ≤ 2 - Real.sqrt 2 := by
  have s2 : Real.sqrt 2 ^ 2 = 2 := Real.sq_sqrt (by norm_num)
  have s0 : 0 < Real.sqrt 2 := Real.sqrt_pos.2 (by norm_num)
  have key : ∀ c r, 0 ≤ r → BallL 3 [((fun z : ℕ → ℝ => -1 * z 0), 1), (fun z => -1 * z 1, 2), (fun z => 1 * z 0, 1), (fun z => 1 * z 1, 2)]
      (fun z => z 0 - z 2) 0 c r → (c 0 + r * (Real.sqrt 2 / 2) ≤ 1 ∧ -c 0 + r * (Real.sqrt 2 / 2) ≤ 1) ∧ c 0 = c 2 ∧ c 1 + r ≤ 2 ∧ -c 1 + r ≤ 2 := by
    intro c r hr k
    have n1 : ∀ s : ℝ, s = 1 ∨ s = -1 → Real.sqrt (∑ j ∈ range 3, (fun j : ℕ => if j = 1 then 0 else s * (r * (Real.sqrt 2 / 2))) j ^ 2) ≤ r := by
      intro s hs
      have : ∑ j ∈ range 3, (fun j : ℕ => if j = 1 then 0 else s * (r * (Real.sqrt 2 / 2))) j ^ 2 = r ^ 2 := by
        have hs2 : s ^ 2 = 1 := by rcases hs with rfl | rfl <;> norm_num
        have hq : (s * (r * (Real.sqrt 2 / 2))) ^ 2 = r ^ 2 / 2 := by
          rw [mul_pow, mul_pow, div_pow, s2, hs2]
          ring
        simp only [sum_range_succ, sum_range_zero]
        norm_num
        linarith
      rw [this, Real.sqrt_sq hr]
    have m1 : ∀ s : ℝ, s = 1 ∨ s = -1 → Real.sqrt (∑ j ∈ range 3, (fun j : ℕ => if j = 1 then s * r else 0) j ^ 2) ≤ r := by
      intro s hs
      have : ∑ j ∈ range 3, (fun j : ℕ => if j = 1 then s * r else 0) j ^ 2 = r ^ 2 := by
        have hs2 : s ^ 2 = 1 := by rcases hs with rfl | rfl <;> norm_num
        simp [sum_range_succ, mul_pow, hs2]
      rw [this, Real.sqrt_sq hr]
    have a1 := k _ (by norm_num) (n1 1 (.inl rfl))
    have a2 := k _ (by norm_num) (n1 (-1) (.inr rfl))
    have a3 := k _ (by norm_num) (m1 1 (.inl rfl))
    have a4 := k _ (by norm_num) (m1 (-1) (.inr rfl))
    simp only [List.forall_mem_cons] at a1 a2 a3 a4
    have b1 := a1.1.2.2.1
    have b2 := a2.1.1
    have b3 := a1.2
    have b4 := a3.1.2.2.2.1
    have b5 := a4.1.2.1
    norm_num at b1 b2 b3 b4 b5
    refine ⟨⟨?_, ?_⟩, ?_, ?_, ?_⟩ <;> linarith
  obtain ⟨c, k1, k2, k3⟩ := cheb_eq hL h (j := 0) (by norm_num) (by norm_num) (by norm_num) (c0 := fun _ => 0) (r0 := Real.sqrt 2) (by positivity) (by
      intro v hv hn
      have hv : v 0 - v 2 = 0 := hv
      have hs : ∑ j ∈ range 3, v j ^ 2 ≤ (Real.sqrt 2) ^ 2 := (Real.sqrt_le_left (by positivity)).1 hn
      have h1 : v 2 = v 0 := by linarith
      simp only [sum_range_succ, sum_range_zero, zero_add, h1] at hs
      have hq : (v 0) ^ 2 ≤ 1 ^ 2 := by nlinarith [sq_nonneg (v 1)]
      have hq1 : (v 1) ^ 2 ≤ 2 ^ 2 := by nlinarith [sq_nonneg (v 0)]
      have ha := abs_le.1 (abs_le_of_sq_le_sq hq (by norm_num))
      have hb := abs_le.1 (abs_le_of_sq_le_sq hq1 (by norm_num))
      refine ⟨?_, ?_⟩
      · simp only [List.forall_mem_cons, List.not_mem_nil, false_imp_iff, implies_true, and_true]
        refine ⟨?_, ?_, ?_, ?_⟩ <;> linarith
      · show 0 + v 0 - (0 + v 2) = 0
        linarith) (by
      intro c r hr k
      obtain ⟨⟨g1, g2⟩, -⟩ := key c r hr k
      nlinarith)
  obtain ⟨⟨g1, g2⟩, g3, g4, g5⟩ := key _ _ (by positivity) k3
  have e : Real.sqrt 2 * (Real.sqrt 2 / 2) = 1 := by nlinarith
  rw [e] at g1 g2
  have hc : c.e 0 = 0 := by linarith
  exact ⟨c, k1, k2, hc, g3 ▸ hc, abs_le.2 ⟨by linarith, by linarith⟩⟩

theorem space_pass {L : Lib} (hL : LibSpec L) : chebyshevSpace L = .ok () := by
  obtain ⟨p, a1, f1, r1⟩ : ∃ p, Poly.from_bounds (pairB (-1) (-2)) (pairB 1 2) (some [0, 1]) (some 3) = .ok p ∧ p = Poly.fresh p.A p.b p.C p.d ∧
      Rep 3 p [((fun z : ℕ → ℝ => -1 * z 0), 1), (fun z => -1 * z 1, 2), (fun z => 1 * z 0, 1), (fun z => 1 * z 1, 2)] [] := by
    obtain ⟨p, h1, h2, h3⟩ := rep_from_bounds 3 (vec2 (-1) (-2)) (vec2 1 2) (some [0, 1]) (some 3) (Or.inl rfl) rfl rfl
    refine ⟨p, h1, h2, ?_⟩
    convert h3 using 2
    simp [List.range_succ, vec2, Poly.sel]
  obtain ⟨q, a2, f2, r2⟩ : ∃ q, Poly.runOn p (Poly.add_equality ⟨1, 3, fun _ j => if j = 0 then 1 else if j = 2 then -1 else 0⟩ (.d1 (full 1 0))) = .ok q ∧
      q = Poly.fresh q.A q.b q.C q.d ∧ Rep 3 q [((fun z : ℕ → ℝ => -1 * z 0), 1), (fun z => -1 * z 1, 2), (fun z => 1 * z 0, 1), (fun z => 1 * z 1, 2)]
        [((fun z => z 0 - z 2), 0)] := by
    obtain ⟨q, h1, h2, h3⟩ := rep_eq r1 (F := ⟨1, 3, fun _ j => if j = 0 then 1 else if j = 2 then -1 else 0⟩) (f := full 1 0) (idx := none) rfl rfl
    refine ⟨q, h1, h2, ?_⟩
    convert h3 using 2
    simp [full, sum_range_succ, Poly.sel, List.range_succ]
    funext z
    ring
  obtain ⟨c, k1, k2, k3, k4, k5⟩ := space_ball hL r2
  obtain ⟨q', g1, g2, g3, -⟩ := ask_ball r2 f2 k1
  have e : assertAlmostEqualO (some (Real.sqrt 2)) (Real.sqrt 2) = .ok () := almost_self _
  have o : ∀ i < 3, entryOf (some c) i = .ok (c.e i) := fun i hi => if_pos (by omega)
  unfold chebyshevSpace
  rw [a1, Py.ok_bind, a2, Py.ok_bind, g1, Py.ok_bind]
  dsimp only
  rw [e, Py.ok_bind, g2, Py.ok_bind]
  dsimp only
  rw [o 0 (by norm_num), Py.ok_bind, k3, almost_self, Py.ok_bind, o 2 (by norm_num), Py.ok_bind, k4, almost_self, Py.ok_bind, o 1 (by norm_num), Py.ok_bind, g3, Py.ok_bind]
  dsimp only
  unfold assertTrue
  rw [if_pos]
  rw [decide_eq_true_iff]
  linarith

theorem ask_none {L : Lib} {p : Poly} (hf : p = Poly.fresh p.A p.b p.C p.d) (hc : Poly.chebyshev L p.A p.b p.C p.d = .ok none) :
    ask p (Poly.radius L) = .ok (none, p) ∧ ask p (Poly.center L) = .ok (none, p) := by
  have hr : p._radius = none := by rw [hf]; rfl
  have hc' : p._center = none := by rw [hf]; rfl
  have hpp : { p with _radius := none, _center := none } = p := by
    cases p
    cases hr
    cases hc'
    rfl
  unfold ask
  rw [radius_run L hr, center_run L hc', hc]
  constructor
  · show Except.ok (none, { p with _radius := none, _center := none }) = _
    rw [hpp]
  · show Except.ok (none, { p with _radius := none, _center := none }) = _
    rw [hpp]

/-- C198, what holds: the test passes exactly if the first coordinate of the center found for the strip `x ≥ 1, x₁ ≤ 2` is at most `1.5` (up to the
rounding of the assertion); it is at least `1.5`, and with every such number there is a ball of the largest radius.  All other assertions of the test hold.

Missing with respect to C198: that the test passes, which is false (`C198_false`). -/
theorem C198_partial (L : Lib) (hL : LibSpec L) :
    ∃ p₀ p q c, Poly.from_lower_bound (fullB 2 1) = .ok p₀ ∧ Poly.runOn p₀ (Poly.add_upper_bound (fullB 1 2) (some [1])) = .ok p ∧
      (∀ z, p.Mem z ↔ 1 ≤ z 0 ∧ 1 ≤ z 1 ∧ z 1 ≤ 2) ∧
      (∀ a : ℝ, 1.5 ≤ a → Spec.BallIn 2 p.A p.b p.C p.d (fun j => if j = 0 then a else 1.5) 0.5) ∧ Poly.center L p = (.ok (some c), q) ∧ c.n = 2 ∧ 1.5 ≤ c.e 0 ∧
      Asserts (test_chebyshev L) (c.e 0 ≤ 1.5 + 5e-8) := by
  obtain ⟨p, a1, f1, r1⟩ := rep_quadrant
  obtain ⟨g1, g2⟩ := ask_none f1 (quadrant_none hL r1)
  obtain ⟨q, a2, f2, r2⟩ := rep_strip r1
  obtain ⟨c, k1, k2, k3⟩ := strip_ball hL r2
  obtain ⟨q', g3, g4, -, -⟩ := ask_ball r2 f2 k1
  have hmem : ∀ z, q.Mem z ↔ 1 ≤ z 0 ∧ 1 ≤ z 1 ∧ z 1 ≤ 2 := by
    intro z
    rw [r2.mem z]
    simp only [List.forall_mem_cons, List.not_mem_nil, false_imp_iff, implies_true, and_true]
    constructor
    · rintro ⟨h1, h2, h3⟩
      exact ⟨by linarith, by linarith, by linarith⟩
    · rintro ⟨h1, h2, h3⟩
      exact ⟨by linarith, by linarith, by linarith⟩
  refine ⟨p, q, { q with _radius := some 0.5, _center := some c }, c, a1, a2, hmem, fun a ha v _ hn => ?_, ?_, k2, k3, ?_⟩
  · have hs : ∑ j ∈ range 2, v j ^ 2 ≤ 0.5 ^ 2 := (Real.sqrt_le_left (by norm_num)).1 hn
    simp only [sum_range_succ, sum_range_zero, zero_add] at hs
    have h0 := abs_le.1 (abs_le_of_sq_le_sq (show v 0 ^ 2 ≤ 0.5 ^ 2 by nlinarith [sq_nonneg (v 1)]) (by norm_num))
    have h1 := abs_le.1 (abs_le_of_sq_le_sq (show v 1 ^ 2 ≤ 0.5 ^ 2 by nlinarith [sq_nonneg (v 0)]) (by norm_num))
    refine (hmem _).2 ⟨?_, ?_, ?_⟩ <;> norm_num at * <;> linarith
  · rw [center_run L (by rw [f2]; rfl), k1]
    rfl
  have e : assertAlmostEqualO (some (0.5 : ℝ)) 0.5 = .ok () := almost_self _
  have o : entryOf (some c) 0 = .ok (c.e 0) := if_pos (by omega)
  have hs : chebyshevStrip L = assertAlmostEqual (c.e 0) 1.5 := by
    unfold chebyshevStrip
    rw [a1, Py.ok_bind, g1, Py.ok_bind]
    show (ask p (Poly.center L) >>= _) = _
    rw [g2, Py.ok_bind]
    show (Poly.runOn p _ >>= _) = _
    rw [a2, Py.ok_bind, g3, Py.ok_bind]
    dsimp only
    rw [e, Py.ok_bind, g4, Py.ok_bind]
    dsimp only
    rw [o, Py.ok_bind]
  have ht : test_chebyshev L = assertAlmostEqual (c.e 0) 1.5 := by
    unfold test_chebyshev
    rw [balls_pass hL, Py.ok_bind, hs, space_pass hL]
    cases assertAlmostEqual (c.e 0) 1.5 <;> rfl
  rw [ht]
  unfold assertAlmostEqual assertTrue
  refine ⟨fun h => if_pos ?_, fun h => if_neg ?_⟩
  · rw [decide_eq_true_iff, abs_of_nonneg (by linarith)]
    linarith
  · rw [decide_eq_true_iff, abs_of_nonneg (by linarith)]
    intro h'
    exact h (by linarith)

open Classical in
/-- the solver `nnls` that returns another of its minimizers when there are columns of zeros -/
noncomputable def freed (L : Lib) : Lib :=
  let nnls : Mat ℝ → Vec ℝ → Vec ℝ × ℝ := fun A b =>
    (⟨(L.nnls A b).1.n, fun j => (L.nnls A b).1.e j + if ∀ i < A.nr, A.e i j = 0 then 1 else 0⟩, (L.nnls A b).2)
  { L with nnls := nnls }

theorem freed_mulVec {L : Lib} {A : Mat ℝ} {b : Vec ℝ} : vnorm ((A.mulVec ((freed L).nnls A b).1).sub b) = vnorm ((A.mulVec (L.nnls A b).1).sub b) := by
  classical
  unfold vnorm
  congr 1
  refine sum_congr rfl fun i hi => ?_
  have hi' : i < A.nr := mem_range.1 hi
  have e : ∑ j ∈ range A.nc, A.e i j * ((freed L).nnls A b).1.e j = ∑ j ∈ range A.nc, A.e i j * (L.nnls A b).1.e j := by
    refine sum_congr rfl fun j _ => ?_
    simp only [freed]
    split_ifs with h
    · rw [h i hi']
      ring
    · ring
  show (∑ j ∈ range A.nc, A.e i j * ((freed L).nnls A b).1.e j - b.e i) ^ 2 = (∑ j ∈ range A.nc, A.e i j * (L.nnls A b).1.e j - b.e i) ^ 2
  rw [e]

theorem freed_spec {L : Lib} (hL : LibSpec L) : LibSpec (freed L) where
  nnls_n A b hb := hL.nnls_n A b hb
  nnls_nonneg A b hb i hi := by
    have := hL.nnls_nonneg A b hb i hi
    simp only [freed]
    split_ifs <;> linarith
  nnls_min A b hb y hy := by
    rw [freed_mulVec]
    exact hL.nnls_min A b hb y hy
  nnls_res A b hb := by
    rw [freed_mulVec]
    exact hL.nnls_res A b hb
  pinv_nr := hL.pinv_nr
  pinv_nc := hL.pinv_nc
  pinv_1 := hL.pinv_1
  pinv_2 := hL.pinv_2
  pinv_3 := hL.pinv_3
  pinv_4 := hL.pinv_4
  chol_ok := hL.chol_ok
  chol_err := hL.chol_err
  svd_nr := hL.svd_nr
  svd_nc := hL.svd_nc
  svd_orth := hL.svd_orth
  svd_ker := hL.svd_ker
  qr_nr := hL.qr_nr
  qr_nc := hL.qr_nc
  qr_tri := hL.qr_tri
  qr_eq := hL.qr_eq

/-- the projection on the complement of the range of `B` -/
theorem proj_zero {L : Lib} (hL : LibSpec L) (B : Mat ℝ) {i j : ℕ} (hi : i < B.nr) (hj : j < B.nc) :
    ∑ k ∈ range B.nr, ((Mat.eye B.nr : Mat ℝ).sub (B.mul (L.pinv B))).e i k * B.e k j = 0 := by
  have p1 := hL.pinv_1 B
  have e1 : ((Mat.eye B.nr : Mat ℝ).sub (B.mul (L.pinv B))).asM B.nr B.nr = 1 - B.asM B.nr B.nc * (L.pinv B).asM B.nc B.nr := by
    rw [Mat.asM_sub, Mat.asM_eye, Mat.asM_mul B (L.pinv B) B.nr B.nr rfl]
  have e2 : ((Mat.eye B.nr : Mat ℝ).sub (B.mul (L.pinv B))).asM B.nr B.nr * B.asM B.nr B.nc = 0 := by
    rw [e1, Matrix.sub_mul, p1, Matrix.one_mul, sub_self]
  have := congrFun (congrFun e2 ⟨i, hi⟩) ⟨j, hj⟩
  rw [Matrix.mul_apply] at this
  rw [Finset.sum_range]
  exact this

/-- a linear program with a free slack: the inequality of the slack is strict by one -/
theorem freed_lp {L : Lib} (hL : LibSpec L) {f : Vec ℝ} {A : Mat ℝ} {b : Vec ℝ} (hb : b.n = A.nr) (hf : f.n = A.nc) {i j : ℕ} (hi : i < A.nr) (hj : j < A.nc)
    (h0 : f.e j = 0) (h1 : ∀ k < A.nr, A.e k j = if k = i then -1 else 0) {tol : ℝ} {s : Sol} {x : Vec ℝ}
    (h : Pnnls.linear_program (freed L) f A b none none tol = .ok s) (hx : s.argmin = some x) : ∑ k ∈ range A.nc, A.e i k * x.e k + 1 ≤ b.e i + tol ∧ s.min = some (Spec.lpCost f x) := by
  have hF := freed_spec hL
  obtain ⟨ys, x', r, c1, c2, c3, -, -, c6, -⟩ := lp_core hF hb hf
  have c1 := c1 (by omega)
  have hy : 1 ≤ ys.e (A.nr + i) := by
    have hy := c1
    unfold Pnnls.pnnls at hy
    obtain ⟨BBp, hB, hy⟩ := Py.bind_eq_ok hy
    obtain ⟨Bb, hBb, hy⟩ := Py.bind_eq_ok hy
    obtain ⟨Ab, hA, hy⟩ := Py.bind_eq_ok hy
    obtain ⟨bb, -, hy⟩ := Py.bind_eq_ok hy
    obtain ⟨⟨v, r'⟩, hv, hy⟩ := Py.bind_eq_ok hy
    obtain ⟨_, -, hy⟩ := Py.bind_eq_ok hy
    obtain ⟨_, -, hy⟩ := Py.bind_eq_ok hy
    obtain ⟨_, -, hy⟩ := Py.bind_eq_ok hy
    cases hy
    have nA : (lpA A b).nr = 1 + (A.nr + A.nc) := by simp [lpA]
    have nB : (lpB f A).nr = 1 + (A.nr + A.nc) := by simp [lpB]
    have hop : Ab.nc = A.nr + A.nr ∧ ∀ k < Ab.nr, Ab.e k (A.nr + i) = 0 := by
      unfold np.dotMM at hB
      split at hB <;> cases hB
      rename_i hdot
      have hB2 : np.subM (Mat.eye (lpA A b).nr) ((lpB f A).mul (L.pinv (lpB f A))) = .ok ((Mat.eye (lpA A b).nr : Mat ℝ).sub ((lpB f A).mul (L.pinv (lpB f A)))) :=
        if_pos ⟨by simp [nA, nB], by simp [nA, hL.pinv_nc, nB]⟩
      cases hB2.symm.trans hBb
      unfold np.dotMM at hA
      split at hA <;> cases hA
      refine ⟨by simp [lpA, hb], fun k hk => ?_⟩
      have e : ∀ m, m < 1 + (A.nr + A.nc) → (lpA A b).e m (A.nr + i) = - (lpB f A).e m j := by
        intro m hm
        unfold lpA lpB
        simp only [Mat.vapp_e, Mat.ofRow_nr, Mat.happ_nr, Mat.zeros_nr]
        by_cases g1 : m < 1
        · simp [g1, Mat.ofRow, Vec.append, hb, h0]
        by_cases g2 : m - 1 < A.nr
        · simp only [g1, g2, if_true, if_false, h1 _ g2]
          simp only [Mat.happ, Mat.eye, Mat.zeros_nc]
          have g3 : ¬ A.nr + i < A.nr := by omega
          simp only [g3, if_false, Nat.add_sub_cancel_left]
          split_ifs <;> simp
        · simp only [g1, g2, if_false]
          simp [Mat.happ]
      have hk : k < (lpB f A).nr := by rw [nB, ← nA]; exact hk
      have := proj_zero hL (lpB f A) hk (j := j) (by simpa [lpB, hf] using hj)
      show ∑ m ∈ range (lpA A b).nr, ((Mat.eye (lpA A b).nr : Mat ℝ).sub ((lpB f A).mul (L.pinv (lpB f A)))).e k m * (lpA A b).e m (A.nr + i) = 0
      rw [nB] at this
      rw [nA, ← neg_zero, ← this, ← sum_neg_distrib]
      exact sum_congr rfl fun m hm => by rw [e m (mem_range.1 hm), mul_neg]
    unfold np.nnls at hv
    split at hv
    · cases hv
    rename_i hbn
    split at hv
    · cases hv
    have := hL.nnls_nonneg Ab bb (not_not.1 hbn) (A.nr + i) (by rw [hop.1]; omega)
    cases hv
    show 1 ≤ (L.nnls Ab bb).1.e (A.nr + i) + ite (∀ k < Ab.nr, Ab.e k (A.nr + i) = 0) 1 0
    rw [if_pos hop.2]
    linarith
  have hst : Pnnls.stackEqualities A b none none = .ok (0, A, b) := rfl
  have hda : Pnnls.lpData (A.nr + 2 * 0) f A b = .ok (lpA A b, lpB f A, lpc f b) := lpData_ok hb hf
  unfold Pnnls.linear_program at h
  simp only [hst, hda, Py.ok_bind, c1] at h
  split at h
  rotate_left
  · cases h
    cases hx
  rename_i hr
  have e1 : np.dotVV f x' = .ok (Spec.lpCost f x') := if_pos (by rw [c3, hf])
  rw [e1, Py.ok_bind] at h
  cases h
  cases hx
  have := (abs_le.1 ((lpRes_bounds c6).2.1 i hi)).2
  exact ⟨by linarith, rfl⟩

/-- C198 is false of the code: from any library within the contract one gets another, whose `nnls` returns another minimizer when there are columns of
zeros, with which the test fails. -/
theorem C198_false (L : Lib) (hL : LibSpec L) : LibSpec (freed L) ∧ test_chebyshev (freed L) = .error .assertionError := by
  have hF := freed_spec hL
  refine ⟨hF, ?_⟩
  obtain ⟨p₀, p, q, c, a1, a2, -, -, a4, a5, -, a7⟩ := C198_partial (freed L) hF
  refine a7.2 fun hc => ?_
  obtain ⟨p₀', b1, f1, r1⟩ := rep_quadrant
  cases a1.symm.trans b1
  obtain ⟨p', b2, f2, r2⟩ := rep_strip r1
  cases a2.symm.trans b2
  obtain ⟨c', k1, k2, -⟩ := strip_ball hF r2
  rw [center_run _ (by rw [f2]; rfl), k1] at a4
  cases a4
  unfold Poly.chebyshev at k1
  rw [if_neg (by rw [r2.len.2]; simp), Poly.chebyshevLP_eq] at k1
  unfold lpDefault at k1
  obtain ⟨s, hs, k1⟩ := Py.bind_eq_ok k1
  have nr : p.A.nr = 3 := r2.len.1
  have nc : p.A.nc = 2 := r2.inv.1
  have hI := r2.ineq
  rw [nr] at hI
  simp [List.range_succ] at hI
  have hr0 : rowVal p.A 0 = fun z => -z 0 := hI.1.1
  have hr1 : rowVal p.A 1 = fun z => -z 1 := hI.2.1.1
  have hr2 : rowVal p.A 2 = fun z => z 1 := hI.2.2.1
  have a : ∀ i, ∀ j < 2, p.A.e i j = rowVal p.A i (fun k => if k = j then 1 else 0) := fun i j hj => (rowVal_unit p.A i (by omega)).symm
  have a00 : p.A.e 0 0 = -1 := by rw [a 0 0 (by norm_num), hr0]; norm_num
  have a01 : p.A.e 0 1 = 0 := by rw [a 0 1 (by norm_num), hr0]; norm_num
  have a10 : p.A.e 1 0 = 0 := by rw [a 1 0 (by norm_num), hr1]; norm_num
  have a20 : p.A.e 2 0 = 0 := by rw [a 2 0 (by norm_num), hr2]; norm_num
  have n0 : vnorm (p.A.row 0) = 1 := by simp [vnorm, Mat.row, nc, sum_range_succ, a00, a01]
  have hb0 : p.b.e 0 = -1 := hI.1.2
  cases hm : s.min with
  | none => rw [hm] at k1; cases k1
  | some m =>
    cases hx : s.argmin with
    | none => rw [hm, hx] at k1; cases k1
    | some x =>
      rw [hm, hx] at k1
      have k1 := Option.some.inj (Except.ok.inj k1)
      have km : -m = 0.5 := congrArg Prod.fst k1
      have kc : x.slice 0 (x.n - 1) = c' := congrArg Prod.snd k1
      have hc : c'.e 0 ≤ 1.5 + 5e-8 := hc
      have kx : c'.e 0 = x.e 0 := by rw [← kc]; simp [Vec.slice]
      obtain ⟨g, g'⟩ := freed_lp hL (i := 0) (j := 0) (A := p.A.happ (Poly.rowNorms p.A).neg) (by show p.b.n = p.A.nr; exact r2.inv.2.1) (by rfl) (by show 0 < p.A.nr; omega)
        (by show 0 < p.A.nc + 1; omega) (by simp [Vec.append, nc]) (by
          intro k hk
          have hk : k < 3 := by rw [← nr]; exact hk
          interval_cases k <;> simp [Mat.happ, nc, a00, a10, a20]) hs hx
      have hnc : (p.A.happ (Poly.rowNorms p.A).neg).nc = 3 := by show p.A.nc + 1 = 3; omega
      have hnr : 0 < p.A.nr := by omega
      rw [hnc, hb0] at g
      cases hm.symm.trans g'
      rw [Poly.chebCost, nc] at km
      simp [sum_range_succ, Mat.happ, nc, Mat.neg, Poly.rowNorms, a00, a01, n0] at g
      norm_num at g km hc
      linarith

/-- there is such a library -/
example : ∃ L, LibSpec L ∧ test_chebyshev L = .error .assertionError := by
  obtain ⟨L, hL⟩ := exists_lib
  exact ⟨_, C198_false L hL⟩

end Verif.Props
