import Verif.Model.TestLqr
import Verif.Props.LinearNotebooks
import Verif.Props.Voronoi

/- The test of the linear quadratic regulator: C180 of properties.jsonl. -/
namespace Verif.Props
open Finset Spec Dyn Control Filter Topology TestSuite

theorem quadOf_ok {M : Mat ℝ} {n : ℕ} (h1 : M.nr = n) (h2 : M.nc = n) {y : Vec ℝ} (hy : y.n = n) {x : ℕ → ℝ} (hx : ∀ i < n, y.e i = x i) :
    quadOf M y = .ok (quad M x) := by
  have e1 : np.dotVM y M = .ok (Mat.vecMul y M) := if_pos (by omega)
  have e2 : np.dotVV (Mat.vecMul y M) y = .ok ((Mat.vecMul y M).dot y) := if_pos (by show M.nc = _; omega)
  unfold quadOf
  rw [e1, Py.ok_bind, e2]
  congr 1
  show ∑ j ∈ range M.nc, (∑ i ∈ range y.n, y.e i * M.e i j) * y.e j = _
  rw [← Math.quad_congr_lt h1 h2 hx]
  unfold quad
  rw [Finset.sum_comm, hy, h1]
  exact Finset.sum_congr rfl fun j _ => Finset.sum_mul _ _ _

theorem stageOf_ok {Q R K : Mat ℝ} {n m : ℕ} (hQ : SymMat n Q) (hR : SymMat m R) (k1 : K.nr = m) (k2 : K.nc = n) {y : Vec ℝ} (hy : y.n = n)
    {x : ℕ → ℝ} (hx : ∀ i < n, y.e i = x i) : stageOf Q R K y = .ok (1 / 2 * (quad Q x + quad R (LinOcp.gain K x))) := by
  have e1 : np.dotMV K y = .ok (K.mulVec y) := if_pos (by omega)
  have e2 : np.dotVM (K.mulVec y) R = .ok (Mat.vecMul (K.mulVec y) R) := if_pos (by show K.nr = _; rw [k1, hR.1])
  have e3 : np.dotVM (Mat.vecMul (K.mulVec y) R) K = .ok (Mat.vecMul (Mat.vecMul (K.mulVec y) R) K) := if_pos (by show R.nc = _; rw [k1, hR.2.1])
  have e4 : np.dotVV (Mat.vecMul (Mat.vecMul (K.mulVec y) R) K) y = .ok ((Mat.vecMul (Mat.vecMul (K.mulVec y) R) K).dot y) :=
    if_pos (by show K.nc = _; omega)
  have hg : ∀ s, (K.mulVec y).e s = LinOcp.gain K x s := by
    intro s
    show ∑ j ∈ range K.nc, K.e s j * y.e j = rowVal K s x
    unfold rowVal
    exact Finset.sum_congr rfl fun j hj => by rw [hx j (by have := Finset.mem_range.1 hj; omega)]
  unfold stageOf
  rw [quadOf_ok hQ.1 hQ.2.1 hy hx, Py.ok_bind, e1, Py.ok_bind, e2, Py.ok_bind, e3, Py.ok_bind, e4, Py.ok_bind]
  show Except.ok _ = Except.ok _
  have e5 : (Mat.vecMul (Mat.vecMul (K.mulVec y) R) K).dot y = quad R (LinOcp.gain K x) := by
    show ∑ j ∈ range K.nc, (∑ s ∈ range R.nc, (∑ r ∈ range K.nr, (K.mulVec y).e r * R.e r s) * K.e s j) * y.e j = _
    unfold quad
    rw [Finset.sum_comm, hR.1, k1]
    simp only [Finset.sum_mul]
    rw [Finset.sum_comm]
    refine Finset.sum_congr rfl fun s hs => ?_
    rw [Finset.sum_comm]
    refine Finset.sum_congr rfl fun r _ => ?_
    rw [← hg r, ← hg s]
    show _ = _ * _ * ∑ j ∈ range K.nc, K.e s j * y.e j
    rw [Finset.mul_sum]
    exact Finset.sum_congr rfl fun j _ => by ring
  rw [e5]
  norm_num

/-- along the closed loop `x P x` loses exactly the cost of the step -/
theorem riccati_step {S : LinearSystem} {Q R P K : Mat ℝ} (h : DareArgs S Q R)
    {dare : Mat ℝ → Mat ℝ → Mat ℝ → Mat ℝ → Py (Mat ℝ)} (hdare : ∀ P, dare S.A S.B Q R = .ok P → DareSpec S.nx S.nu S.A S.B Q R P)
    (hPK : (LinearSystem.solve_dare dare Q R S).1 = .ok (P, K)) {x y : ℕ → ℝ}
    (hy : ∀ i < S.nx, y i = ∑ j ∈ range S.nx, S.A.e i j * x j + ∑ k ∈ range S.nu, S.B.e i k * ∑ j ∈ range S.nx, K.e k j * x j) :
    quad P y = quad P x - (quad Q x + quad R (LinOcp.gain K x)) := by
  obtain ⟨hP, k1, k2, hl⟩ := solve_dare_ok h hdare hPK
  have e := (hl x (fun _ => LinOcp.gain K x) 1).2.2 fun t ht s _ => by
    obtain rfl : t = 0 := by omega
    rfl
  unfold lqCost at e
  rw [Finset.sum_range_one] at e
  have e2 : quad P (Spec.traj (fun _ => S.A) (fun _ => S.B) (fun _ => Vec.zeros S.nx) x (fun _ => LinOcp.gain K x) 1) = quad P y := by
    refine Math.quad_congr_lt hP.1.1 hP.1.2.1 fun i hi => ?_
    rw [hy i hi]
    show ∑ j ∈ range S.A.nc, S.A.e i j * x j + ∑ j ∈ range S.B.nc, S.B.e i j * rowVal K j x + 0 = _
    rw [h.sys.2.1, h.sys.2.2.2.1, add_zero]
    congr 1
    refine Finset.sum_congr rfl fun k _ => ?_
    unfold rowVal
    rw [k2]
  rw [e2] at e
  change 1 / 2 * (quad Q x + quad R (LinOcp.gain K x)) + 1 / 2 * quad P y = _ at e
  linarith

theorem closedLoop_step {S : LinearSystem} (hS : SystemShape S.nx S.nu S.A S.B (Vec.zeros S.nx)) {K : Mat ℝ} (k1 : K.nr = S.nu) (k2 : K.nc = S.nx)
    {x0 : ℕ → ℝ} {x : ℕ → ℕ → ℝ} (hx : ClosedLoopTraj S K x0 x) {t : ℕ} {y : Vec ℝ} (hy : y.n = S.nx) (hyx : ∀ i < S.nx, y.e i = x t i) :
    np.dotMM S.B K = .ok (S.B.mul K) ∧ np.addM S.A (S.B.mul K) = .ok (S.A.add (S.B.mul K)) ∧
    ∃ z, np.dotMV (S.A.add (S.B.mul K)) y = .ok z ∧ z.n = S.nx ∧ ∀ i < S.nx, z.e i = x (t + 1) i := by
  obtain ⟨a1, a2, b1, b2, -⟩ := hS
  refine ⟨if_pos (by omega), if_pos ⟨by simp [a1, b1], by simp [a2, k2]⟩, _, if_pos (by rw [hy]; exact a2), a1, fun i hi => ?_⟩
  rw [hx.step t i hi]
  show ∑ j ∈ range S.A.nc, (S.A.e i j + (S.B.mul K).e i j) * y.e j = _
  simp only [add_mul, Finset.sum_add_distrib, a2]
  congr 1
  · exact Finset.sum_congr rfl fun j hj => by rw [hyx j (Finset.mem_range.1 hj)]
  · have := rowVal_mul (A := S.B) (B := K) (by omega) i y.e
    unfold rowVal at this
    rw [Mat.mul_nc, k2] at this
    rw [this, b2]
    refine Finset.sum_congr rfl fun k _ => ?_
    congr 1
    exact Finset.sum_congr rfl fun j hj => by rw [hyx j (Finset.mem_range.1 hj)]

theorem closedLoop_values {S : LinearSystem} (hS : SystemShape S.nx S.nu S.A S.B (Vec.zeros S.nx)) {P K : Mat ℝ} (k1 : K.nr = S.nu) (k2 : K.nc = S.nx)
    (p1 : P.nr = S.nx) (p2 : P.nc = S.nx) {x0 : ℕ → ℝ} {x : ℕ → ℕ → ℝ} (hx : ClosedLoopTraj S K x0 x) : ∀ (N t : ℕ) (y : Vec ℝ), y.n = S.nx →
      (∀ i < S.nx, y.e i = x t i) → ∃ l, S.closedLoopFrom K y N = .ok l ∧ l.mapM (quadOf P) = .ok ((List.range (N + 1)).map fun k => quad P (x (t + k))) := by
  intro N
  induction N with
  | zero =>
    intro t y hy hyx
    refine ⟨[y], rfl, ?_⟩
    rw [List.mapM_cons, quadOf_ok p1 p2 hy hyx]
    rfl
  | succ N ih =>
    intro t y hy hyx
    obtain ⟨e1, e2, z, e3, z1, z2⟩ := closedLoop_step hS k1 k2 hx hy hyx
    obtain ⟨l, l1, l2⟩ := ih (t + 1) z z1 z2
    refine ⟨y :: l, ?_, ?_⟩
    · rw [LinearSystem.closedLoopFrom, e1, Py.ok_bind, e2, Py.ok_bind, e3, Py.ok_bind, l1, Py.ok_bind]
      rfl
    · rw [List.mapM_cons, quadOf_ok p1 p2 hy hyx, Py.ok_bind, l2, Py.ok_bind, List.range_succ_eq_map (n := N + 1)]
      simp only [List.map_cons, List.map_map, Nat.add_zero]
      have : ((fun k => quad P (x (t + k))) ∘ Nat.succ) = fun k => quad P (x (t + 1 + k)) := by
        funext k
        show quad P (x (t + (k + 1))) = _
        rw [show t + (k + 1) = t + 1 + k by omega]
      rw [this]
      rfl

theorem assertMinPos_iff {l : List ℝ} (hl : l ≠ []) : assertMinPos l = if ∀ a ∈ l, 0 < a then .ok () else .error .assertionError := by
  cases l with
  | nil => exact absurd rfl hl
  | cons a l =>
    unfold assertMinPos assertTrue
    have : 0 < Voronoi.minL a l ↔ ∀ b ∈ a :: l, 0 < b :=
      ⟨fun h b hb => by
        obtain ⟨m1, m2⟩ := minL_le a l
        rcases List.mem_cons.1 hb with rfl | hb
        · linarith
        · linarith [m2 b hb], fun h => h _ (minL_mem a l)⟩
    simp only [decide_eq_true_eq, this]

/-- the Lyapunov check -/
theorem checkLyapunov_iff {S : LinearSystem} {Q R P K : Mat ℝ} (h : DareArgs S Q R)
    {dare : Mat ℝ → Mat ℝ → Mat ℝ → Mat ℝ → Py (Mat ℝ)} (hdare : ∀ P, dare S.A S.B Q R = .ok P → DareSpec S.nx S.nu S.A S.B Q R P)
    (hPK : (LinearSystem.solve_dare dare Q R S).1 = .ok (P, K)) {x0 : Vec ℝ} (hx0 : x0.n = S.nx) {x : ℕ → ℕ → ℝ} (hx : ClosedLoopTraj S K x0.e x)
    {N : ℕ} (hN : 0 < N) :
    checkLyapunov S P K x0 N = if ∀ t < N, ∃ i < S.nx, x t i ≠ 0 then .ok () else .error .assertionError := by
  obtain ⟨hP, k1, k2, -⟩ := solve_dare_ok h hdare hPK
  obtain ⟨l, l1, l2⟩ := closedLoop_values h.sys k1 k2 hP.1.1 hP.1.2.1 hx N 0 x0 hx0 fun i hi => (hx.start i hi).symm
  simp only [Nat.zero_add] at l2
  let V : List ℝ := (List.range (N + 1)).map fun k => quad P (x k)
  have hV : V.length - 1 = N := by simp [V]
  have hget : ∀ i < N + 1, np.listGet V i = .ok (quad P (x i)) := by
    intro i hi
    have : V[i]? = some (quad P (x i)) := by simp [V, List.getElem?_range hi]
    unfold np.listGet
    rw [this]
  have e3 : ((List.range (V.length - 1)).mapM fun i => do
      let a ← np.listGet V i
      let b ← np.listGet V (i + 1)
      return a - b) = .ok ((List.range N).map fun t => quad Q (x t) + quad R (LinOcp.gain K (x t))) := by
    rw [hV]
    refine mapM_ok fun i hi => ?_
    have hi := List.mem_range.1 hi
    rw [hget i (by omega), Py.ok_bind, hget (i + 1) (by omega), Py.ok_bind]
    show Except.ok _ = Except.ok _
    rw [riccati_step h hdare hPK (hx.step i)]
    congr 1
    ring
  have e4 : checkLyapunov S P K x0 N = assertMinPos ((List.range N).map fun t => quad Q (x t) + quad R (LinOcp.gain K (x t))) := by
    unfold checkLyapunov LinearSystem.simulate_closed_loop
    rw [l1, Py.ok_bind, l2, Py.ok_bind]
    exact (congrArg (· >>= assertMinPos) e3)
  have hQ0 := psd_of_pd h.symQ.1 h.symQ.2.1 h.Qpos
  have hR0 := psd_of_pd h.symR.1 h.symR.2.1 h.Rpos
  rw [e4, assertMinPos_iff (by simp; omega)]
  have : (∀ a ∈ (List.range N).map fun t => quad Q (x t) + quad R (LinOcp.gain K (x t)), 0 < a) ↔ ∀ t < N, ∃ i < S.nx, x t i ≠ 0 := by
    constructor
    · intro ha t ht
      have := ha _ (List.mem_map.2 ⟨t, List.mem_range.2 ht, rfl⟩)
      by_contra hne
      push Not at hne
      rw [quad_zero Q h.symQ.1 h.symQ.2.1 hne, quad_zero R h.symR.1 h.symR.2.1 (x := LinOcp.gain K (x t)) fun s _ => by
        show rowVal K s (x t) = 0
        unfold rowVal
        exact Finset.sum_eq_zero fun j hj => by rw [hne j (by have := Finset.mem_range.1 hj; omega), mul_zero]] at this
      linarith
    · intro ha a hmem
      obtain ⟨t, ht, rfl⟩ := List.mem_map.1 hmem
      have := h.Qpos _ (ha t (List.mem_range.1 ht))
      linarith [hR0 (LinOcp.gain K (x t))]
  simp only [this]

/-- the loop of the cost to go -/
theorem costLoop_iff {S : LinearSystem} {Q R P K : Mat ℝ} (h : DareArgs S Q R)
    {dare : Mat ℝ → Mat ℝ → Mat ℝ → Mat ℝ → Py (Mat ℝ)} (hdare : ∀ P, dare S.A S.B Q R = .ok P → DareSpec S.nx S.nu S.A S.B Q R P)
    (hPK : (LinearSystem.solve_dare dare Q R S).1 = .ok (P, K)) {x0 : ℕ → ℝ} {x : ℕ → ℕ → ℝ} (hx : ClosedLoopTraj S K x0 x) (v : ℝ) :
    ∀ (m t : ℕ) (y : Vec ℝ), y.n = S.nx → (∀ i < S.nx, y.e i = x t i) → quad P (x t) ≤ v →
      costLoop Q R K (S.A.add (S.B.mul K)) (1 / 2 * v) (m + 1) y (1 / 2 * (v - quad P (x t))) =
        if quad P (x (t + m)) ≤ 2e-8 + 1e-5 * (v - quad P (x (t + m))) then .ok () else .error .assertionError := by
  obtain ⟨hP, k1, k2, -⟩ := solve_dare_ok h hdare hPK
  have hQ0 := psd_of_pd h.symQ.1 h.symQ.2.1 h.Qpos
  have hR0 := psd_of_pd h.symR.1 h.symR.2.1 h.Rpos
  have hstep : ∀ t, quad P (x (t + 1)) = quad P (x t) - (quad Q (x t) + quad R (LinOcp.gain K (x t))) := fun t => riccati_step h hdare hPK (hx.step t)
  have hmono : ∀ t k, quad P (x (t + k)) ≤ quad P (x t) := by
    intro t k
    induction k with
    | zero => exact le_refl _
    | succ k ih =>
      have := hstep (t + k)
      rw [← Nat.add_assoc, this]
      linarith [hQ0 (x (t + k)), hR0 (LinOcp.gain K (x (t + k)))]
  have hclose : ∀ t, quad P (x t) ≤ v → (Voronoi.isclose (1 / 2 * v) (1 / 2 * (v - quad P (x t))) = true ↔
      quad P (x t) ≤ 2e-8 + 1e-5 * (v - quad P (x t))) := by
    intro t ht
    unfold Voronoi.isclose
    rw [decide_eq_true_eq, show 1 / 2 * v - 1 / 2 * (v - quad P (x t)) = 1 / 2 * quad P (x t) by ring,
      abs_of_nonneg (by linarith [hP.2.1 (x t)]), abs_of_nonneg (by linarith)]
    constructor <;> intro <;> linarith
  intro m
  induction m with
  | zero =>
    intro t y hy hyx hv
    rw [costLoop]
    by_cases hc : quad P (x t) ≤ 2e-8 + 1e-5 * (v - quad P (x t))
    · rw [if_pos ((hclose t hv).2 hc), Nat.add_zero, if_pos hc]
    · rw [if_neg (fun e => hc ((hclose t hv).1 e)), Nat.add_zero, if_neg hc]
      obtain ⟨-, -, z, e3, z1, z2⟩ := closedLoop_step h.sys k1 k2 hx hy hyx
      rw [stageOf_ok h.symQ h.symR k1 k2 hy hyx, Py.ok_bind, e3, Py.ok_bind]
      rfl
  | succ m ih =>
    intro t y hy hyx hv
    rw [costLoop]
    by_cases hc : quad P (x t) ≤ 2e-8 + 1e-5 * (v - quad P (x t))
    · rw [if_pos ((hclose t hv).2 hc), if_pos]
      have := hmono t (m + 1)
      linarith
    · rw [if_neg (fun e => hc ((hclose t hv).1 e))]
      obtain ⟨-, -, z, e3, z1, z2⟩ := closedLoop_step h.sys k1 k2 hx hy hyx
      rw [stageOf_ok h.symQ h.symR k1 k2 hy hyx, Py.ok_bind, e3, Py.ok_bind]
      have e4 : 1 / 2 * (v - quad P (x t)) + 1 / 2 * (quad Q (x t) + quad R (LinOcp.gain K (x t))) = 1 / 2 * (v - quad P (x (t + 1))) := by
        rw [hstep t]; ring
      rw [e4, ih (t + 1) z z1 z2 (le_trans (hmono t 1) hv), show t + 1 + m = t + (m + 1) by omega]

theorem checkCostToGo_iff {S : LinearSystem} {Q R P K : Mat ℝ} (h : DareArgs S Q R)
    {dare : Mat ℝ → Mat ℝ → Mat ℝ → Mat ℝ → Py (Mat ℝ)} (hdare : ∀ P, dare S.A S.B Q R = .ok P → DareSpec S.nx S.nu S.A S.B Q R P)
    (hPK : (LinearSystem.solve_dare dare Q R S).1 = .ok (P, K)) {x0 : Vec ℝ} (hx0 : x0.n = S.nx) {x : ℕ → ℕ → ℝ} (hx : ClosedLoopTraj S K x0.e x) (m : ℕ) :
    checkCostToGo S Q R P K x0 (m + 1) = if quad P (x m) ≤ 2e-8 + 1e-5 * (quad P x0.e - quad P (x m)) then .ok () else .error .assertionError := by
  obtain ⟨hP, k1, k2, -⟩ := solve_dare_ok h hdare hPK
  have hs : ∀ i < S.nx, x0.e i = x 0 i := fun i hi => (hx.start i hi).symm
  obtain ⟨e1, e2, -⟩ := closedLoop_step h.sys k1 k2 hx hx0 hs
  have hq : quad P (x 0) = quad P x0.e := Math.quad_congr_lt hP.1.1 hP.1.2.1 hx.start
  have := costLoop_iff h hdare hPK hx (quad P x0.e) m 0 x0 hx0 hs hq.le
  unfold checkCostToGo
  rw [e1, Py.ok_bind, e2, Py.ok_bind, quadOf_ok hP.1.1 hP.1.2.1 hx0 fun _ _ => rfl, Py.ok_bind]
  rw [hq, sub_self, mul_zero, Nat.zero_add] at this
  rw [← this]
  norm_num

/-- `l` is a non-empty list of eigenvalues of the `n` by `n` matrix `P`: the contract of `np.linalg.eig(P)[0]` for a symmetric `P` -/
def RealEigs (n : ℕ) (P : Mat ℝ) (l : List ℝ) : Prop :=
  l ≠ [] ∧ ∀ a ∈ l, ∃ v : ℕ → ℝ, (∃ i < n, v i ≠ 0) ∧ ∀ i < n, rowVal P i v = a * v i

/-- C180: the body of the loop of `test_solve_dare_and_simulate_closed_loop`, for any controllable system, any positive definite weights and any initial
states.  `P` is positive definite, and the body fails only by a failing assertion.  It passes exactly if the first `N` states of the first simulation
are not zero and the cost to go that is left after `max_iter - 1` steps of the second is within the tolerances of `np.isclose`.  The second holds if
`max_iter` is large enough, and with the 1000 iterations of the test if `z P z ≤ 87 z Q z` for all `z`.  With `N = 0` there are no differences to compare, and `min` raises.
Missing: the body does not pass for all controllable systems, see `C180_false`. -/
theorem C180_partial (S : LinearSystem) (Q R P K : Mat ℝ) (h : DareArgs S Q R)
    (dare : Mat ℝ → Mat ℝ → Mat ℝ → Mat ℝ → Py (Mat ℝ)) (hdare : ∀ P, dare S.A S.B Q R = .ok P → DareSpec S.nx S.nu S.A S.B Q R P)
    (hPK : (LinearSystem.solve_dare dare Q R S).1 = .ok (P, K)) (eig : Mat ℝ → Py (List ℝ)) (l : List ℝ) (hl : eig P = .ok l) (hle : RealEigs S.nx P l)
    (x0 y0 : Vec ℝ) (hx0 : x0.n = S.nx) (hy0 : y0.n = S.nx) (x y : ℕ → ℕ → ℝ) (hx : ClosedLoopTraj S K x0.e x) (hy : ClosedLoopTraj S K y0.e y) :
    (∀ z, (∃ i < S.nx, z i ≠ 0) → 0 < quad P z) ∧
    (∀ N > 0, ∀ m, lqrBody dare eig S Q R x0 y0 N (m + 1) =
      if (∀ t < N, ∃ i < S.nx, x t i ≠ 0) ∧ quad P (y m) ≤ 2e-8 + 1e-5 * (quad P y0.e - quad P (y m)) then .ok () else .error .assertionError) ∧
    (∀ N > 0, (∀ t < N, ∃ i < S.nx, x t i ≠ 0) → ∃ m0, ∀ m ≥ m0, lqrBody dare eig S Q R x0 y0 N (m + 1) = .ok ()) ∧
    ((∀ z, quad P z ≤ 87 * quad Q z) → (∀ t < 10, ∃ i < S.nx, x t i ≠ 0) → lqrBody dare eig S Q R x0 y0 10 1000 = .ok ()) ∧
    ∀ m, lqrBody dare eig S Q R x0 y0 0 m = .error .valueError := by
  obtain ⟨hP, k1, k2, -⟩ := solve_dare_ok h hdare hPK
  have hQ0 := psd_of_pd h.symQ.1 h.symQ.2.1 h.Qpos
  have hR0 := psd_of_pd h.symR.1 h.symR.2.1 h.Rpos
  have hpd : ∀ z, (∃ i < S.nx, z i ≠ 0) → 0 < quad P z := by
    intro z hz
    have := riccati_step h hdare hPK (x := z) (y := fun i => ∑ j ∈ range S.nx, S.A.e i j * z j + ∑ k ∈ range S.nu, S.B.e i k * ∑ j ∈ range S.nx, K.e k j * z j)
      fun i _ => rfl
    linarith [h.Qpos z hz, hR0 (LinOcp.gain K z), hP.2.1 (fun i => ∑ j ∈ range S.nx, S.A.e i j * z j + ∑ k ∈ range S.nu, S.B.e i k * ∑ j ∈ range S.nx, K.e k j * z j)]
  have heig : assertMinPos l = .ok () := by
    rw [assertMinPos_iff hle.1, if_pos]
    intro a ha
    obtain ⟨v, ⟨k, hk, hv⟩, hav⟩ := hle.2 a ha
    have e : quad P v = a * ∑ i ∈ range S.nx, v i ^ 2 := by
      unfold quad
      rw [hP.1.1, Finset.mul_sum]
      refine Finset.sum_congr rfl fun i hi => ?_
      have := hav i (Finset.mem_range.1 hi)
      unfold rowVal at this
      have e2 : ∑ j ∈ range P.nc, v i * P.e i j * v j = v i * ∑ j ∈ range P.nc, P.e i j * v j := by
        rw [Finset.mul_sum]
        exact Finset.sum_congr rfl fun j _ => by ring
      rw [e2, this]
      ring
    have h1 := hpd v ⟨k, hk, hv⟩
    rw [e] at h1
    exact pos_of_mul_pos_left h1 (Finset.sum_nonneg fun i _ => sq_nonneg _)
  have hbody : ∀ N > 0, ∀ m, lqrBody dare eig S Q R x0 y0 N (m + 1) =
      if (∀ t < N, ∃ i < S.nx, x t i ≠ 0) ∧ quad P (y m) ≤ 2e-8 + 1e-5 * (quad P y0.e - quad P (y m)) then .ok () else .error .assertionError := by
    intro N hN m
    unfold lqrBody
    rw [hPK, Py.ok_bind]
    show (eig P >>= fun l => assertMinPos l >>= fun _ => checkLyapunov S P K x0 N >>= fun _ => checkCostToGo S Q R P K y0 (m + 1)) = _
    rw [hl, Py.ok_bind, heig, Py.ok_bind, checkLyapunov_iff h hdare hPK hx0 hx hN, checkCostToGo_iff h hdare hPK hy0 hy m]
    by_cases c1 : ∀ t < N, ∃ i < S.nx, x t i ≠ 0
    · rw [if_pos c1, Py.ok_bind]
      by_cases c2 : quad P (y m) ≤ 2e-8 + 1e-5 * (quad P y0.e - quad P (y m))
      · rw [if_pos c2, if_pos ⟨c1, c2⟩]
      · rw [if_neg c2, if_neg fun e => c2 e.2]
    · rw [if_neg c1]
      show Except.error _ = _
      rw [if_neg fun e => c1 e.1]
  have hq0 : quad P (y 0) = quad P y0.e := Math.quad_congr_lt hP.1.1 hP.1.2.1 hy.start
  have hstep : ∀ t, quad P (y (t + 1)) = quad P (y t) - (quad Q (y t) + quad R (LinOcp.gain K (y t))) := fun t => riccati_step h hdare hPK (hy.step t)
  have hmono : ∀ m k, quad P (y (m + k)) ≤ quad P (y m) := by
    intro m k
    induction k with
    | zero => exact le_refl _
    | succ k ih =>
      rw [← Nat.add_assoc, hstep (m + k)]
      linarith [hQ0 (y (m + k)), hR0 (LinOcp.gain K (y (m + k)))]
  refine ⟨hpd, hbody, fun N hN hN2 => ?_, fun h87 hN => ?_, fun m => ?_⟩
  · have hlim := (C98 S Q R P K h dare hdare hPK y0.e y hy).1
    have ht : Tendsto (fun t => quad P (y t)) atTop (𝓝 0) := by
      have e : ∀ t, quad P (y t) = ∑ i ∈ range S.nx, ∑ j ∈ range S.nx, y t i * P.e i j * y t j := fun t => by
        unfold quad; rw [hP.1.1, hP.1.2.1]
      simp only [e]
      have : (0 : ℝ) = ∑ i ∈ range S.nx, ∑ j ∈ range S.nx, 0 * P.e i j * 0 := by simp
      rw [this]
      exact tendsto_finset_sum _ fun i hi => tendsto_finset_sum _ fun j hj =>
        ((hlim i (Finset.mem_range.1 hi)).mul_const _).mul (hlim j (Finset.mem_range.1 hj))
    obtain ⟨m0, hm0⟩ := Filter.eventually_atTop.1 (ht.eventually (gt_mem_nhds (show (0 : ℝ) < 2e-8 by norm_num)))
    refine ⟨m0, fun m hm => ?_⟩
    refine (hbody N hN m).trans (if_pos ⟨hN2, ?_⟩)
    have := hmono 0 m
    rw [Nat.zero_add, hq0] at this
    have := hm0 m hm
    linarith
  · have hdec : ∀ t, quad P (y t) ≤ (86 / 87) ^ t * quad P y0.e := by
      intro t
      induction t with
      | zero => rw [pow_zero, one_mul, hq0]
      | succ t ih =>
        rw [hstep t, pow_succ]
        have := h87 (y t)
        linarith [hR0 (LinOcp.gain K (y t))]
    refine (hbody 10 (by norm_num) 999).trans (if_pos ⟨hN, ?_⟩)
    have h1 := hdec 999
    have h2 : ((86 : ℝ) / 87) ^ 999 ≤ 9.9e-6 := by
      rw [show 999 = 37 * 27 by norm_num, pow_mul]
      have a1 : ((86 : ℝ) / 87) ^ 37 ≤ 0.652 := by norm_num
      exact (pow_le_pow_left₀ (by positivity) a1 27).trans (by norm_num)
    have h3 := hP.2.1 y0.e
    have h4 : (86 / 87) ^ 999 * quad P y0.e ≤ 9.9e-6 * quad P y0.e := mul_le_mul_of_nonneg_right h2 h3
    have h5 := h1.trans h4
    clear h1 h2 h4
    linarith
  · unfold lqrBody
    rw [hPK, Py.ok_bind]
    show (eig P >>= fun l => assertMinPos l >>= fun _ => checkLyapunov S P K x0 0 >>= fun _ => checkCostToGo S Q R P K y0 m) = _
    rw [hl, Py.ok_bind, heig, Py.ok_bind]
    have h0 : S.simulate_closed_loop x0 0 K = .ok [x0] := rfl
    unfold checkLyapunov
    rw [h0, Py.ok_bind, List.mapM_cons, quadOf_ok hP.1.1 hP.1.2.1 hx0 fun i _ => rfl]
    rfl

end Verif.Props
