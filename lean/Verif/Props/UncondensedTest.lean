import Verif.Model.TestController
import Verif.Props.PolyhedronSets
import Verif.Props.MpcLqrGap

/- The constraint set that the test of the linear controller builds (test_controllers.py:63-73). -/
namespace Verif.Props
open Finset Spec Dyn Control TestSuite

/-- a product is a new object, its inequalities are those of both factors -/
theorem product_fresh {m n : ℕ} {p q r : Poly} (hp : p.Inv m) (hq : q.Inv n) (h : p.cartesian_product q = .ok r) :
    r._empty = none ∧ r.A.nr = p.A.nr + q.A.nr := by
  have : p.cartesian_product q = .ok (Poly.fresh (Mat.bdiag [p.A, q.A]) (p.b.append q.b) (Mat.bdiag [p.C, q.C]) (p.d.append q.d)) := by
    obtain ⟨p1, p2, p3, p4⟩ := hp
    obtain ⟨q1, q2, q3, q4⟩ := hq
    unfold Poly.cartesian_product
    refine Poly.init_eq_ok.2 ⟨p.b.append q.b, rfl, ?_, Or.inr ⟨_, p.d.append q.d, rfl, rfl, ?_, rfl⟩⟩
    · show p.b.n + q.b.n = p.A.nr + (q.A.nr + 0); omega
    · show p.d.n + q.d.n = p.C.nr + (q.C.nr + 0); omega
  rw [this] at h
  cases h
  exact ⟨rfl, show p.A.nr + (q.A.nr + 0) = _ by omega⟩

/-- `add_equality(C, d)` without indices -/
theorem add_equality_all {n : ℕ} {p : Poly} (hp : p.Inv n) (C : Mat ℝ) (d : Vec ℝ) (hC : C.nc = n) (hd : d.n = C.nr) :
    ∃ q, Poly.runOn p (Poly.add_equality C (.d1 d)) = .ok q ∧ q.Inv n ∧ q.A.nr = p.A.nr ∧ ∀ z, q.Mem z ↔ p.Mem z ∧ ∀ i < C.nr, rowVal C i z = d.e i := by
  obtain ⟨-, -, h1, h2⟩ := C02 n p hp C (.d1 d) none (by simp)
  obtain ⟨q, hq⟩ := h1.2 ⟨rfl, hd, by simp [hC]⟩
  obtain ⟨h3, v, hv, h4⟩ := h2 q hq
  cases hv
  obtain ⟨_, -, -, -, e⟩ := (Poly.add_equality_ok hp C (.d1 d) none q).1 hq
  refine ⟨q, runOn_ok.2 hq, h3, by rw [e]; rfl, fun z => ?_⟩
  rw [h4 z]
  refine and_congr_right fun _ => forall_congr' fun i => forall_congr' fun _ => ?_
  have : ∑ k ∈ range C.nc, C.e i k * z ((List.range n).getD k 0) = rowVal C i z :=
    sum_congr rfl fun k hk => by rw [Poly.getD_range (hC ▸ mem_range.1 hk)]
  rw [Option.getD_none, this]

/-- the equality that the loop adds: `A x(t-1) + B u(t-1) - x(t) = 0` -/
theorem step_row {S : LinearSystem} (hS : SystemShape S.nx S.nu S.A S.B (Vec.zeros S.nx)) (o : ℕ) :
    ∃ b C, np.hstack [S.A, S.B, (Mat.eye S.nx).neg, Mat.zeros S.nx S.nu] = .ok b ∧
      assignLast (Mat.zeros S.nx (o + 2 * (S.nx + S.nu))) (2 * (S.nx + S.nu)) b = .ok C ∧ C.nr = S.nx ∧ C.nc = o + 2 * (S.nx + S.nu) ∧
      ∀ i < S.nx, ∀ z, rowVal C i z = ∑ j ∈ range S.nx, S.A.e i j * z (o + j) + ∑ s ∈ range S.nu, S.B.e i s * z (o + S.nx + s)
        - z (o + S.nx + S.nu + i) := by
  obtain ⟨a1, a2, b1, b2, -⟩ := hS
  have e1 : np.hstack2 (Mat.eye (K := ℝ) S.nx).neg (Mat.zeros S.nx S.nu) = .ok ((Mat.eye S.nx).neg.happ (Mat.zeros S.nx S.nu)) := if_pos rfl
  have e2 : np.hstack2 S.B ((Mat.eye S.nx).neg.happ (Mat.zeros S.nx S.nu)) = .ok (S.B.happ ((Mat.eye S.nx).neg.happ (Mat.zeros S.nx S.nu))) := if_pos b1
  have e3 : np.hstack2 S.A (S.B.happ ((Mat.eye S.nx).neg.happ (Mat.zeros S.nx S.nu)))
      = .ok (S.A.happ (S.B.happ ((Mat.eye S.nx).neg.happ (Mat.zeros S.nx S.nu)))) := if_pos (a1.trans b1.symm)
  set b := S.A.happ (S.B.happ ((Mat.eye S.nx).neg.happ (Mat.zeros S.nx S.nu))) with hb
  have hbc : b.nc = 2 * (S.nx + S.nu) := by
    show S.A.nc + (S.B.nc + (S.nx + S.nu)) = _
    omega
  refine ⟨b, ⟨S.nx, o + 2 * (S.nx + S.nu), fun i j => if o + 2 * (S.nx + S.nu) - b.nc ≤ j then b.e i (j - (o + 2 * (S.nx + S.nu) - b.nc)) else 0⟩,
    ?_, if_pos ⟨a1, (by show b.nc = min _ (o + _); omega)⟩, rfl, rfl, fun i hi z => ?_⟩
  · unfold np.hstack np.hstack np.hstack np.hstack
    rw [Py.ok_bind, e1, Py.ok_bind, e2, Py.ok_bind, e3]
  · have ho : o + 2 * (S.nx + S.nu) - b.nc = o := by omega
    show ∑ j ∈ range (o + 2 * (S.nx + S.nu)), (if o + 2 * (S.nx + S.nu) - b.nc ≤ j then _ else (0 : ℝ)) * z j = _
    rw [ho, sum_range_add, ← hbc]
    rw [sum_eq_zero fun j hj => by rw [if_neg (by have := mem_range.1 hj; omega), zero_mul], zero_add]
    have : ∀ j ∈ range b.nc, (if o ≤ o + j then b.e i (o + j - o) else 0) * z (o + j) = b.e i j * z (o + j) := fun j _ => by
      rw [if_pos (by omega), Nat.add_sub_cancel_left]
    rw [sum_congr rfl this]
    show rowVal b i (fun j => z (o + j)) = _
    have key : ∀ (A B : Mat ℝ) (y : ℕ → ℝ), rowVal (A.happ B) i y = rowVal A i y + rowVal B i (fun j => y (A.nc + j)) := by
      intro A B y
      unfold rowVal
      rw [Mat.happ_nc, sum_range_add]
      congr 1
      · exact sum_congr rfl fun j hj => by rw [Mat.happ_e_lt _ _ _ (mem_range.1 hj)]
      · exact sum_congr rfl fun j _ => by rw [Mat.happ_e_add]
    rw [hb, key, key, key]
    have z1 : ∀ y, rowVal (Mat.zeros S.nx S.nu) i y = 0 := fun y => sum_eq_zero fun j _ => zero_mul _
    have z2 : ∀ y, rowVal (Mat.eye (K := ℝ) S.nx).neg i y = - y i := by
      intro y
      show ∑ j ∈ range S.nx, -(if i = j then (1 : ℝ) else 0) * y j = _
      simp [hi]
    rw [z1, z2, a2, b2]
    unfold rowVal
    rw [a2, b2]
    have f1 : ∀ s, o + (S.nx + s) = o + S.nx + s := fun s => by omega
    have f2 : o + (S.nx + (S.nu + i)) = o + S.nx + S.nu + i := by omega
    simp only [f1, f2]
    ring

/-- what the loop of the test adds -/
theorem appendSteps_spec {S : LinearSystem} (hS : SystemShape S.nx S.nu S.A S.B (Vec.zeros S.nx)) {D : Poly} (hD : D.Inv (S.nx + S.nu)) (k : ℕ) :
    ∀ (t : ℕ) (p : Poly), p.Inv ((t + 1) * (S.nx + S.nu)) → ∃ q, appendSteps S D k p = .ok q ∧ q.Inv ((t + 1 + k) * (S.nx + S.nu)) ∧ p.A.nr ≤ q.A.nr ∧
      ∀ z : ℕ → ℝ, q.Mem z ↔ p.Mem z ∧ ∀ j < k, D.Mem (fun i => z ((t + 1 + j) * (S.nx + S.nu) + i)) ∧
        ∀ i < S.nx, z ((t + 1 + j) * (S.nx + S.nu) + i) = ∑ l ∈ range S.nx, S.A.e i l * z ((t + j) * (S.nx + S.nu) + l)
          + ∑ s ∈ range S.nu, S.B.e i s * z ((t + j) * (S.nx + S.nu) + S.nx + s) := by
  induction k with
  | zero => exact fun t p hp => ⟨p, rfl, hp, le_rfl, fun z => by simp⟩
  | succ k ih =>
    intro t p hp
    set w := S.nx + S.nu with hw
    obtain ⟨p1, h1, h2, h3⟩ := C14 _ _ p D hp hD
    have hsz : (t + 1) * w + w = t * w + 2 * w := by ring
    rw [hsz] at h2
    obtain ⟨b, C, c1, c2, c3, c4, c5⟩ := step_row hS (t * w)
    obtain ⟨p2, d1, d2, d3, d4⟩ := add_equality_all h2 C (Vec.zeros S.nx) c4 c3.symm
    have d2' : p2.Inv ((t + 1 + 1) * w) := by
      have : (t + 1 + 1) * w = t * w + 2 * w := by ring
      rw [this]; exact d2
    obtain ⟨q, e1, e2, e3, e4⟩ := ih (t + 1) p2 d2'
    refine ⟨q, ?_, by rw [show t + 1 + (k + 1) = t + 1 + 1 + k by ring]; exact e2, ?_, fun z => ?_⟩
    · unfold appendSteps
      rw [h1, Py.ok_bind, c1, Py.ok_bind, h2.1, c2, Py.ok_bind, d1, Py.ok_bind]
      exact e1
    · have := (product_fresh hp hD h1).2
      omega
    · rw [e4, d4, h3, c3]
      have hrow : (∀ i < S.nx, rowVal C i z = (Vec.zeros (K := ℝ) S.nx).e i) ↔ ∀ i < S.nx, z ((t + 1) * w + i)
          = ∑ l ∈ range S.nx, S.A.e i l * z (t * w + l) + ∑ s ∈ range S.nu, S.B.e i s * z (t * w + S.nx + s) := by
        refine forall_congr' fun i => forall_congr' fun hi => ?_
        rw [c5 i hi]
        have : t * w + S.nx + S.nu + i = (t + 1) * w + i := by rw [hw]; ring
        rw [this]
        show _ = (0 : ℝ) ↔ _
        constructor <;> intro h <;> linarith
      rw [hrow]
      constructor
      · rintro ⟨⟨⟨a1, a2⟩, a3⟩, a4⟩
        refine ⟨a1, fun j hj => ?_⟩
        rcases j with _ | j
        · exact ⟨a2, a3⟩
        · have := a4 j (by omega)
          rw [show t + 1 + 1 + j = t + 1 + (j + 1) by ring, show t + 1 + j = t + (j + 1) by ring] at this
          exact this
      · rintro ⟨a1, a2⟩
        refine ⟨⟨⟨a1, (a2 0 (by omega)).1⟩, (a2 0 (by omega)).2⟩, fun j hj => ?_⟩
        have := a2 (j + 1) (by omega)
        rw [show t + 1 + (j + 1) = t + 1 + 1 + j by ring, show t + (j + 1) = t + 1 + j by ring] at this
        exact this

/-- the set that the test builds: `x(0)` is the given state, the stages lie in `D`, the dynamics hold up to `x(N-1)`, and `x(N)` lies in the terminal set;
`x(N)` is not tied to the other variables -/
theorem uncondensed_spec {S : LinearSystem} (hS : SystemShape S.nx S.nu S.A S.B (Vec.zeros S.nx)) {D X_N : Poly} (hD : D.Inv (S.nx + S.nu)) (hX : X_N.Inv S.nx)
    {N : ℕ} (hN : 0 < N) (x : Vec ℝ) (hx : x.n = S.nx) :
    ∃ p, uncondensed S N D X_N x = .ok p ∧ p.Inv (N * (S.nx + S.nu) + S.nx) ∧ p._empty = none ∧ D.A.nr ≤ p.A.nr ∧
      ∀ z : ℕ → ℝ, p.Mem z ↔ (∀ i < S.nx, z i = x.e i) ∧ (∀ t < N, D.Mem fun i => z (t * (S.nx + S.nu) + i)) ∧
        (∀ t, t + 1 < N → ∀ i < S.nx, z ((t + 1) * (S.nx + S.nu) + i) = ∑ l ∈ range S.nx, S.A.e i l * z (t * (S.nx + S.nu) + l)
          + ∑ s ∈ range S.nu, S.B.e i s * z (t * (S.nx + S.nu) + S.nx + s)) ∧
        X_N.Mem fun i => z (N * (S.nx + S.nu) + i) := by
  set w := S.nx + S.nu with hw
  have hC : np.hstack [Mat.eye S.nx, Mat.zeros S.nx S.nu] = .ok ((Mat.eye (K := ℝ) S.nx).happ (Mat.zeros S.nx S.nu)) := by
    have e : np.hstack2 (Mat.eye (K := ℝ) S.nx) (Mat.zeros S.nx S.nu) = .ok ((Mat.eye (K := ℝ) S.nx).happ (Mat.zeros S.nx S.nu)) := if_pos rfl
    unfold np.hstack np.hstack
    rw [Py.ok_bind, e]
  obtain ⟨p1, a1, a2, a3, a4⟩ := add_equality_all hD ((Mat.eye (K := ℝ) S.nx).happ (Mat.zeros S.nx S.nu)) x rfl hx
  obtain ⟨p2, b1, b2, b3, b4⟩ := appendSteps_spec hS hD (N - 1) 0 p1 (by simpa using a2)
  have b2' : p2.Inv (N * w) := by
    have : 0 + 1 + (N - 1) = N := by omega
    rw [this] at b2; exact b2
  obtain ⟨p, c1, c2, c3⟩ := C14 _ _ p2 X_N b2' hX
  obtain ⟨f1, f2⟩ := product_fresh b2' hX c1
  refine ⟨p, ?_, c2, f1, by omega, fun z => ?_⟩
  · unfold uncondensed
    rw [hC, Py.ok_bind, a1, Py.ok_bind, b1, Py.ok_bind]
    exact c1
  · have hrow : (∀ i < S.nx, rowVal ((Mat.eye (K := ℝ) S.nx).happ (Mat.zeros S.nx S.nu)) i z = x.e i) ↔ ∀ i < S.nx, z i = x.e i := by
      refine forall_congr' fun i => forall_congr' fun hi => ?_
      have : rowVal ((Mat.eye (K := ℝ) S.nx).happ (Mat.zeros S.nx S.nu)) i z = z i := by
        show ∑ j ∈ range (S.nx + S.nu), ((Mat.eye (K := ℝ) S.nx).happ (Mat.zeros S.nx S.nu)).e i j * z j = _
        rw [sum_range_add, sum_eq_zero (s := range S.nu) fun j _ => ?_, add_zero]
        · rw [sum_congr rfl fun j hj => by rw [Mat.happ_e_lt _ _ _ (mem_range.1 hj)]]
          show ∑ j ∈ range S.nx, (if i = j then (1 : ℝ) else 0) * z j = _
          simp [hi]
        · have := Mat.happ_e_add (Mat.eye (K := ℝ) S.nx) (Mat.zeros S.nx S.nu) i j
          rw [show S.nx + j = (Mat.eye (K := ℝ) S.nx).nc + j from rfl, this]
          exact zero_mul _
      rw [this]
    rw [c3, b4, a4, show (((Mat.eye (K := ℝ) S.nx).happ (Mat.zeros S.nx S.nu)).nr) = S.nx from rfl, hrow]
    constructor
    · rintro ⟨⟨⟨d1, d2⟩, d3⟩, d4⟩
      refine ⟨d2, fun t ht => ?_, fun t ht => ?_, d4⟩
      · rcases t with _ | t
        · simpa using d1
        · have := (d3 t (by omega)).1
          rwa [show 0 + 1 + t = t + 1 by ring] at this
      · have := (d3 t (by omega)).2
        rwa [show 0 + 1 + t = t + 1 by ring, Nat.zero_add] at this
    · rintro ⟨d1, d2, d3, d4⟩
      refine ⟨⟨⟨by simpa using d2 0 hN, d1⟩, fun j hj => ?_⟩, d4⟩
      rw [show 0 + 1 + j = j + 1 by ring, Nat.zero_add]
      exact ⟨d2 (j + 1) (by omega), d3 j (by omega)⟩

/-- `(x(0), u(0), …, x(N-1), u(N-1), x(N))` in one vector -/
def stackedPlan (nx nu N : ℕ) (x u : ℕ → ℕ → ℝ) : ℕ → ℝ := fun k =>
  if k < N * (nx + nu) then pair nx (x (k / (nx + nu))) (u (k / (nx + nu))) (k % (nx + nu)) else x N (k - N * (nx + nu))

theorem stackedPlan_stage {nx nu N : ℕ} {x u : ℕ → ℕ → ℝ} {t i : ℕ} (ht : t < N) (hi : i < nx + nu) :
    stackedPlan nx nu N x u (t * (nx + nu) + i) = pair nx (x t) (u t) i := by
  unfold stackedPlan
  have h1 : t * (nx + nu) + i < N * (nx + nu) := by
    have : (t + 1) * (nx + nu) ≤ N * (nx + nu) := Nat.mul_le_mul_right _ ht
    rw [Nat.add_mul, Nat.one_mul] at this
    omega
  have h2 : (t * (nx + nu) + i) / (nx + nu) = t := by
    rw [Nat.mul_comm, Nat.mul_add_div (by omega), Nat.div_eq_of_lt hi, Nat.add_zero]
  have h3 : (t * (nx + nu) + i) % (nx + nu) = i := by
    rw [Nat.mul_comm, Nat.mul_add_mod, Nat.mod_eq_of_lt hi]
  rw [if_pos h1, h2, h3]

theorem stackedPlan_last {nx nu N : ℕ} {x u : ℕ → ℕ → ℝ} (i : ℕ) : stackedPlan nx nu N x u (N * (nx + nu) + i) = x N i := by
  unfold stackedPlan
  rw [if_neg (by omega), Nat.add_sub_cancel_left]

/-- C161, what holds of it: the set of the test is empty exactly when the terminal set is empty or no inputs satisfy the constraints of the stages.  It contains
the stacked trajectory of all feasible inputs, so no inputs are feasible if it is empty.  When the domain and the terminal set are bounded by a number that is not too large, `empty`
answers correctly.  Missing: the converse, see `C161_false`. -/
theorem C161_partial (S : LinearSystem) (N : ℕ) (Q R P : Mat ℝ) (D X_N : Poly) (hS : SystemShape S.nx S.nu S.A S.B (Vec.zeros S.nx)) (hN : 0 < N)
    (hD : D.Inv (S.nx + S.nu)) (hDC : D.C.nr = 0) (hX : X_N.Inv S.nx) (hXC : X_N.C.nr = 0) (x : Vec ℝ) (hx : x.n = S.nx) :
    ∃ p, uncondensed S N D X_N x = .ok p ∧ p.Inv (N * (S.nx + S.nu) + S.nx) ∧
      ((∃ z, p.Mem z) ↔ (∃ u, ∀ t < N, (problem S N Q R P D X_N).Stage ((problem S N Q R P D X_N).x x.e u t) (u t)) ∧ ∃ y, X_N.Mem y) ∧
      (∀ u, (problem S N Q R P D X_N).Feas x.e u → p.Mem (stackedPlan S.nx S.nu N ((problem S N Q R P D X_N).x x.e u) u)) ∧
      ((¬ ∃ z, p.Mem z) → ¬ ∃ u, (problem S N Q R P D X_N).Feas x.e u) ∧
      ∀ L, LibSpec L → 0 < D.A.nr → (∃ M : ℝ, (∀ y, D.Mem y → ∀ j < S.nx + S.nu, |y j| ≤ M) ∧ (∀ y, X_N.Mem y → ∀ j < S.nx, |y j| ≤ M) ∧
        (N * (S.nx + S.nu) + S.nx : ℕ) * M ^ 2 < 1 / (1e-7 : ℝ) ^ 2 - 1) →
        ∃ e q, Poly.empty L p = (.ok e, q) ∧ (e = true ↔ ¬ ∃ z, p.Mem z) := by
  obtain ⟨p, h1, h2, h3, h4, h5⟩ := uncondensed_spec hS hD hX hN x hx
  set w := S.nx + S.nu with hw
  set pr := problem S N Q R P D X_N with hpr
  have hDm : ∀ y y' : ℕ → ℝ, (∀ j < w, y j = y' j) → (D.Mem y ↔ IneqHold D.A D.b y') := fun y y' e =>
    (mem_noeq hDC y).trans (forall_congr' fun i => forall_congr' fun _ => by rw [rowVal_congr' i fun j hj => e j (hD.1 ▸ hj)])
  have hstep : ∀ (y v : ℕ → ℝ) i, pr.next y v i = ∑ l ∈ range S.nx, S.A.e i l * y l + ∑ s ∈ range S.nu, S.B.e i s * v s := by
    intro y v i
    show ∑ j ∈ range S.A.nc, _ + ∑ j ∈ range S.B.nc, _ + 0 = _
    rw [hS.2.1, hS.2.2.2.1, add_zero]
    rfl
  -- a trajectory in the domains, and any state of the terminal set
  have hto : ∀ u y, (∀ t < N, pr.Stage (pr.x x.e u t) (u t)) → X_N.Mem y →
      p.Mem (stackedPlan S.nx S.nu N (fun t => if t < N then pr.x x.e u t else y) u) := by
    intro u y hu hy
    refine (h5 _).2 ⟨fun i hi => ?_, fun t ht => ?_, fun t ht i hi => ?_, ?_⟩
    · have := stackedPlan_stage (nx := S.nx) (nu := S.nu) (x := fun t => if t < N then pr.x x.e u t else y) (u := u) hN (i := i) (by omega)
      rw [Nat.zero_mul, Nat.zero_add] at this
      rw [this, pair, if_pos hi, if_pos hN]
      rfl
    · refine (hDm _ _ fun j hj => ?_).2 (hu t ht)
      rw [stackedPlan_stage ht hj, if_pos ht]
      rfl
    · rw [stackedPlan_stage ht (by omega), pair, if_pos hi, if_pos ht, LinOcp.x_succ, hstep]
      congr 1
      · refine sum_congr rfl fun l hl => ?_
        have := mem_range.1 hl
        rw [stackedPlan_stage (by omega) (by omega), pair, if_pos this, if_pos (by omega)]
      · refine sum_congr rfl fun s hs => ?_
        have := mem_range.1 hs
        rw [Nat.add_assoc, stackedPlan_stage (by omega) (by omega), pair, if_neg (by omega), Nat.add_sub_cancel_left]
    · have : (fun i => stackedPlan S.nx S.nu N (fun t => if t < N then pr.x x.e u t else y) u (N * w + i)) = y := by
        funext i
        rw [stackedPlan_last, if_neg (by omega)]
      rw [this]
      exact hy
  have hback : ∀ z, p.Mem z → ∀ t < N, pr.Stage (pr.x x.e (fun t s => z (t * w + S.nx + s)) t) fun s => z (t * w + S.nx + s) := by
    intro z hz
    obtain ⟨a1, a2, a3, -⟩ := (h5 z).1 hz
    have hxz : ∀ t < N, ∀ i < S.nx, pr.x x.e (fun t s => z (t * w + S.nx + s)) t i = z (t * w + i) := by
      intro t
      induction t with
      | zero =>
        intro _ i hi
        rw [Nat.zero_mul, Nat.zero_add]
        exact (a1 i hi).symm
      | succ t ih =>
        intro ht i hi
        rw [LinOcp.x_succ, hstep, a3 t ht i hi]
        congr 1
        exact sum_congr rfl fun l hl => by rw [ih (by omega) l (mem_range.1 hl)]
    intro t ht
    refine (hDm _ _ fun j hj => ?_).1 (a2 t ht)
    show _ = pair S.nx _ _ j
    unfold pair
    split
    · next h => exact (hxz t ht j h).symm
    · next h =>
      show _ = z (t * w + S.nx + (j - S.nx))
      rw [Nat.add_assoc, Nat.add_sub_cancel' (by omega)]
  have hiff : (∃ z, p.Mem z) ↔ (∃ u, ∀ t < N, pr.Stage (pr.x x.e u t) (u t)) ∧ ∃ y, X_N.Mem y :=
    ⟨fun ⟨z, hz⟩ => ⟨⟨_, hback z hz⟩, _, ((h5 z).1 hz).2.2.2⟩, fun ⟨⟨u, hu⟩, y, hy⟩ => ⟨_, hto u y hu hy⟩⟩
  have hfe : ∀ u, pr.Feas x.e u → p.Mem (stackedPlan S.nx S.nu N (pr.x x.e u) u) := by
    intro u hu
    have := hto u (pr.x x.e u N) hu.1 ((mem_noeq hXC _).2 hu.2)
    have e : stackedPlan S.nx S.nu N (fun t => if t < N then pr.x x.e u t else pr.x x.e u N) u = stackedPlan S.nx S.nu N (pr.x x.e u) u := by
      funext k
      unfold stackedPlan
      split
      · next h =>
        simp only []
        rw [if_pos]
        exact Nat.div_lt_of_lt_mul (by rw [Nat.mul_comm]; exact h)
      · simp only []
        rw [if_neg (by omega)]
    rwa [e] at this
  refine ⟨p, h1, h2, hiff, hfe, fun h ⟨u, hu⟩ => h ⟨_, hfe u hu⟩, fun L hL hr ⟨M, m1, m2, m3⟩ => ?_⟩
  obtain ⟨-, c1, c2⟩ := C15 L hL _ p h2 (fun e he => by rw [h3] at he; cases he)
  by_cases hne : ∃ z, p.Mem z
  · obtain ⟨q, hq⟩ := c2 (.inl (by omega)) (by
      obtain ⟨z, hz⟩ := hne
      obtain ⟨-, a2, -, a4⟩ := (h5 z).1 hz
      refine ⟨z, hz, Real.sqrt_lt_sqrt (sum_nonneg fun _ _ => sq_nonneg _) (lt_of_le_of_lt ?_ m3)⟩
      have : ∀ k ∈ range (N * w + S.nx), z k ^ 2 ≤ M ^ 2 := by
        intro k hk
        have hk := mem_range.1 hk
        rw [sq_le_sq]
        refine le_trans ?_ (le_abs_self _)
        rcases Nat.lt_or_ge k (N * w) with hlt | hge
        · have hw0 : 0 < w := Nat.pos_of_ne_zero fun h0 => by rw [h0] at hlt; omega
          have := m1 _ (a2 (k / w) (Nat.div_lt_of_lt_mul (by rw [Nat.mul_comm]; exact hlt))) (k % w) (Nat.mod_lt _ hw0)
          rwa [Nat.mul_comm, Nat.div_add_mod] at this
        · have := m2 _ a4 (k - N * w) (by omega)
          rwa [Nat.add_sub_cancel' hge] at this
      refine (sum_le_sum this).trans ?_
      rw [sum_const, card_range, nsmul_eq_mul])
    exact ⟨false, q, hq, by simp [hne]⟩
  · obtain ⟨q, hq⟩ := c1 fun z hz => hne ⟨z, hz⟩
    exact ⟨true, q, hq, by simp [hne]⟩

end Verif.Props
