import Verif.Props.Riccati
import Verif.Props.MpcConvex
import Verif.Props.MpcHorizon

/- The linear controller and the problem with an infinite horizon: C139 of properties.jsonl. -/
namespace Verif.Props
open Finset Spec Dyn Control Filter Topology

/-- the inputs `u` keep state and input in `D` forever -/
def Forever (S : LinearSystem) (D : Poly) (x0 : ℕ → ℝ) (u : ℕ → ℕ → ℝ) : Prop :=
  ∀ t, IneqHold D.A D.b (pair S.nx (linTraj S x0 u t) (u t))

/-- `V` is the least cost over the infinite horizon of inputs that satisfy the constraints forever -/
def IsInfValue (S : LinearSystem) (Q R : Mat ℝ) (D : Poly) (x0 : ℕ → ℝ) (V : ℝ) : Prop :=
  (∃ u, Forever S D x0 u ∧ ∀ T, runCost Q R (linTraj S x0 u) u T ≤ V) ∧
  ∀ u C, Forever S D x0 u → (∀ T, runCost Q R (linTraj S x0 u) u T ≤ C) → V ≤ C

/-- `u` up to time `N`, then `K x` -/
theorem then_gain (S : LinearSystem) (K : Mat ℝ) (x0 : ℕ → ℝ) (u : ℕ → ℕ → ℝ) (N : ℕ) : ∃ v : ℕ → ℕ → ℝ, (∀ t < N, v t = u t) ∧
    (∀ t ≤ N, linTraj S x0 v t = linTraj S x0 u t) ∧ ∀ t ≥ N, v t = LinOcp.gain K (linTraj S x0 v t) := by
  let X : ℕ → ℕ → ℝ := fun t => Nat.rec x0 (fun t y => Spec.affine S.A S.B (Vec.zeros S.nx) y (if t < N then u t else LinOcp.gain K y)) t
  let v : ℕ → ℕ → ℝ := fun t => if t < N then u t else LinOcp.gain K (X t)
  have hX : ∀ t, linTraj S x0 v t = X t := by
    intro t
    induction t with
    | zero => rfl
    | succ t ih =>
      show Spec.affine S.A S.B (Vec.zeros S.nx) (linTraj S x0 v t) _ = _
      rw [ih]
  refine ⟨v, fun t ht => if_pos ht, fun t => ?_, fun t ht => ?_⟩
  · induction t with
    | zero => intro _; rfl
    | succ t ih =>
      intro ht
      show Spec.affine S.A S.B (Vec.zeros S.nx) (linTraj S x0 v t) (v t) = Spec.affine S.A S.B (Vec.zeros S.nx) (linTraj S x0 u t) (u t)
      rw [ih (by omega), show v t = u t from if_pos (by omega)]
  · rw [hX]
    exact if_neg (by omega)

theorem runCost_add (S : LinearSystem) (Q R : Mat ℝ) (x0 : ℕ → ℝ) (u : ℕ → ℕ → ℝ) (t T : ℕ) :
    runCost Q R (linTraj S x0 u) u (t + T) = runCost Q R (linTraj S x0 u) u t
      + runCost Q R (linTraj S (linTraj S x0 u t) fun r => u (t + r)) (fun r => u (t + r)) T := by
  unfold runCost
  rw [Finset.sum_range_add, mul_add]
  simp only [linTraj_add]

theorem runCost_congr (Q R : Mat ℝ) {x x' u u' : ℕ → ℕ → ℝ} {T : ℕ} (hx : ∀ t < T, x t = x' t) (hu : ∀ t < T, u t = u' t) :
    runCost Q R x u T = runCost Q R x' u' T := by
  unfold runCost
  congr 1
  exact Finset.sum_congr rfl fun t ht => by rw [hx t (mem_range.1 ht), hu t (mem_range.1 ht)]

theorem runCost_mono {Q R : Mat ℝ} (hQ : ∀ x, 0 ≤ quad Q x) (hR : ∀ u, 0 ≤ quad R u) (x u : ℕ → ℕ → ℝ) {s t : ℕ} (h : s ≤ t) :
    runCost Q R x u s ≤ runCost Q R x u t := by
  unfold runCost
  have := Finset.sum_le_sum_of_subset_of_nonneg (Finset.range_mono h) fun i _ _ => add_nonneg (hQ (x i)) (hR (u i))
  linarith

/-- a trajectory that costs at most `C` comes close to the origin within a number of steps that depends on `C` only -/
theorem enters {S : LinearSystem} {Q R : Mat ℝ} (h : DareArgs S Q R) {r : ℝ} (hr : 0 < r) (C : ℝ) : ∃ T, ∀ (x0 : ℕ → ℝ) (u : ℕ → ℕ → ℝ),
    runCost Q R (linTraj S x0 u) u T ≤ C → ∃ t < T, ∀ i < S.nx, |linTraj S x0 u t i| ≤ r := by
  obtain ⟨a, ha, hb⟩ := Math.quad_lower h.symQ.1 h.symQ.2.1 h.Qpos
  have hR0 := psd_of_pd h.symR.1 h.symR.2.1 h.Rpos
  have hδ : 0 < a * r ^ 2 := by positivity
  obtain ⟨T, hT⟩ := exists_nat_gt (2 * C / (a * r ^ 2))
  refine ⟨T, fun x0 u hC => ?_⟩
  by_contra hno
  push Not at hno
  have hs : ∑ t ∈ range T, (a * r ^ 2) ≤ ∑ t ∈ range T, (quad Q (linTraj S x0 u t) + quad R (u t)) := by
    refine Finset.sum_le_sum fun t ht => ?_
    obtain ⟨i, hi, hlt⟩ := hno t (mem_range.1 ht)
    have h1 := hb (linTraj S x0 u t) i hi
    have h2 : r ^ 2 ≤ linTraj S x0 u t i ^ 2 := by
      rw [← sq_abs (linTraj S x0 u t i)]
      exact pow_le_pow_left₀ hr.le hlt.le 2
    nlinarith [hR0 (u t)]
  rw [Finset.sum_const, Finset.card_range, nsmul_eq_mul] at hs
  unfold runCost at hC
  rw [div_lt_iff₀ hδ] at hT
  linarith

theorem affine_half (S : LinearSystem) (x y u v : ℕ → ℝ) (i : ℕ) :
    Spec.affine S.A S.B (Vec.zeros S.nx) (fun i => 1 / 2 * x i + 1 / 2 * y i) (fun s => 1 / 2 * u s + 1 / 2 * v s) i
      = 1 / 2 * Spec.affine S.A S.B (Vec.zeros S.nx) x u i + 1 / 2 * Spec.affine S.A S.B (Vec.zeros S.nx) y v i := by
  have row : ∀ (A : Mat ℝ) (x y : ℕ → ℝ), ∑ j ∈ range A.nc, A.e i j * (1 / 2 * x j + 1 / 2 * y j)
      = 1 / 2 * ∑ j ∈ range A.nc, A.e i j * x j + 1 / 2 * ∑ j ∈ range A.nc, A.e i j * y j := by
    intro A x y
    simp only [Finset.mul_sum, ← Finset.sum_add_distrib]
    exact Finset.sum_congr rfl fun j _ => by ring
  simp only [Spec.affine, row, Vec.zeros]
  ring

/-- the cost of half the sum of two inputs -/
theorem runCost_half (S : LinearSystem) (Q R : Mat ℝ) (x0 : ℕ → ℝ) (u v : ℕ → ℕ → ℝ) (T : ℕ) (hQ : ∀ x, 0 ≤ quad Q x) :
    linTraj S x0 (fun t s => 1 / 2 * u t s + 1 / 2 * v t s) = (fun t i => 1 / 2 * linTraj S x0 u t i + 1 / 2 * linTraj S x0 v t i) ∧
    runCost Q R (linTraj S x0 fun t s => 1 / 2 * u t s + 1 / 2 * v t s) (fun t s => 1 / 2 * u t s + 1 / 2 * v t s) T
        + 1 / 8 * ∑ t ∈ range T, quad R (fun s => u t s - v t s)
      ≤ 1 / 2 * runCost Q R (linTraj S x0 u) u T + 1 / 2 * runCost Q R (linTraj S x0 v) v T := by
  have e : linTraj S x0 (fun t s => 1 / 2 * u t s + 1 / 2 * v t s) = fun t i => 1 / 2 * linTraj S x0 u t i + 1 / 2 * linTraj S x0 v t i := by
    funext t
    induction t with
    | zero => funext i; show x0 i = 1 / 2 * x0 i + 1 / 2 * x0 i; ring
    | succ t ih =>
      funext i
      show Spec.affine S.A S.B (Vec.zeros S.nx) (linTraj S x0 (fun t s => 1 / 2 * u t s + 1 / 2 * v t s) t) (fun s => 1 / 2 * u t s + 1 / 2 * v t s) i
        = 1 / 2 * Spec.affine S.A S.B (Vec.zeros S.nx) (linTraj S x0 u t) (u t) i + 1 / 2 * Spec.affine S.A S.B (Vec.zeros S.nx) (linTraj S x0 v t) (v t) i
      rw [ih]
      exact affine_half S _ _ _ _ i
  refine ⟨e, ?_⟩
  have half : ∀ (M : Mat ℝ) (a b : ℕ → ℝ), quad M (fun i => 1 / 2 * a i + 1 / 2 * b i) + 1 / 4 * quad M (fun i => a i - b i) = 1 / 2 * quad M a + 1 / 2 * quad M b := by
    intro M a b
    have e1 : quad M (fun i => 1 / 2 * a i + 1 / 2 * b i) = bil M (fun i => 1 / 2 * a i + 1 / 2 * b i) (fun i => 1 / 2 * a i + 1 / 2 * b i) := rfl
    have e2 : quad M (fun i => a i - b i) = bil M (fun i => 1 * a i + (-1) * b i) (fun i => 1 * a i + (-1) * b i) := by
      have : (fun i => a i - b i) = fun i => 1 * a i + (-1) * b i := by funext i; ring
      rw [this]
      rfl
    have e3 : quad M a = bil M a a := rfl
    have e4 : quad M b = bil M b b := rfl
    rw [e1, e2, e3, e4]
    simp only [bil_left, bil_right]
    ring
  rw [e]
  unfold runCost
  have k : ∑ t ∈ range T, (quad Q (fun i => 1 / 2 * linTraj S x0 u t i + 1 / 2 * linTraj S x0 v t i) + quad R (fun s => 1 / 2 * u t s + 1 / 2 * v t s))
      + ∑ t ∈ range T, 1 / 4 * quad R (fun s => u t s - v t s)
      ≤ ∑ t ∈ range T, (1 / 2 * (quad Q (linTraj S x0 u t) + quad R (u t)) + 1 / 2 * (quad Q (linTraj S x0 v t) + quad R (v t))) := by
    rw [← Finset.sum_add_distrib]
    refine Finset.sum_le_sum fun t _ => ?_
    have h1 := half Q (linTraj S x0 u t) (linTraj S x0 v t)
    have h2 := half R (u t) (v t)
    have h3 := hQ fun i => linTraj S x0 u t i - linTraj S x0 v t i
    linarith
  have k1 : ∑ t ∈ range T, (1 / 2 * (quad Q (linTraj S x0 u t) + quad R (u t)) + 1 / 2 * (quad Q (linTraj S x0 v t) + quad R (v t)))
      = 1 / 2 * ∑ t ∈ range T, (quad Q (linTraj S x0 u t) + quad R (u t)) + 1 / 2 * ∑ t ∈ range T, (quad Q (linTraj S x0 v t) + quad R (v t)) := by
    rw [Finset.sum_add_distrib, Finset.mul_sum, Finset.mul_sum]
  rw [k1, ← Finset.mul_sum] at k
  linarith

/-- the inputs with the least cost are unique -/
theorem infValue_unique {S : LinearSystem} {Q R : Mat ℝ} (h : DareArgs S Q R) {D : Poly} {x0 : ℕ → ℝ} {V : ℝ} (hV : IsInfValue S Q R D x0 V)
    {u v : ℕ → ℕ → ℝ} (hu : Forever S D x0 u ∧ ∀ T, runCost Q R (linTraj S x0 u) u T ≤ V)
    (hv : Forever S D x0 v ∧ ∀ T, runCost Q R (linTraj S x0 v) v T ≤ V) (t s : ℕ) (hs : s < S.nu) : u t s = v t s := by
  have hQ0 := psd_of_pd h.symQ.1 h.symQ.2.1 h.Qpos
  have hR0 := psd_of_pd h.symR.1 h.symR.2.1 h.Rpos
  by_contra hne
  have hpos : 0 < quad R (fun s => u t s - v t s) := h.Rpos _ ⟨s, hs, sub_ne_zero.2 hne⟩
  have key := hV.2 (fun t s => 1 / 2 * u t s + 1 / 2 * v t s) (V - 1 / 8 * quad R (fun s => u t s - v t s)) (fun τ => ?_) (fun T => ?_)
  · linarith
  · rw [(runCost_half S Q R x0 u v 0 hQ0).1]
    have := ineq_comb (a := 1 / 2) (c := 1 / 2) (by norm_num) (by norm_num) (by norm_num) (hu.1 τ) (hv.1 τ)
    convert this using 1
    funext i
    simp only [pair]
    split_ifs <;> rfl
  · refine (runCost_mono hQ0 hR0 _ _ (show T ≤ T + (t + 1) by omega)).trans ?_
    have h1 := (runCost_half S Q R x0 u v (T + (t + 1)) hQ0).2
    have h2 := hu.2 (T + (t + 1))
    have h3 := hv.2 (T + (t + 1))
    have h4 := Finset.single_le_sum (f := fun t => quad R (fun s => u t s - v t s)) (fun i _ => hR0 _) (mem_range.2 (show t < T + (t + 1) by omega))
    linarith

/-- inputs that are feasible for the controller can be continued forever, with at most the cost of the controller -/
theorem forever_of_feas {S : LinearSystem} {N : ℕ} {Q R P K : Mat ℝ} {D X_N : Poly} (hd : DareArgs S Q R)
    {dare : Mat ℝ → Mat ℝ → Mat ℝ → Mat ℝ → Py (Mat ℝ)} (hdare : ∀ P, dare S.A S.B Q R = .ok P → DareSpec S.nx S.nu S.A S.B Q R P)
    (hPK : (LinearSystem.solve_dare dare Q R S).1 = .ok (P, K)) (hI : (problem S N Q R P D X_N).TerminalInvariant K) {x0 : ℕ → ℝ}
    {u : ℕ → ℕ → ℝ} (hu : (problem S N Q R P D X_N).Feas x0 u) : ∃ v, (∀ t < N, v t = u t) ∧ Forever S D x0 v ∧
      ∀ T, runCost Q R (linTraj S x0 v) v T ≤ (problem S N Q R P D X_N).cost x0 u := by
  obtain ⟨hP, -, -, hl⟩ := solve_dare_ok hd hdare hPK
  have hQ0 := psd_of_pd hd.symQ.1 hd.symQ.2.1 hd.Qpos
  have hR0 := psd_of_pd hd.symR.1 hd.symR.2.1 hd.Rpos
  obtain ⟨v, v1, v2, v3⟩ := then_gain S K x0 u N
  have hin : ∀ s, IneqHold X_N.A X_N.b (linTraj S x0 v (N + s)) := by
    intro s
    induction s with
    | zero =>
      rw [Nat.add_zero, v2 N le_rfl]
      exact hu.2
    | succ s ih =>
      have := (hI _ ih).2
      rw [← v3 (N + s) (by omega)] at this
      exact this
  refine ⟨v, v1, fun t => ?_, fun T => ?_⟩
  · by_cases ht : t < N
    · rw [v2 t ht.le, v1 t ht]
      exact hu.1 t ht
    · obtain ⟨s, rfl⟩ := Nat.exists_eq_add_of_le (show N ≤ t by omega)
      have := (hI _ (hin s)).1
      rw [← v3 (N + s) (by omega)] at this
      exact this
  · refine (runCost_mono hQ0 hR0 _ _ (show T ≤ N + T by omega)).trans ?_
    rw [runCost_add]
    have e1 : runCost Q R (linTraj S x0 v) v N = runCost Q R (linTraj S x0 u) u N := runCost_congr Q R (fun t ht => v2 t ht.le) v1
    have e2 : runCost Q R (linTraj S (linTraj S x0 v N) fun r => v (N + r)) (fun r => v (N + r)) T
        + 1 / 2 * quad P (linTraj S (linTraj S x0 v N) (fun r => v (N + r)) T) = 1 / 2 * quad P (linTraj S x0 v N) :=
      (hl (linTraj S x0 v N) (fun r => v (N + r)) T).2.2 fun t _ q _ => by
        show v (N + t) q = rowVal K q (linTraj S (linTraj S x0 v N) (fun r => v (N + r)) t)
        rw [linTraj_add, v3 (N + t) (by omega)]
        rfl
    rw [v2 N le_rfl] at e2 ⊢
    have e3 : (problem S N Q R P D X_N).cost x0 u = runCost Q R (linTraj S x0 u) u N + 1 / 2 * quad P (linTraj S x0 u N) := rfl
    rw [e1, e3]
    linarith [hP.2.1 (linTraj S (linTraj S x0 u N) (fun r => v (N + r)) T)]

/-- inputs that satisfy the constraints forever and enter the terminal set before `N` are not better than the feasible inputs of the controller -/
theorem feas_of_forever {S : LinearSystem} {N : ℕ} {Q R P K : Mat ℝ} {D X_N : Poly} (hd : DareArgs S Q R)
    {dare : Mat ℝ → Mat ℝ → Mat ℝ → Mat ℝ → Py (Mat ℝ)} (hdare : ∀ P, dare S.A S.B Q R = .ok P → DareSpec S.nx S.nu S.A S.B Q R P)
    (hPK : (LinearSystem.solve_dare dare Q R S).1 = .ok (P, K)) (hI : (problem S N Q R P D X_N).TerminalInvariant K) {x0 : ℕ → ℝ}
    {u : ℕ → ℕ → ℝ} (hu : Forever S D x0 u) {C : ℝ} (hC : ∀ T, runCost Q R (linTraj S x0 u) u T ≤ C) {t : ℕ} (ht : t ≤ N)
    (hX : IneqHold X_N.A X_N.b (linTraj S x0 u t)) :
    ∃ v, (problem S N Q R P D X_N).Feas x0 v ∧ (problem S N Q R P D X_N).cost x0 v ≤ C := by
  obtain ⟨-, -, -, hl⟩ := solve_dare_ok hd hdare hPK
  obtain ⟨v, v1, v2, v3⟩ := then_gain S K x0 u t
  have hin : ∀ s, IneqHold X_N.A X_N.b (linTraj S x0 v (t + s)) := by
    intro s
    induction s with
    | zero =>
      rw [Nat.add_zero, v2 t le_rfl]
      exact hX
    | succ s ih =>
      have := (hI _ ih).2
      rw [← v3 (t + s) (by omega)] at this
      exact this
  obtain ⟨m, rfl⟩ := Nat.exists_eq_add_of_le ht
  refine ⟨v, ⟨fun s _ => ?_, hin m⟩, ?_⟩
  · show IneqHold D.A D.b (pair S.nx (linTraj S x0 v s) (v s))
    by_cases hs : s < t
    · rw [v2 s hs.le, v1 s hs]
      exact hu s
    · obtain ⟨r, rfl⟩ := Nat.exists_eq_add_of_le (show t ≤ s by omega)
      have := (hI _ (hin r)).1
      rw [← v3 (t + r) (by omega)] at this
      exact this
  · have e0 : (problem S (t + m) Q R P D X_N).cost x0 v = runCost Q R (linTraj S x0 v) v (t + m) + 1 / 2 * quad P (linTraj S x0 v (t + m)) := rfl
    have e1 : runCost Q R (linTraj S x0 v) v t = runCost Q R (linTraj S x0 u) u t := runCost_congr Q R (fun s hs => v2 s hs.le) v1
    have e2 : runCost Q R (linTraj S (linTraj S x0 v t) fun r => v (t + r)) (fun r => v (t + r)) m
        + 1 / 2 * quad P (linTraj S (linTraj S x0 v t) (fun r => v (t + r)) m) = 1 / 2 * quad P (linTraj S x0 v t) :=
      (hl (linTraj S x0 v t) (fun r => v (t + r)) m).2.2 fun s _ q _ => by
        show v (t + s) q = rowVal K q (linTraj S (linTraj S x0 v t) (fun r => v (t + r)) s)
        rw [linTraj_add, v3 (t + s) (by omega)]
        rfl
    have e3 := dare_lower hd hdare hPK (linTraj S x0 u t) (fun r => u (t + r)) (C - runCost Q R (linTraj S x0 u) u t) fun T => by
      have := hC (t + T)
      rw [runCost_add] at this
      linarith
    rw [linTraj_add, v2 t le_rfl] at e2
    rw [e0, runCost_add, e1, v2 t le_rfl]
    linarith

/-- C139: let `P`, `K` be the answer of `solve_dare`, and let the terminal set be invariant and admissible for `K` and contain a neighbourhood of the origin.
Inputs of the controller can always be continued forever with at most the cost `V`.  For each cost `C` below the threshold of the solver there is a
horizon from which on the controller solves the problem with infinite horizon, at all states from which `C` is enough: it answers, `V` is the
least cost over the infinite horizon, and the closed loop is the only solution of the problem with infinite horizon and follows the first plan. -/
theorem C139 (L : Lib) (hL : LibSpec L) (S : LinearSystem) (Q R P K : Mat ℝ) (D X_N : Poly) (h : MpcArgs S 1 Q R P D X_N) (hd : DareArgs S Q R)
    (dare : Mat ℝ → Mat ℝ → Mat ℝ → Mat ℝ → Py (Mat ℝ)) (hdare : ∀ P, dare S.A S.B Q R = .ok P → DareSpec S.nx S.nu S.A S.B Q R P)
    (hPK : (LinearSystem.solve_dare dare Q R S).1 = .ok (P, K)) (hI : (problem S 1 Q R P D X_N).TerminalInvariant K) :
    (∀ N > 0, ∃ c, MPC.init S N Q R P D X_N = .ok c ∧ ∀ (x0 : Vec ℝ) us V, x0.n = S.nx → c.feedforward L x0 = .ok (some us, some V) →
      ∃ u, (∀ t < N, u t = inputsOf us t) ∧ Forever S D x0.e u ∧ ∀ T, runCost Q R (linTraj S x0.e u) u T ≤ V) ∧
    ((∃ r > 0, ∀ x : ℕ → ℝ, (∀ i < S.nx, |x i| ≤ r) → IneqHold X_N.A X_N.b x) →
      ∀ C < (1 / (1e-7 : ℝ) ^ 2 - 1) / 2, ∃ N0, ∀ N ≥ N0, 0 < N → ∃ c, MPC.init S N Q R P D X_N = .ok c ∧
        ∀ x0 : Vec ℝ, x0.n = S.nx → (∃ u, Forever S D x0.e u ∧ ∀ T, runCost Q R (linTraj S x0.e u) u T ≤ C) →
          ∃ us V, c.feedforward L x0 = .ok (some us, some V) ∧ IsInfValue S Q R D x0.e V ∧
            ∃ x u : ℕ → Vec ℝ, x 0 = x0 ∧ (∀ T, ClosedLoop L c (problem S N Q R P D X_N) x u T) ∧
              Forever S D x0.e (fun t => (u t).e) ∧ (∀ T, runCost Q R (fun t => (x t).e) (fun t => (u t).e) T ≤ V) ∧
              (∀ v, Forever S D x0.e v → (∀ T, runCost Q R (linTraj S x0.e v) v T ≤ V) → ∀ t, ∀ s < S.nu, v t s = (u t).e s) ∧
              ∀ t < N, ∀ s < S.nu, (u t).e s = inputsOf us t s) := by
  have ans : ∀ {N : ℕ} {c : MPC} {x0 : Vec ℝ} {us V}, 0 < N → MPC.init S N Q R P D X_N = .ok c → x0.n = S.nx →
      c.feedforward L x0 = .ok (some us, some V) →
      (problem S N Q R P D X_N).Opt x0.e (inputsOf us) ∧ V = (problem S N Q R P D X_N).cost x0.e (inputsOf us) := by
    intro N c x0 us V hN hc hx hV
    obtain ⟨c', h1, h2⟩ := C64_partial L hL _ _ _ _ _ _ _ (MpcArgs.horizon h hN)
    rw [hc] at h1
    cases h1
    rcases (h2 x0 hx).1 with k | ⟨us0, V0, k, -, -, ko, kV, -⟩
    · rw [hV] at k; cases k
    · rw [hV] at k
      cases k
      exact ⟨ko, kV⟩
  refine ⟨fun N hN => ?_, ?_⟩
  · obtain ⟨c, h1, -⟩ := C64_partial L hL _ _ _ _ _ _ _ (MpcArgs.horizon h hN)
    refine ⟨c, h1, fun x0 us V hx hV => ?_⟩
    obtain ⟨ko, kV⟩ := ans hN h1 hx hV
    rw [kV]
    exact forever_of_feas (N := N) hd hdare hPK hI ko.1
  · rintro ⟨r, hr, hball⟩ C hC
    obtain ⟨N0, hN0⟩ := enters hd hr C
    refine ⟨N0, fun N hN hpos => ?_⟩
    have ha := MpcArgs.horizon h hpos
    obtain ⟨c, h1, h2⟩ := C64_partial L hL _ _ _ _ _ _ _ ha
    refine ⟨c, h1, fun x0 hx ⟨u0, f0, c0⟩ => ?_⟩
    have fin : ∀ u C', Forever S D x0.e u → (∀ T, runCost Q R (linTraj S x0.e u) u T ≤ C') → C' ≤ C →
        ∃ v, (problem S N Q R P D X_N).Feas x0.e v ∧ (problem S N Q R P D X_N).cost x0.e v ≤ C' := by
      intro u C' f hT hle
      obtain ⟨t, ht, hb⟩ := hN0 x0.e u ((hT N0).trans hle)
      exact feas_of_forever (N := N) hd hdare hPK hI f hT (by omega) (hball _ hb)
    obtain ⟨v0, g1, g2⟩ := fin u0 C f0 c0 le_rfl
    obtain ⟨us, V, hV⟩ := (h2 x0 hx).2.2 ⟨v0, g1, g2.trans_lt hC⟩
    obtain ⟨ko, kV⟩ := ans hpos h1 hx hV
    have hVC : V ≤ C := by rw [kV]; exact (ko.2 v0 g1).trans g2
    obtain ⟨w, w1, w2, w3⟩ := forever_of_feas (N := N) hd hdare hPK hI ko.1
    rw [← kV] at w3
    have hval : IsInfValue S Q R D x0.e V := by
      refine ⟨⟨w, w2, w3⟩, fun u C' f hT => ?_⟩
      by_cases hle : C' ≤ C
      · obtain ⟨v, f1, f2⟩ := fin u C' f hT hle
        rw [kV]
        exact (ko.2 v f1).trans f2
      · linarith
    have hdec := terminalDecrease_of_dare S hd.fresh hd.nx N Q R P K D X_N ha dare hdare hPK
    obtain ⟨x, u, x1, x2, x3⟩ := (C97 L hL S N Q R P K D X_N ha hd.Qpos hI hdec c h1).2 x0 us V hx hV (hVC.trans_lt hC)
    have htr : ∀ t, linTraj S x0.e (fun t => (u t).e) t = (x t).e := by
      intro t
      induction t with
      | zero => rw [x1]; rfl
      | succ t ih =>
        show Spec.affine S.A S.B (Vec.zeros S.nx) (linTraj S x0.e (fun t => (u t).e) t) (u t).e = _
        rw [ih, x3]
    have htr' : linTraj S x0.e (fun t => (u t).e) = fun t => (x t).e := funext htr
    have f1 : Forever S D x0.e (fun t => (u t).e) := by
      intro t
      rw [htr]
      exact ((C68 L hL S N Q R P K D X_N ha hI c h1 x u (t + 1) (x2 _) ⟨inputsOf us, x1 ▸ ko.1⟩).2 t (by omega)).2
    have f2 : ∀ T, runCost Q R (fun t => (x t).e) (fun t => (u t).e) T ≤ V := by
      intro T
      have := (C69 L hL S N Q R P K D X_N ha hI hdec c h1 x u T (x2 T)).2.1 us V (x1 ▸ hV)
      unfold runCost
      rw [Finset.mul_sum]
      exact this
    have uniq : ∀ v, Forever S D x0.e v → (∀ T, runCost Q R (linTraj S x0.e v) v T ≤ V) → ∀ t, ∀ s < S.nu, v t s = (u t).e s :=
      fun v hv1 hv2 t s hs => infValue_unique hd hval ⟨hv1, hv2⟩ ⟨f1, fun T => by rw [htr']; exact f2 T⟩ t s hs
    refine ⟨us, V, hV, hval, x, u, x1, x2, f1, f2, uniq, fun t ht s hs => ?_⟩
    rw [← uniq w w2 w3 t s hs, w1 t ht]

/-- C139 on the integrator with `|x| ≤ 5`, `|u| ≤ 1` and the terminal set `|x| ≤ 1`: from `3` the controllers with long horizons return the least cost over
the infinite horizon -/
example (L : Lib) (hL : LibSpec L) : ∃ N0, ∀ N ≥ N0, 0 < N → ∃ c us V, MPC.init integrator N half1 one1 one1 boxXU interval1 = .ok c ∧
    c.feedforward L ⟨1, fun _ => 3⟩ = .ok (some us, some V) ∧ IsInfValue integrator half1 one1 boxXU (fun _ => 3) V := by
  obtain ⟨dare, hdare, K, k1, -, k3, hK⟩ := integrator_dare
  have e : ∀ x, ∀ s < 1, LinOcp.gain K x s = LinOcp.gain gain1 x s := by
    intro x s hs
    obtain rfl : s = 0 := by omega
    simp [LinOcp.gain, rowVal, k3, gain1, hK]
  have hI : (problem integrator 1 half1 one1 one1 boxXU interval1).TerminalInvariant K := by
    have hp := problem_shape (integrator_args 1 (by norm_num)).toMpcSizes
    intro x hx
    obtain ⟨g1, g2⟩ := integrator_invariant 1 x hx
    refine ⟨(LinOcp.stage_congr hp (fun _ _ => rfl) (e x)).2 g1, ?_⟩
    rw [LinOcp.next_congr hp (fun _ _ => rfl) (e x)]
    exact g2
  have hd : DareArgs integrator half1 one1 := by
    refine ⟨⟨rfl, rfl, rfl, rfl, rfl⟩, rfl, one_pos, ⟨rfl, rfl, fun _ _ _ _ => rfl⟩, weights1.symR, fun x ⟨i, hi, hx⟩ => ?_, weights1.Rpos⟩
    have hi' : i < 1 := hi
    obtain rfl : i = 0 := by omega
    rw [half1_quad]
    positivity
  have hF : (problem integrator 3 half1 one1 one1 boxXU interval1).Feas (fun _ => 3) fun t _ => if t < 2 then -1 else 0 := by
    refine ⟨fun t ht i hi => ?_, fun i hi => ?_⟩
    · have hi' : i < 4 := hi
      have ht' : t < 3 := ht
      interval_cases t <;> interval_cases i <;>
        norm_num [problem, integrator, boxXU, Poly.fresh, rowVal, pair, LinOcp.x, Spec.traj, Spec.affine, one1, Finset.sum_range_succ]
    · have hi' : i < 2 := hi
      interval_cases i <;>
        norm_num [problem, integrator, interval1, Poly.fresh, rowVal, LinOcp.x, Spec.traj, Spec.affine, one1, Finset.sum_range_succ]
  have hC : (problem integrator 3 half1 one1 one1 boxXU interval1).cost (fun _ => 3) (fun t _ => if t < 2 then -1 else 0)
      < (1 / (1e-7 : ℝ) ^ 2 - 1) / 2 := by
    rw [LinOcp.cost_eq]
    simp only [LinOcp.stageCost, problem, half1_quad, one1_quad]
    norm_num [integrator, LinOcp.x, Spec.traj, Spec.affine, one1, Finset.sum_range_succ]
  obtain ⟨w, -, w2, w3⟩ := forever_of_feas (N := 3) hd hdare k1 hI hF
  obtain ⟨N0, hN0⟩ := (C139 L hL integrator half1 one1 one1 K boxXU interval1 (integrator_args 1 (by norm_num)) hd dare hdare k1 hI).2
    ⟨1, one_pos, fun x hx i hi => by
      have hi' : i < 2 := hi
      have h0 := abs_le.1 (hx 0 one_pos)
      interval_cases i <;> simp [interval1, Poly.fresh, rowVal] <;> linarith⟩ _ hC
  refine ⟨N0, fun N hN hpos => ?_⟩
  obtain ⟨c, h1, h2⟩ := hN0 N hN hpos
  obtain ⟨us, V, hV, hval, -⟩ := h2 ⟨1, fun _ => 3⟩ rfl ⟨w, w2, w3⟩
  exact ⟨c, us, V, h1, hV, hval⟩

end Verif.Props
