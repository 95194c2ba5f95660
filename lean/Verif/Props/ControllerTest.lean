import Verif.Props.UncondensedTest
import Verif.Props.Simulation
import Verif.Proofs.Gurobi

/- The test of the linear controller (test_controllers.py:13-101). -/
namespace Verif.Props
open Finset Spec Dyn Control TestSuite

theorem forRange_ok {m : ℕ → Py Unit} : ∀ {n : ℕ}, (∀ t < n, m t = .ok ()) → forRange m n = .ok ()
  | 0, _ => rfl
  | n + 1, h => by
    rw [forRange, forRange_ok fun t ht => h t (by omega), Py.ok_bind]
    exact h n (by omega)

/-- the inputs that the test computes for the LQR are `u = K x` along their trajectory -/
theorem lqrInputs_ok {S : LinearSystem} (hS : SystemShape S.nx S.nu S.A S.B (Vec.zeros S.nx)) {K : Mat ℝ} (k1 : K.nr = S.nu) (k2 : K.nc = S.nx) :
    ∀ (N : ℕ) (x : Vec ℝ), x.n = S.nx → ∃ xs u : List (Vec ℝ), lqrInputs S K N x = .ok u ∧ u.length = N ∧
      IsTrajectory S.nx (fun _ => S.A) (fun _ => S.B) (fun _ => Vec.zeros S.nx) x u xs ∧
      ∀ (t : ℕ) (y v : Vec ℝ), xs[t]? = some y → u[t]? = some v → v.n = S.nu ∧ ∀ s < S.nu, v.e s = rowVal K s y.e := by
  obtain ⟨a1, a2, b1, b2, -⟩ := hS
  have e1 : np.dotMM S.B K = .ok (S.B.mul K) := if_pos (by omega)
  have e2 : np.addM S.A (S.B.mul K) = .ok (S.A.add (S.B.mul K)) := if_pos ⟨by simp [a1, b1], by simp [a2, k2]⟩
  intro N
  induction N with
  | zero => exact fun x hx => ⟨[x], [], rfl, rfl, .nil hx, by simp⟩
  | succ N ih =>
    intro x hx
    have e0 : np.dotMV K x = .ok (K.mulVec x) := if_pos (by omega)
    have e3 : np.dotMV (S.A.add (S.B.mul K)) x = .ok ((S.A.add (S.B.mul K)).mulVec x) := if_pos (by simp [a2, hx])
    obtain ⟨xs, u, h1, h2, h3, h4⟩ := ih ((S.A.add (S.B.mul K)).mulVec x) (by simp [a1])
    refine ⟨x :: xs, K.mulVec x :: u, ?_, by simp [h2], h3.cons hx fun i _ => ?_, ?_⟩
    · rw [lqrInputs]
      rw [e0, Py.ok_bind, e1, Py.ok_bind, e2, Py.ok_bind, e3, Py.ok_bind, h1]
      rfl
    · simp only [Spec.affine, Mat.mulVec_e, Mat.add_nc, Mat.add_e, add_mul, Finset.sum_add_distrib, a2]
      rw [show (Vec.zeros S.nx : Vec ℝ).e i = 0 from rfl, add_zero]
      congr 1
      have := rowVal_mul (A := S.B) (B := K) (by omega) i x.e
      unfold rowVal at this
      rw [Mat.mul_nc, k2] at this
      rw [this]
      simp only [k2]
    · intro t y v hy hv
      cases t with
      | zero => cases hy; cases hv; exact ⟨k1, fun _ _ => rfl⟩
      | succ t => exact h4 t y v (by simpa using hy) (by simpa using hv)

/-- a list of arrays of the same size in one array -/
theorem concat_const {w : ℕ} : ∀ l : List (Vec ℝ), (∀ v ∈ l, v.n = w) → (Vec.concat l).n = l.length * w ∧
    ∀ (t : ℕ) (v : Vec ℝ), l[t]? = some v → ∀ i < w, (Vec.concat l).e (t * w + i) = v.e i
  | [], _ => ⟨by simp [Vec.concat], fun t v h => by simp at h⟩
  | [v], h => ⟨by simp [Vec.concat, h v], fun t u hu i _ => by
      rcases t with _ | t
      · cases hu; simp [Vec.concat]
      · simp at hu⟩
  | v :: y :: l, h => by
    obtain ⟨h1, h2⟩ := concat_const (y :: l) fun u hu => h u (List.mem_cons_of_mem _ hu)
    have hv := h v (by simp)
    have e : Vec.concat (v :: y :: l) = v.append (Vec.concat (y :: l)) := rfl
    rw [e]
    refine ⟨?_, fun t u hu i hi => ?_⟩
    · show v.n + (Vec.concat (y :: l)).n = _
      rw [h1, hv, List.length_cons (a := v)]
      ring
    · rcases t with _ | t
      · cases hu
        rw [Nat.zero_mul, Nat.zero_add, Vec.append_e_lt _ _ (by omega)]
      · rw [show (t + 1) * w + i = v.n + (t * w + i) by rw [hv]; ring, Vec.append_e_add]
        exact h2 t u (by simpa using hu) i hi

/-- a point of the polyhedron is found to be in it -/
theorem contains_of_point {n : ℕ} {p : Poly} (hp : p.Inv n) (hA : 0 < p.A.nr) (x : Vec ℝ) (hx : x.n = n) (h : p.Mem x.e) : p.contains x = .ok true := by
  obtain ⟨r, h1, h2, -⟩ := C08_partial n p hp hA x hx 1e-7
  rw [h1, h2 (fun i hi => ?_) fun i hi => ?_]
  · have := h.1 i hi
    rw [hp.1] at this
    linarith [show (0 : ℝ) ≤ 1e-7 by norm_num]
  · have := h.2 i hi
    rw [hp.2.2.1] at this
    rw [this, sub_self, abs_zero]
    norm_num

theorem mem_congr {n : ℕ} {p : Poly} (hp : p.Inv n) {x y : ℕ → ℝ} (h : ∀ j < n, x j = y j) : p.Mem x ↔ p.Mem y := by
  refine and_congr (forall_congr' fun i => forall_congr' fun _ => ?_) (forall_congr' fun i => forall_congr' fun _ => ?_)
  · rw [sum_congr rfl fun j hj => by rw [h j (hp.1 ▸ mem_range.1 hj)]]
  · rw [sum_congr rfl fun j hj => by rw [h j (hp.2.2.1 ▸ mem_range.1 hj)]]

theorem listGet_some {α : Type} {l : List α} {i : ℕ} {a : α} (h : l[i]? = some a) : np.listGet l i = .ok a := by
  unfold np.listGet; rw [h]

theorem almost_same {v w : Vec ℝ} (hn : v.n = w.n) (h : ∀ i < v.n, v.e i = w.e i) : assertArrayAlmostEqual (some v) (some w) = .ok () := by
  unfold assertArrayAlmostEqual assertTrue
  have : ∀ i < v.n, |v.e i - w.e i| < 1.5e-6 := fun i hi => by rw [h i hi, sub_self, abs_zero]; norm_num
  simp only []
  rw [if_pos (decide_eq_true ⟨hn, this⟩)]

/-- the branch of the test outside of the terminal set passes -/
theorem checkOutside_ok {L : Lib} {S : LinearSystem} {N : ℕ} {Q R P : Mat ℝ} {X U D X_N p : Poly} {c : MPC} {x : Vec ℝ} {us : List (Vec ℝ)} {V V' : ℝ}
    (hS : SystemShape S.nx S.nu S.A S.B (Vec.zeros S.nx)) (hN : 0 < N) (hX : X.Inv S.nx) (hU : U.Inv S.nu) (hXr : 0 < X.A.nr) (hUr : 0 < U.A.nr)
    (hX_N : X_N.Inv S.nx) (hX_Nr : 0 < X_N.A.nr) (hXC : X_N.C.nr = 0) (hD : ∀ z, D.Mem z ↔ X.Mem z ∧ U.Mem fun j => z (S.nx + j)) (hDC : D.C.nr = 0) (hx : x.n = S.nx)
    (hlen : us.length = N) (husz : ∀ u ∈ us, u.n = S.nu) (hfeas : (problem S N Q R P D X_N).Feas x.e (inputsOf us)) (hV : V' < V)
    (hfb : ∃ u, us[0]? = some u ∧ c.feedback L x = .ok (some u)) (hp : p.Inv (N * (S.nx + S.nu) + S.nx)) (hpr : 0 < p.A.nr)
    (hmem : p.Mem (stackedPlan S.nx S.nu N ((problem S N Q R P D X_N).x x.e (inputsOf us)) (inputsOf us))) :
    checkOutside L S N X U X_N p c x us V V' = .ok () := by
  set pr := problem S N Q R P D X_N with hprd
  obtain ⟨u0, hu0, hf⟩ := hfb
  obtain ⟨xs, hsim, htr⟩ := ((C50 S.nx S.nu S.A S.B (Vec.zeros S.nx) hS x hx S._controllable).1 us husz).2
  have hxs := htr.traj (nu := S.nu) (fun _ _ => hS.2.1) (fun _ _ => hS.2.2.2.1) (inputsOf us) (fun t w hw s _ => by
    unfold inputsOf; rw [List.getD_eq_getElem?_getD, hw]; rfl)
  have hxs' : ∀ t y, xs[t]? = some y → ∀ i < S.nx, y.e i = pr.x x.e (inputsOf us) t i := hxs
  have hgetx : ∀ t ≤ N, ∃ y, xs[t]? = some y ∧ y.n = S.nx := fun t ht => by
    have : t < xs.length := by rw [htr.1, hlen]; omega
    exact ⟨xs[t], List.getElem?_eq_getElem this, htr.2.2.1 _ (List.getElem_mem this)⟩
  have hgetu : ∀ t < N, ∃ v, us[t]? = some v ∧ v.n = S.nu ∧ inputsOf us t = v.e := fun t ht => by
    have : t < us.length := by omega
    refine ⟨us[t], List.getElem?_eq_getElem this, husz _ (List.getElem_mem this), ?_⟩
    unfold inputsOf
    rw [List.getD_eq_getElem?_getD, List.getElem?_eq_getElem this]
    rfl
  have hstage : ∀ t < N, X.Mem (pr.x x.e (inputsOf us) t) ∧ U.Mem (inputsOf us t) := fun t ht => by
    have h1 : D.Mem (pair S.nx (pr.x x.e (inputsOf us) t) (inputsOf us t)) := (mem_noeq hDC _).2 (hfeas.1 t ht)
    obtain ⟨g1, g2⟩ := (hD _).1 h1
    refine ⟨(mem_congr hX fun j hj => by rw [pair, if_pos hj]).1 g1, (mem_congr hU fun j _ => ?_).1 g2⟩
    rw [pair, if_neg (by omega), Nat.add_sub_cancel_left]
  have hloop : forRange (fun t => do
      let xt ← np.listGet xs t
      let a ← X.contains xt
      assertTrue a
      let ut ← np.listGet us t
      let b ← U.contains ut
      assertTrue b) N = .ok () := forRange_ok fun t ht => by
    obtain ⟨y, y1, y2⟩ := hgetx t ht.le
    obtain ⟨v, v1, v2, v3⟩ := hgetu t ht
    rw [listGet_some y1, Py.ok_bind, contains_of_point hX hXr y y2 ((mem_congr hX (hxs' t y y1)).2 (hstage t ht).1), Py.ok_bind]
    rw [show assertTrue true = .ok () from rfl, Py.ok_bind, listGet_some v1, Py.ok_bind, contains_of_point hU hUr v v2 (v3 ▸ (hstage t ht).2), Py.ok_bind]
    rfl
  obtain ⟨y, y1, y2⟩ := hgetx N le_rfl
  have hyN : X_N.Mem y.e := (mem_congr hX_N (hxs' N y y1)).2 ((mem_noeq hXC _).2 hfeas.2)
  -- the stacked vector
  let g : ℕ → Vec ℝ := fun t => (xs.getD t vec0).append (us.getD t vec0)
  have hpairs : stagePairs xs us N = .ok ((List.range N).map g) := by
    unfold stagePairs
    refine mapM_ok fun t ht => ?_
    have ht := List.mem_range.1 ht
    obtain ⟨y, y1, y2⟩ := hgetx t ht.le
    obtain ⟨v, v1, v2, v3⟩ := hgetu t ht
    rw [listGet_some y1, Py.ok_bind, listGet_some v1, Py.ok_bind]
    show Except.ok (y.append v) = Except.ok (g t)
    simp only [g, List.getD_eq_getElem?_getD, y1, v1, Option.getD_some]
  have hcat : np.concatenate ((List.range N).map g) = .ok (Vec.concat ((List.range N).map g)) := if_neg (by simp; omega)
  have hg : ∀ t < N, (g t).n = S.nx + S.nu ∧ ∀ i < S.nx + S.nu, (g t).e i = pair S.nx (pr.x x.e (inputsOf us) t) (inputsOf us t) i := by
    intro t ht
    obtain ⟨y, y1, y2⟩ := hgetx t ht.le
    obtain ⟨v, v1, v2, v3⟩ := hgetu t ht
    have e : g t = y.append v := by simp only [g, List.getD_eq_getElem?_getD, y1, v1, Option.getD_some]
    rw [e]
    refine ⟨by show y.n + v.n = _; omega, fun i hi => ?_⟩
    show (if i < y.n then y.e i else v.e (i - y.n)) = _
    unfold pair
    rw [y2, v3]
    split
    · next h => exact hxs' t y y1 i h
    · rfl
  obtain ⟨k1, k2⟩ := concat_const (w := S.nx + S.nu) ((List.range N).map g) fun v hv => by
    obtain ⟨t, ht, rfl⟩ := List.mem_map.1 hv
    exact (hg t (List.mem_range.1 ht)).1
  rw [List.length_map, List.length_range] at k1
  have hcat2 : np.concatenate [Vec.concat ((List.range N).map g), y] = .ok ((Vec.concat ((List.range N).map g)).append y) := rfl
  have hxu : p.Mem ((Vec.concat ((List.range N).map g)).append y).e := by
    refine (mem_congr hp fun k hk => ?_).2 hmem
    show (if k < (Vec.concat ((List.range N).map g)).n then _ else _) = _
    rw [k1]
    split
    · next h =>
      have hw0 : 0 < S.nx + S.nu := Nat.pos_of_ne_zero fun h0 => by rw [h0] at h; omega
      have ht : k / (S.nx + S.nu) < N := Nat.div_lt_of_lt_mul (by rw [Nat.mul_comm]; exact h)
      have hi := Nat.mod_lt k hw0
      have e1 := k2 (k / (S.nx + S.nu)) (g (k / (S.nx + S.nu))) (by simp [ht]) (k % (S.nx + S.nu)) hi
      have e2 := stackedPlan_stage (x := pr.x x.e (inputsOf us)) (u := inputsOf us) ht hi
      rw [Nat.mul_comm, Nat.div_add_mod] at e1 e2
      rw [e1, e2, (hg _ ht).2 _ hi]
    · next h =>
      have e2 := stackedPlan_last (nx := S.nx) (nu := S.nu) (N := N) (x := pr.x x.e (inputsOf us)) (u := inputsOf us) (k - N * (S.nx + S.nu))
      rw [Nat.add_sub_cancel' (by omega)] at e2
      rw [e2]
      exact hxs' N y y1 _ (by omega)
  unfold checkOutside
  rw [decide_eq_true hV, show assertTrue true = .ok () from rfl, Py.ok_bind, listGet_some hu0, Py.ok_bind, hf, Py.ok_bind,
    almost_same rfl fun _ _ => rfl, Py.ok_bind]
  have hsim' : S.simulate x us = .ok xs := hsim
  rw [hsim', Py.ok_bind, hloop, Py.ok_bind, listGet_some y1, Py.ok_bind, contains_of_point hX_N hX_Nr y y2 hyN, Py.ok_bind,
    show assertTrue true = .ok () from rfl, Py.ok_bind, hpairs, Py.ok_bind, hcat, Py.ok_bind, hcat2, Py.ok_bind,
    contains_of_point hp hpr _ (by show (Vec.concat _).n + y.n = _; rw [k1, y2]) hxu, Py.ok_bind]
  rfl

/-- the arrays of the set that `mcais` returns have consistent sizes -/
theorem mcais_sizes {L : Lib} (hL : LibSpec L) {S : LinearSystem} (hnx : 0 < S.nx) {K : Mat ℝ} {D : Poly}
    (hS : SystemShape S.nx S.nu S.A S.B (Vec.zeros S.nx)) (hK : K.nr = S.nu ∧ K.nc = S.nx) (hD : D.Inv (S.nx + S.nu)) (hC : D.C.nr = 0)
    (h0 : D.Mem fun _ => 0) (hb : IsBounded (S.nx + S.nu) D.A D.b D.C D.d) {fuel : ℕ} {X_N : Poly}
    (hrun : LinearSystem.mcais L S K D fuel = .ok (some X_N)) : X_N.Inv S.nx := by
  obtain ⟨Acl, Xcl, h1, h2, h3, h4, h5, h6, h7, h8, h9, -⟩ := closedLoop_ok hS hK hD
  have hw0 : withInput S.nx K (fun _ => 0) = fun _ => 0 := by
    funext j; unfold withInput; split <;> simp
  have hd : McaisData L S.nx Acl Xcl := by
    refine ⟨h2, h3, h4, h5, (h9 hC _).2 (by rw [hw0]; exact h0), ?_, fun e he => (by rw [h6] at he; cases he), hnx⟩
    obtain ⟨M, hM⟩ := hb
    refine ⟨M, fun x hx j hj => ?_⟩
    have := hM _ ((h9 hC x).1 hx) j (by omega)
    unfold withInput at this
    rwa [if_pos hj] at this
  have hrun' : mcais L Acl Xcl fuel = .ok (some X_N) := by
    unfold LinearSystem.mcais at hrun
    rw [h1] at hrun
    exact hrun
  obtain ⟨Ob, r, e1, -, -, e2, e3, e4, e5, -⟩ := (C54 L hL S.nx Acl Xcl hd).2 fuel X_N hrun'
  have e1' := e1
  unfold mcaisBefore at e1'
  obtain ⟨X', hc, -⟩ := Py.bind_eq_ok e1'
  rcases before_ok hL hd hc fuel with ⟨g, -⟩ | ⟨O, t, g1, g2, -⟩
  · rw [g] at e1; cases e1
  · rw [g1] at e1
    cases e1
    exact ⟨by rw [e2]; exact g2.1, by rw [e2, e3]; rfl, by rw [e4]; exact g2.2.2.1, by rw [e4, e5]; exact g2.2.2.2⟩

/-- C162, what holds of it: let `P`, `K` be the answer of `solve_dare`, let `D` be the product of `X` and `U` (C14), bounded and with the origin inside, `X_N` the answer of `mcais`, and assume that the removal of
inequalities preserved the invariance of `X_N` (see C99).  At each state that `contains` does not put into `X_N` by its tolerance alone: if some inputs are feasible, of a
cost below the threshold of the solver, then all assertions of the test pass.  If no inputs are feasible, the test passes exactly when no inputs satisfy the
constraints of the stages.  Missing: the infeasible states from which there are such inputs, see `C162_false`. -/
theorem C162_partial (L : Lib) (hL : LibSpec L) (S : LinearSystem) (Q R P K : Mat ℝ) (h : DareArgs S Q R)
    (dare : Mat ℝ → Mat ℝ → Mat ℝ → Mat ℝ → Py (Mat ℝ)) (hdare : ∀ P, dare S.A S.B Q R = .ok P → DareSpec S.nx S.nu S.A S.B Q R P)
    (hPK : (LinearSystem.solve_dare dare Q R S).1 = .ok (P, K)) (X U D : Poly) (hX : X.Inv S.nx) (hU : U.Inv S.nu) (hXr : 0 < X.A.nr) (hUr : 0 < U.A.nr)
    (hD : D.Inv (S.nx + S.nu)) (hDr : 0 < D.A.nr) (hXU : ∀ z, D.Mem z ↔ X.Mem z ∧ U.Mem fun j => z (S.nx + j)) (hC : D.C.nr = 0) (hin : OriginInside (S.nx + S.nu) D) (N : ℕ) (hN : 0 < N) (M : ℝ)
    (hM : ∀ y, D.Mem y → ∀ j < S.nx + S.nu, |y j| ≤ M) (hsmall : (N * (S.nx + S.nu) + S.nx : ℕ) * M ^ 2 < 1 / (1e-7 : ℝ) ^ 2 - 1) :
    ∃ T X_N c, (∀ fuel ≥ T, LinearSystem.mcais L S K D fuel = .ok (some X_N)) ∧ MPC.init S N Q R P D X_N = .ok c ∧
      ((problem S N Q R P D X_N).TerminalInvariant K → ∀ x : Vec ℝ, x.n = S.nx → (X_N.contains x = .ok true → X_N.Mem x.e) →
        ((∃ u, (problem S N Q R P D X_N).Feas x.e u ∧ (problem S N Q R P D X_N).cost x.e u < (1 / (1e-7 : ℝ) ^ 2 - 1) / 2) →
          checkState L S N P K X U D X_N c x = .ok ()) ∧
        ((¬ ∃ u, (problem S N Q R P D X_N).Feas x.e u) → checkState L S N P K X U D X_N c x =
          open Classical in if ∃ u, ∀ t < N, (problem S N Q R P D X_N).Stage ((problem S N Q R P D X_N).x x.e u t) (u t) then .error .assertionError else .ok ())) := by
  obtain ⟨hP, k1, k2, -⟩ := solve_dare_ok h hdare hPK
  have hb : IsBounded (S.nx + S.nu) D.A D.b D.C D.d := ⟨M, hM⟩
  obtain ⟨T, X_N, c, t1, t2, t3, -⟩ := C99_partial L hL S Q R P K h dare hdare hPK D hD hC hin hb N hN
  refine ⟨T, X_N, c, t1, t2, fun hI x hx htol => ?_⟩
  have horg : D.Mem fun _ => 0 := by
    obtain ⟨ε, hε, hm⟩ := hin
    exact hm _ fun j _ => by simp [hε.le]
  obtain ⟨hsz, hXC, -⟩ := terminalInvariant_of_mcais L hL S h.nx K D h.sys ⟨k1, k2⟩ hD hC horg hb T X_N (t1 T le_rfl) N Q R P
  have hargs : MpcArgs S N Q R P D X_N := ⟨⟨h.sys, hN, weights_of_dare h hP, ⟨hD.1, hD.2.1⟩, hsz⟩, .inl hDr⟩
  set pr := problem S N Q R P D X_N with hprd
  have hXNb : ∀ y, X_N.Mem y → ∀ j < S.nx, |y j| ≤ M := by
    intro y hy j hj
    have := hM _ ((mem_noeq hC _).2 (hI y hy.1).1) j (by omega)
    rw [show pr.nx = S.nx from rfl, pair, if_pos hj] at this
    exact this
  have hXN : X_N.Inv S.nx := mcais_sizes hL h.nx h.sys ⟨k1, k2⟩ hD hC horg hb (t1 T le_rfl)
  have hXNr : 0 < X_N.A.nr := (Poly.hasRows_of_bounded h.nx ⟨M, hXNb⟩).resolve_right (by omega)
  obtain ⟨p, p1, p2, p3, p4, -, p5⟩ := C161_partial S N Q R P D X_N h.sys hN hD hC hXN hXC x hx
  obtain ⟨p', p1', -, -, p6, -⟩ := uncondensed_spec h.sys hD hXN hN x hx
  rw [p1] at p1'
  cases p1'
  obtain ⟨e, q, p7, p8⟩ := p5 L hL hDr ⟨M, hM, hXNb, hsmall⟩
  -- the value of the LQR
  have hnr : P.nr = S.nx := hargs.w.symP.1
  have hnc : P.nc = S.nx := hargs.w.symP.2.1
  have v1 : np.dotVM x P = .ok (Mat.vecMul x P) := if_pos (hx.trans hnr.symm)
  have v2 : np.dotVV (Mat.vecMul x P) x = .ok ((Mat.vecMul x P).dot x) := if_pos (hnc.trans hx.symm)
  have v3 : 0.5 * (Mat.vecMul x P).dot x = 1 / 2 * quad P x.e := by
    have : (Mat.vecMul x P).dot x = quad P x.e := by
      show ∑ j ∈ range P.nc, (∑ i ∈ range x.n, x.e i * P.e i j) * x.e j = _
      unfold quad
      rw [sum_comm, hx, hnr]
      exact sum_congr rfl fun j _ => sum_mul _ _ _
    rw [this]
    norm_num
  obtain ⟨ys, ul, l1, l2, l3, l4⟩ := lqrInputs_ok h.sys k1 k2 N x hx
  obtain ⟨r, r1, r2, r3⟩ := C08_partial S.nx X_N hXN hXNr x hx 1e-7
  have hr : r = true ↔ X_N.Mem x.e := by
    constructor
    · rintro rfl
      exact htol r1
    · intro hm
      have := contains_of_point hXN hXNr x hx hm
      rw [r1] at this
      cases this
      rfl
  obtain ⟨mq, h1, h2⟩ := feedforward_run hL hargs
  obtain ⟨c', hc', h67⟩ := C67 L hL S h.fresh h.nx N Q R P K D X_N hargs dare hdare hPK hI
  rw [t2] at hc' h1
  cases hc'
  cases h1
  have hlqr := dare_lqr S h.fresh h.nx N Q R P K D X_N hargs dare hdare hPK (M := N)
  obtain ⟨f1, f2⟩ := h2 none x hx
  obtain ⟨-, b2, b3, -⟩ := C65_linear L ⟨S, N, Q, R, P, D, X_N, none, mq⟩ hN x
  have hnorm : checkState L S N P K X U D X_N ⟨S, N, Q, R, P, D, X_N, none, mq⟩ x
      = (MPC.feedforward L ⟨S, N, Q, R, P, D, X_N, none, mq⟩ x >>= fun a =>
          if r then checkInside N a.1 a.2 ul (1 / 2 * quad P x.e)
          else match a.1, a.2 with
            | some us, some V => checkOutside L S N X U X_N p ⟨S, N, Q, R, P, D, X_N, none, mq⟩ x us V (1 / 2 * quad P x.e)
            | none, some _ => .error .typeError
            | _, none => do
              let fb ← MPC.feedback L ⟨S, N, Q, R, P, D, X_N, none, mq⟩ x
              assertTrue fb.isNone
              let (e, _) ← ask p (Poly.empty L)
              assertTrue e) := by
    unfold checkState
    congr 1
    funext a
    obtain ⟨a1, a2⟩ := a
    simp only []
    rw [v1, Py.ok_bind, v2, Py.ok_bind, l1, Py.ok_bind, p1, Py.ok_bind, r1, Py.ok_bind, v3]
    rfl
  rw [hnorm]
  refine ⟨fun ⟨v, w1, w2⟩ => ?_, fun hno => ?_⟩
  · -- some inputs are feasible
    rcases f1 with k | ⟨us, V, k, g1, g2, g3, g4, -⟩
    · exfalso
      rcases f2.1 k with k3 | ⟨o, u0, o1, o2, o3⟩
      · exact k3 _ w1
      · have a1 := o1.2 v w1
        have a2 := (hlqr x.e u0).1
        have a3 := hargs.w.P0 x.e
        linarith
    rw [k, Py.ok_bind]
    by_cases hm : X_N.Mem x.e
    · rw [if_pos (hr.2 hm)]
      obtain ⟨us', V', q1, q2, q3, q4⟩ := h67 x hx hm.1
      rw [k] at q1
      cases q1
      -- the inputs are those of the LQR
      have hul : ∀ t w, ul[t]? = some w → ∀ s < S.nu, inputsOf ul t s = w.e s := fun t w hw s _ => by
        unfold inputsOf; rw [List.getD_eq_getElem?_getD, hw]; rfl
      have htraj := l3.traj (nu := S.nu) (fun _ _ => h.sys.2.1) (fun _ _ => h.sys.2.2.2.1) (inputsOf ul) hul
      have htraj' : ∀ t y, ys[t]? = some y → ∀ i < S.nx, y.e i = pr.x x.e (inputsOf ul) t i := htraj
      have hlq : ∀ t < N, ∀ s < S.nu, inputsOf ul t s = rowVal K s (pr.x x.e (inputsOf ul) t) := by
        intro t ht s hs
        have a1 : t < ul.length := by omega
        have a2 : t < ys.length := by rw [l3.1]; omega
        have a3 := hul t ul[t] (List.getElem?_eq_getElem a1) s hs
        obtain ⟨-, a4⟩ := l4 t ys[t] ul[t] (List.getElem?_eq_getElem a2) (List.getElem?_eq_getElem a1)
        rw [a3, a4 s hs]
        exact rowVal_congr' s fun j hj => htraj' t _ (List.getElem?_eq_getElem a2) j (k2 ▸ hj)
      have hsame : ∀ t ≤ N, pr.x x.e (inputsOf us) t = pr.x x.e (inputsOf ul) t ∧
          (t < N → ∀ s < S.nu, inputsOf us t s = inputsOf ul t s) := by
        intro t
        induction t with
        | zero =>
          intro _
          exact ⟨rfl, fun ht s hs => by rw [q4 0 ht s hs, hlq 0 ht s hs]; rfl⟩
        | succ t ih =>
          intro ht
          obtain ⟨i1, i2⟩ := ih (by omega)
          have e1 : pr.x x.e (inputsOf us) (t + 1) = pr.x x.e (inputsOf ul) (t + 1) := by
            rw [LinOcp.x_succ, LinOcp.x_succ, i1]
            exact LinOcp.next_congr (problem_shape hargs.toMpcSizes) (fun _ _ => rfl) (i2 (by omega))
          exact ⟨e1, fun ht' s hs => by rw [q4 _ ht' s hs, hlq _ ht' s hs, e1]⟩
      unfold checkInside
      rw [q3]
      have z1 : assertAlmostEqualO (some (1 / 2 * quad P x.e)) (1 / 2 * quad P x.e) = .ok () := by
        unfold assertAlmostEqualO assertAlmostEqual assertTrue
        simp only []
        rw [sub_self, abs_zero, if_pos (decide_eq_true (by norm_num))]
      simp only []
      rw [z1, Py.ok_bind]
      refine forRange_ok fun t ht => ?_
      have a1 : t < ul.length := by omega
      have a2 : t < us.length := by omega
      have a3 : t < ys.length := by rw [l3.1]; omega
      have hus : us[t]? = some us[t] := List.getElem?_eq_getElem a2
      have hul' : ul[t]? = some ul[t] := List.getElem?_eq_getElem a1
      rw [listGet_some hus, Py.ok_bind, listGet_some hul', Py.ok_bind]
      have n1 := g2 _ (List.getElem_mem a2)
      have n2 := (l4 t ys[t] ul[t] (List.getElem?_eq_getElem a3) hul').1
      refine almost_same (n1.trans n2.symm) fun s hs => ?_
      have b1 := (hsame t ht.le).2 ht s (n1 ▸ hs)
      have b2 := hul t _ hul' s (n1 ▸ hs)
      have b3 : inputsOf us t s = us[t].e s := by unfold inputsOf; rw [List.getD_eq_getElem?_getD, hus]; rfl
      rw [← b3, b1, b2]
    · rw [if_neg (fun h => hm (hr.1 h))]
      obtain ⟨y1, y2, -⟩ := lqr_gap L hL S h.fresh h.nx N Q R P K D X_N hargs dare hdare hPK k2 hI
        (fun x0 y hy hm => t3 x0 y hy fun t => (mem_noeq hC _).2 (hm t)) t2 x hx us V k
      have hlt : 1 / 2 * quad P x.e < V := lt_of_le_of_ne y1 fun e => hm ((mem_noeq hXC _).2 (y2.1 e.symm))
      exact checkOutside_ok h.sys hN hX hU hXr hUr hXN hXNr hXC hXU hC hx g1 g2 g3.1 hlt (b2 us _ k) p2 (by omega) (p4 _ g3.1)
  · -- no inputs are feasible
    have hout : ¬ X_N.Mem x.e := fun hm => by
      obtain ⟨us', V', q1, -⟩ := h67 x hx hm.1
      rcases f1 with k | ⟨us, V, k, g1, g2, g3, g4, -⟩
      · rw [k] at q1; cases q1
      · exact hno ⟨_, g3.1⟩
    have k := f2.2 (.inl fun u hu => hno ⟨u, hu⟩)
    rw [k, Py.ok_bind, if_neg (fun h => hout (hr.1 h))]
    simp only []
    rw [b3 _ k, Py.ok_bind, show assertTrue (Option.isNone (none : Option (Vec ℝ))) = .ok () from rfl, Py.ok_bind]
    have hask : ask p (Poly.empty L) = .ok (e, q) := by unfold ask; rw [p7]
    rw [hask, Py.ok_bind]
    have hne : (∃ z, p.Mem z) ↔ ∃ u, ∀ t < N, pr.Stage (pr.x x.e u t) (u t) := by
      rw [p3]
      refine and_iff_left ⟨fun _ => 0, ?_⟩
      refine (mem_noeq hXC _).2 (t3 _ (fun _ _ => 0) ⟨fun _ _ => rfl, fun t i _ => by simp⟩ fun t => ?_)
      have : withInput S.nx K (fun _ => 0) = fun _ => 0 := by funext j; unfold withInput; split <;> simp
      rw [this]
      exact horg
    show assertTrue e = _
    by_cases hs : ∃ u, ∀ t < N, pr.Stage (pr.x x.e u t) (u t)
    · rw [if_pos hs]
      have : e = false := by
        cases e
        · rfl
        · exact absurd (hne.2 hs) (p8.1 rfl)
      rw [this]
      rfl
    · rw [if_neg hs, p8.2 fun hz => hs (hne.1 hz)]
      rfl

end Verif.Props
