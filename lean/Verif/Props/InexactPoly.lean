import Verif.Props.InexactLp
import Verif.Props.InexactQp
import Verif.Props.PolyhedronBall

/- C176 – C178: `empty`, `is_included_in`, `radius` and `center` of `/repo/pympc/geometry/polyhedron.py` when
`scipy.optimize.nnls` stops before the minimum. -/
namespace Verif.Props
open Finset

/-- the quadratic program of `empty` with a sound `nnls` -/
theorem computeEmpty_sound {L : Lib} (hL : LibSound L) {n : ℕ} {A : Mat ℝ} {b : Vec ℝ} {C : Mat ℝ} {d : Vec ℝ}
    (hs : Spec.PolyShape n A b C d) (hrows : 0 < A.nr ∨ 0 < C.nr) : ∃ e, Poly.computeEmpty L A b C d = .ok e ∧
      (e = true → ∀ x, Spec.InPoly A b C d x → 1 / (1e-7 : ℝ) ^ 2 - 1 ≤ ∑ i ∈ range n, x i ^ 2) ∧
      (NnlsWithin L 1e-7 → (∀ x, ¬ Spec.InPoly A b C d x) → e = true) := by
  obtain ⟨s1, s2, s3, s4⟩ := hs
  obtain ⟨s, h1, -, h2, h3⟩ := C171 L hL n (Mat.eye n) (Vec.zeros n) A b (some C) (some d) (symPosDef_eye n) rfl
    ⟨s1, s2, s3, s4⟩ (hrows.imp id fun h => ⟨C, rfl, h⟩) 1e-7 (by norm_num) (fun _ => 0) (by simp)
  refine ⟨s.min.isNone, ?_, fun he x hx => ?_, fun hN hinf => ?_⟩
  · unfold Poly.computeEmpty qpDefault
    rw [s1, h1]; rfl
  · have := h2 (by simpa using he) ⟨n, x⟩ hx
    unfold Spec.distSq at this
    simp only [sub_zero] at this
    rwa [show (Mat.eye n : Mat ℝ).nr = n from rfl, show (Mat.eye n : Mat ℝ).nc = n from rfl, eye_quad] at this
  · simpa using h3 hN fun x hx => hinf x.e hx

/-- C176: whatever nonnegative vector `nnls` returns, with the norm of its residual, `empty` does not raise for a polyhedron with
an inequality or equality, and is `True` only if every point is at least `sqrt (1 / tol ^ 2 - 1)` (about 1e7) away from the
origin.  If the residual exceeds the smallest one by at most `tol = 1e-7`, it is `True` for all the polyhedra without points. -/
theorem C176 (L : Lib) (hL : LibSound L) (n : ℕ) (p : Poly) (hp : p.Inv n) (hr : p.HasRows) (hc : p.EmptyOk L) :
    ∃ e, Poly.empty L p = (.ok e, { p with _empty := some e }) ∧
      (e = true → ∀ x, p.Mem x → Real.sqrt (1 / (1e-7 : ℝ) ^ 2 - 1) ≤ Real.sqrt (∑ i ∈ range n, x i ^ 2)) ∧
      (NnlsWithin L 1e-7 → (∀ x, ¬ p.Mem x) → e = true) := by
  obtain ⟨e, he, h1, h2⟩ := computeEmpty_sound hL hp hr
  refine ⟨e, ?_, fun h x hx => Real.sqrt_le_sqrt (h1 h x hx), h2⟩
  unfold Poly.empty
  rw [PyM.bind_ok (PyM.get_apply p)]
  cases h : p._empty with
  | some e' =>
    have := hc e' h
    rw [he] at this
    cases this
    show (Except.ok e, p) = _
    rw [← h]
  | none =>
    simp only
    rw [PyM.bind_ok (show PyM.lift (Poly.computeEmpty L p.A p.b p.C p.d) p = (.ok e, p) by rw [PyM.lift_apply, he]),
      PyM.bind_ok (PyM.modify_apply _ _)]
    rfl

/-- the loop of `is_included_in` with a sound `nnls` -/
theorem includedLoop_sound {L : Lib} (hL : LibSound L) {A1 A2 : Mat ℝ} {b1 b2 : Vec ℝ} (hb : b1.n = A1.nr)
    (hc : A2.nc = A1.nc) {tol : ℝ} (is : List ℕ) {r : Bool} (hrun : Poly.includedLoop L A1 b1 A2 b2 tol is = .ok r) :
    (r = true → ∀ i ∈ is, ∀ x, (∀ k < A1.nr, Spec.rowVal A1 k x ≤ b1.e k) →
      Spec.rowVal A2 i x ≤ b2.e i + (tol + 1e-7 * (1 + ∑ j ∈ range A1.nc, |x j|))) ∧
    (r = false → ∃ i ∈ is, ∃ x : Vec ℝ, x.n = A1.nc ∧ (∀ k < A1.nr, Spec.rowVal A1 k x.e ≤ b1.e k + 1e-7) ∧
      b2.e i + tol < Spec.rowVal A2 i x.e) := by
  induction is generalizing r with
  | nil =>
    cases hrun
    exact ⟨fun _ => by simp, fun h => by simp at h⟩
  | cons i is ih =>
    unfold Poly.includedLoop at hrun
    obtain ⟨s, hs, hrun⟩ := Py.bind_eq_ok hrun
    obtain ⟨m, hm, hrun⟩ := Py.bind_eq_ok hrun
    have hmin : s.min = some (-m) := by
      unfold Poly.negMin at hm
      cases h : s.min with
      | none => rw [h] at hm; cases hm
      | some v => rw [h] at hm; cases hm; simp
    obtain ⟨x, lam, ε, hε, -, hxn, hcost, -, -, hfeas, -, -, hsub⟩ := C168 L hL A1.nc (A2.row i).neg A1 b1 none none hc ⟨rfl, hb⟩
      1e-7 s (-m) hs hmin
    have hv : ∀ y : Vec ℝ, Spec.lpCost (A2.row i).neg y = -Spec.rowVal A2 i y.e := by
      intro y
      unfold Spec.lpCost Spec.rowVal
      rw [← Finset.sum_neg_distrib]
      exact Finset.sum_congr rfl fun j _ => by rw [Vec.neg_e, neg_mul]; rfl
    have hmx : m = Spec.rowVal A2 i x.e := by
      rw [hv] at hcost
      linarith
    by_cases hgt : m - b2.e i > tol
    · rw [if_pos hgt] at hrun
      cases hrun
      exact ⟨fun h => by simp at h, fun _ => ⟨i, by simp, x, hxn, fun k hk => (hfeas.1 k hk).trans (by linarith), by linarith⟩⟩
    · rw [if_neg hgt] at hrun
      obtain ⟨k1, k2⟩ := ih hrun
      refine ⟨fun h i' hi' y hy => ?_, fun h => ?_⟩
      · rcases List.mem_cons.1 hi' with rfl | hi'
        · have := hsub ⟨A1.nc, y⟩ ⟨hy, trivial⟩
          rw [hv, hv] at this
          simp only at this
          have hS : 0 ≤ 1 + ∑ j ∈ range A1.nc, |y j| := by
            have : 0 ≤ ∑ j ∈ range A1.nc, |y j| := Finset.sum_nonneg fun _ _ => abs_nonneg _
            linarith
          have := mul_le_mul_of_nonneg_right hε.le hS
          linarith
        · exact k1 h i' hi' y hy
      · obtain ⟨i', hi', rest⟩ := k2 h
        exact ⟨i', by simp [hi'], rest⟩

/-- the loop of `is_included_in` answers if `nnls` is accurate enough -/
theorem includedLoop_answers {L : Lib} (hL : LibSound L) {δ : ℝ} (hN : NnlsWithin L δ) (hδ : δ < 1e-7) {A1 A2 : Mat ℝ}
    {b1 b2 : Vec ℝ} (hb : b1.n = A1.nr) (hc : A2.nc = A1.nc) (hrows : 0 < A1.nr) {tol : ℝ} {x0 : ℕ → ℝ}
    (hx0 : ∀ i < A1.nr, Spec.rowVal A1 i x0 ≤ b1.e i) (is : List ℕ)
    (hM : ∀ i ∈ is, ∃ M, ∀ x, (∀ i < A1.nr, Spec.rowVal A1 i x ≤ b1.e i) → Spec.rowVal A2 i x ≤ M) :
    ∃ r, Poly.includedLoop L A1 b1 A2 b2 tol is = .ok r := by
  induction is with
  | nil => exact ⟨true, rfl⟩
  | cons i is ih =>
    obtain ⟨r, hr⟩ := ih fun j hj => hM j (by simp [hj])
    obtain ⟨M, hM⟩ := hM i (by simp)
    have hv : ∀ y : Vec ℝ, Spec.lpCost (A2.row i).neg y = -Spec.rowVal A2 i y.e := by
      intro y
      unfold Spec.lpCost Spec.rowVal
      rw [← Finset.sum_neg_distrib]
      exact Finset.sum_congr rfl fun j _ => by rw [Vec.neg_e, neg_mul]; rfl
    obtain ⟨s, hs, -, hnone⟩ := C169 L hL δ hN A1.nc (A2.row i).neg A1 b1 none none hc ⟨rfl, hb⟩ (.inl hrows) 1e-7 hδ
    cases h : s.min with
    | none =>
      exfalso
      rcases hnone h with h | h
      · exact h ⟨A1.nc, x0⟩ ⟨hx0, trivial⟩
      · obtain ⟨x, hx, hlt⟩ := h (-M)
        rw [hv] at hlt
        have := hM x.e hx.1
        linarith
    | some m =>
      have hm : Poly.negMin s = .ok (-m) := by unfold Poly.negMin; rw [h]
      unfold Poly.includedLoop lpDefault
      simp only [hs, Py.ok_bind, hm]
      split_ifs
      · exact ⟨false, rfl⟩
      · exact ⟨r, hr⟩

/-- C177: whatever nonnegative vector `nnls` returns, with the norm of its residual, an answer of `P1.is_included_in(P2, tol)` means:
if `True`, every point `x` of `P1` violates the inequalities and equalities of `P2` by at most `tol + 1e-7 (1 + ‖x‖₁)`; if
`False`, some point that satisfies the constraints of `P1` within `1e-7` violates one of `P2` by more than `tol`.  -/
theorem C177 (L : Lib) (hL : LibSound L) (n : ℕ) (p q : Poly) (hp : p.Inv n) (hq : q.Inv n) (tol : ℝ) (r : Bool)
    (hrun : Poly.is_included_in L p q tol = .ok r) :
    (r = true → ∀ x, p.Mem x → WithinTol q.A q.b q.C q.d (tol + 1e-7 * (1 + ∑ j ∈ range n, |x j|)) x) ∧
    (r = false → ∃ x, WithinTol p.A p.b p.C p.d 1e-7 x ∧ ¬ WithinTol q.A q.b q.C q.d tol x) := by
  obtain ⟨s1, s2, s3, s4⟩ := id hp
  obtain ⟨t1, t2, t3, t4⟩ := id hq
  rw [Poly.is_included_in_eq L hp hq] at hrun
  obtain ⟨k1, k2⟩ := includedLoop_sound hL (A1 := p.A.vapp (p.C.vapp p.C.neg)) (b1 := p.b.append (p.d.append p.d.neg))
    (A2 := q.A.vapp (q.C.vapp q.C.neg))
    (by show p.b.n + (p.d.n + p.d.n) = p.A.nr + (p.C.nr + p.C.nr); omega) (t1.trans s1.symm) _ hrun
  have hpm := mem_stack3 s2 s4 (s1.trans s3.symm)
  have hnc : (p.A.vapp (p.C.vapp p.C.neg)).nc = n := s1
  rw [hnc] at k1
  have hwt : ∀ (P : Poly), P.Inv n → ∀ τ x, (∀ i < (P.A.vapp (P.C.vapp P.C.neg)).nr,
      Spec.rowVal (P.A.vapp (P.C.vapp P.C.neg)) i x ≤ (P.b.append (P.d.append P.d.neg)).e i + τ) ↔
      WithinTol P.A P.b P.C P.d τ x := by
    rintro P ⟨r1, r2, r3, r4⟩ τ x
    rw [forall_stack3 (b := P.b) (d := P.d) r2 r4 (r1.trans r3.symm) (P := fun a b => a ≤ b + τ) x]
    refine and_congr_right fun _ => ⟨fun h i hi => abs_le.2 ⟨?_, ?_⟩, fun h => ⟨fun i hi => ?_, fun i hi => ?_⟩⟩
    · linarith [h.2 i hi]
    · linarith [h.1 i hi]
    · linarith [(abs_le.1 (h i hi)).2]
    · linarith [(abs_le.1 (h i hi)).1]
  refine ⟨fun h x hx => (hwt q hq _ x).1 fun i hi => k1 h i (List.mem_range.2 hi) x ((hpm x).2 hx), fun h => ?_⟩
  obtain ⟨i, hi, x, -, hx, hlt⟩ := k2 h
  refine ⟨x.e, (hwt p hp _ x.e).1 hx, fun hw => ?_⟩
  have := (hwt q hq _ x.e).2 hw i (List.mem_range.1 hi)
  linarith

/-- C177, when there is an answer: if the residual of `nnls` exceeds the smallest one by less than `1e-7` and `P1` has a constraint
and a point and is bounded in the directions of the constraints of `P2`, `is_included_in` does not raise. -/
theorem C177_answers (L : Lib) (hL : LibSound L) (δ : ℝ) (hN : NnlsWithin L δ) (hδ : δ < 1e-7) (n : ℕ) (p q : Poly) (hp : p.Inv n)
    (hq : q.Inv n) (hr : p.HasRows) (tol : ℝ) (hne : ∃ x, p.Mem x)
    (hA : ∀ i < q.A.nr, ∃ M, ∀ x, p.Mem x → Spec.rowVal q.A i x ≤ M)
    (hC : ∀ i < q.C.nr, ∃ M, ∀ x, p.Mem x → |Spec.rowVal q.C i x| ≤ M) :
    ∃ r, Poly.is_included_in L p q tol = .ok r := by
  obtain ⟨s1, s2, s3, s4⟩ := id hp
  obtain ⟨t1, t2, t3, t4⟩ := id hq
  have hpm := mem_stack3 s2 s4 (s1.trans s3.symm)
  obtain ⟨x0, hx0⟩ := hne
  rw [Poly.is_included_in_eq L hp hq]
  refine includedLoop_answers hL hN hδ (A1 := p.A.vapp (p.C.vapp p.C.neg)) (b1 := p.b.append (p.d.append p.d.neg))
    (A2 := q.A.vapp (q.C.vapp q.C.neg))
    (by show p.b.n + (p.d.n + p.d.n) = p.A.nr + (p.C.nr + p.C.nr); omega) (t1.trans s1.symm)
    (by unfold Poly.HasRows at hr; show 0 < p.A.nr + (p.C.nr + p.C.nr); omega) ((hpm x0).2 hx0) _ fun i hi => ?_
  have e1 : ∀ i < q.A.nr, ∀ x, Spec.rowVal (q.A.vapp (q.C.vapp q.C.neg)) i x = Spec.rowVal q.A i x :=
    fun i hi x => Finset.sum_congr rfl fun j _ => by rw [Mat.vapp_e_lt _ _ _ hi]
  have hnc : (q.A.vapp (q.C.vapp q.C.neg)).nc = q.C.nc := t1.trans t3.symm
  have e2 : ∀ i < q.C.nr, ∀ x, Spec.rowVal (q.A.vapp (q.C.vapp q.C.neg)) (q.A.nr + i) x = Spec.rowVal q.C i x := by
    intro i hi x
    unfold Spec.rowVal
    rw [hnc]
    exact Finset.sum_congr rfl fun j _ => by rw [Mat.vapp_e_add, Mat.vapp_e_lt _ _ _ hi]
  have e3 : ∀ i < q.C.nr, ∀ x, Spec.rowVal (q.A.vapp (q.C.vapp q.C.neg)) (q.A.nr + (q.C.nr + i)) x
      = -Spec.rowVal q.C i x := by
    intro i hi x
    unfold Spec.rowVal
    rw [hnc, ← Finset.sum_neg_distrib]
    exact Finset.sum_congr rfl fun j _ => by rw [Mat.vapp_e_add, Mat.vapp_e_add]; simp
  have hi : i < q.A.nr + (q.C.nr + q.C.nr) := List.mem_range.1 hi
  revert i
  have : ∀ i < q.A.nr + (q.C.nr + q.C.nr), ∃ M, ∀ x,
      (∀ i < (p.A.vapp (p.C.vapp p.C.neg)).nr, Spec.rowVal (p.A.vapp (p.C.vapp p.C.neg)) i x ≤
        (p.b.append (p.d.append p.d.neg)).e i) → Spec.rowVal (q.A.vapp (q.C.vapp q.C.neg)) i x ≤ M := by
    rw [forall_lt_add, forall_lt_add]
    refine ⟨fun i hi => ?_, fun i hi => ?_, fun i hi => ?_⟩
    · obtain ⟨M, hM⟩ := hA i hi
      exact ⟨M, fun x hx => by rw [e1 i hi]; exact hM x ((hpm x).1 hx)⟩
    · obtain ⟨M, hM⟩ := hC i hi
      exact ⟨M, fun x hx => by rw [e2 i hi]; exact (abs_le.1 (hM x ((hpm x).1 hx))).2⟩
    · obtain ⟨M, hM⟩ := hC i hi
      exact ⟨M, fun x hx => by rw [e3 i hi]; linarith [(abs_le.1 (hM x ((hpm x).1 hx))).1]⟩
  exact fun i _ hi => this i hi

/-- C178: whatever nonnegative vector `nnls` returns, with the norm of its residual, for a polyhedron without equalities the answers
`r`, `c` of `radius` and `center` satisfy, for some `ε < 1e-7`: the points of the ball of radius `r ≥ 0` about `c` violate the
inequalities by at most `ε`, and a ball in the polyhedron with center `c'` has a radius `r' ≤ r + ε (1 + ‖c'‖₁ + r')`. -/
theorem C178 (L : Lib) (hL : LibSound L) (n : ℕ) (p : Poly) (hp : p.Inv n) (hC : p.C.nr = 0) (hr : p._radius = none)
    (hc : p._center = none) (r : ℝ) (q : Poly) (hrun : Poly.radius L p = (.ok (some r), q)) :
    ∃ c ε, ε < 1e-7 ∧ Poly.center L p = (.ok (some c), q) ∧ Poly.center L q = (.ok (some c), q) ∧ c.n = n ∧
      (∀ v : ℕ → ℝ, Real.sqrt (∑ j ∈ range n, v j ^ 2) ≤ r → WithinTol p.A p.b p.C p.d ε (fun j => c.e j + v j)) ∧
      ∀ c' r', 0 ≤ r' → Spec.BallIn n p.A p.b p.C p.d c' r' → r' ≤ r + ε * (1 + ∑ j ∈ range n, |c' j| + r') := by
  obtain ⟨s1, s2, s3, s4⟩ := id hp
  rw [radius_run L hr] at hrun
  cases hch : Poly.chebyshev L p.A p.b p.C p.d with
  | error e => rw [hch] at hrun; cases hrun
  | ok s =>
    rw [hch] at hrun
    simp only [Prod.mk.injEq, Except.ok.injEq] at hrun
    obtain ⟨hs, rfl⟩ := hrun
    cases s with
    | none => cases hs
    | some rc =>
      obtain ⟨r0, c⟩ := rc
      simp only [Option.map_some, Option.some.injEq] at hs
      subst hs
      unfold Poly.chebyshev at hch
      rw [if_neg (by omega), Poly.chebyshevLP_eq] at hch
      obtain ⟨s, hs, hch⟩ := Py.bind_eq_ok hch
      cases hmin : s.min with
      | none => rw [hmin] at hch; cases hch
      | some m =>
        obtain ⟨z, lam, ε, hε, hz, hzn, hcost, -, -, hfeas, -, -, hsub⟩ := C168 L hL (p.A.nc + 1)
          ((Vec.zeros p.A.nc).append (Vec.ones 1)) (p.A.happ (Poly.rowNorms p.A).neg) p.b none none rfl ⟨rfl, s2⟩
          1e-7 s m hs hmin
        rw [hmin, hz] at hch
        simp only [Except.ok.injEq, Option.some.injEq, Prod.mk.injEq] at hch
        obtain ⟨hr0, hcc⟩ := hch
        rw [Poly.chebCost] at hcost
        have hrow : ∀ i, Spec.rowVal p.A i c.e = Spec.rowVal p.A i z.e := fun i => by
          rw [← hcc]
          exact Finset.sum_congr rfl fun j _ => by simp [Vec.slice]
        refine ⟨c, ε, hε, ?_, ?_, ?_, fun v hv => ⟨fun i hi => ?_, fun i hi => absurd hi (by omega)⟩, fun c' r' hr' hball => ?_⟩
        · rw [center_run L hc]
          have : Poly.chebyshev L p.A p.b p.C p.d = .ok (some (r0, c)) := by
            unfold Poly.chebyshev
            rw [if_neg (by omega), Poly.chebyshevLP_eq, hs, Py.ok_bind, hmin, hz]
            simp only [hr0, hcc]
          rw [this]; rfl
        · rfl
        · rw [← hcc]; simp [hzn, s1]
        · have h1 := hfeas.1 i hi
          rw [show (p.A.happ (Poly.rowNorms p.A).neg).nc = p.A.nc + 1 from rfl, Poly.chebRow, ← hcost, hr0, ← hrow] at h1
          rw [rowVal_add]
          have h2 := rowVal_le_norm p.A i v
          rw [s1] at h2
          have h3 := mul_le_mul_of_nonneg_left hv (rowNorm_nonneg p.A i)
          linarith [mul_comm r0 (rowNorm p.A i)]
        · have hf : Fits p.A p.b c' r' := by
            refine (ball_iff_fits p.A p.b c' hr').1 fun v hv i hi => ?_
            rw [s1] at hv
            exact (hball v (fun i hi => absurd hi (by omega)) hv).1 i hi
          have hrow' : ∀ i, Spec.rowVal p.A i (fun j => if j < p.A.nc then c' j else -r') = Spec.rowVal p.A i c' := fun i =>
            Finset.sum_congr rfl fun j hj => by simp only [if_pos (mem_range.1 hj)]
          have := hsub ⟨p.A.nc + 1, fun j => if j < p.A.nc then c' j else -r'⟩ ⟨fun i hi => by
            rw [show (p.A.happ (Poly.rowNorms p.A).neg).nc = p.A.nc + 1 from rfl, Poly.chebRow, hrow']
            simp only [lt_irrefl, if_false, neg_neg]
            exact hf i hi, trivial⟩
          rw [Poly.chebCost, Poly.chebCost, Finset.sum_range_succ] at this
          simp only [lt_irrefl, if_false, abs_neg, abs_of_nonneg hr', ← hcost] at this
          rw [Finset.sum_congr rfl (g := fun j => |c' j|) fun j hj => by simp only [if_pos (mem_range.1 hj)], s1] at this
          have e : 1 + (∑ j ∈ range n, |c' j| + r') = 1 + ∑ j ∈ range n, |c' j| + r' := by ring
          rw [e] at this
          linarith

/-- C178, when there is an answer: if the residual of `nnls` exceeds the smallest one by less than `1e-7`, the polyhedron has a point
and the radii of the balls in it are bounded, `radius` is a number -/
theorem C178_answers (L : Lib) (hL : LibSound L) (δ : ℝ) (hN : NnlsWithin L δ) (hδ : δ < 1e-7) (n : ℕ) (p : Poly) (hp : p.Inv n)
    (hC : p.C.nr = 0) (hr : p._radius = none) (hne : ∃ x, p.Mem x)
    (hbd : ∃ M, ∀ c r, 0 ≤ r → Spec.BallIn n p.A p.b p.C p.d c r → r ≤ M) :
    ∃ r q, Poly.radius L p = (.ok (some r), q) := by
  obtain ⟨s1, s2, s3, s4⟩ := id hp
  obtain ⟨x0, hx0⟩ := hne
  obtain ⟨M, hM⟩ := hbd
  have hfb : ∀ x r, 0 ≤ r → Fits p.A p.b x r → r ≤ M := fun x r h hf => hM x r h fun v _ hv =>
    ⟨(ball_iff_fits p.A p.b x h).2 hf v (by rw [s1]; exact hv), fun i hi => absurd hi (by omega)⟩
  have hrows : 0 < p.A.nr := by
    by_contra h
    have := hfb (fun _ => 0) (|M| + 1) (by positivity) fun i hi => absurd hi (by omega)
    linarith [le_abs_self M]
  have h0M : 0 ≤ M := hfb x0 0 le_rfl fun i hi => by
    have : Spec.rowVal p.A i x0 ≤ p.b.e i := hx0.1 i hi
    linarith
  obtain ⟨s, hs, -, hnone⟩ := C169 L hL δ hN (p.A.nc + 1) ((Vec.zeros p.A.nc).append (Vec.ones 1))
    (p.A.happ (Poly.rowNorms p.A).neg) p.b none none rfl ⟨rfl, s2⟩ (.inl hrows) 1e-7 hδ
  cases hmin : s.min with
  | none =>
    exfalso
    rcases hnone hmin with h | h
    · refine h ⟨p.A.nc + 1, fun j => if j < p.A.nc then x0 j else 0⟩ ⟨fun i hi => ?_, trivial⟩
      rw [show (p.A.happ (Poly.rowNorms p.A).neg).nc = p.A.nc + 1 from rfl, Poly.chebRow]
      simp only [lt_irrefl, if_false, neg_zero, zero_mul, add_zero]
      exact le_of_eq_of_le (Finset.sum_congr rfl fun j hj => by simp only [if_pos (mem_range.1 hj)]) (hx0.1 i hi)
    · obtain ⟨x, hx, hlt⟩ := h (-(M + 1))
      rw [Poly.chebCost] at hlt
      have := hfb x.e (-x.e p.A.nc) (by linarith) fun i hi => by
        have := hx.1 i hi
        rwa [show (p.A.happ (Poly.rowNorms p.A).neg).nc = p.A.nc + 1 from rfl, Poly.chebRow] at this
      linarith
  | some m =>
    obtain ⟨z, -, -, -, hz, -⟩ := C168 L hL (p.A.nc + 1)
          ((Vec.zeros p.A.nc).append (Vec.ones 1)) (p.A.happ (Poly.rowNorms p.A).neg) p.b none none rfl ⟨rfl, s2⟩ 1e-7 s m hs hmin
    have hch : Poly.chebyshev L p.A p.b p.C p.d = .ok (some (-m, z.slice 0 (z.n - 1))) := by
      unfold Poly.chebyshev
      rw [if_neg (by omega), Poly.chebyshevLP_eq, lpDefault, hs, Py.ok_bind, hmin, hz]
    exact ⟨-m, _, by rw [radius_run L hr, hch]; rfl⟩

/-- C176 – C178 apply to the interval `[0, 2]` and the exact routine: it is not reported empty, is included in `[0, 4]`, and has a radius -/
example : ∃ L : Lib, ∃ q, LibSound L ∧ NnlsWithin L 0 ∧ Poly.empty L (interval 2) = (.ok false, q) ∧
    (∃ r, Poly.is_included_in L (interval 2) (interval 4) = .ok r) ∧ ∃ r q', Poly.radius L (interval 2) = (.ok (some r), q') := by
  obtain ⟨L, hL⟩ := exists_lib
  have hi : ∀ a, (interval a).Inv 1 := fun a => ⟨rfl, rfl, rfl, rfl⟩
  have hmem : ∀ x, (interval 2).Mem x ↔ 0 ≤ x 0 ∧ x 0 ≤ 2 := by
    intro x
    constructor
    · rintro ⟨h, -⟩
      have h0 := h 0 (by norm_num [interval, Poly.fresh])
      have h1 := h 1 (by norm_num [interval, Poly.fresh])
      simp [interval, Poly.fresh] at h0 h1
      exact ⟨h1, h0⟩
    · rintro ⟨h0, h1⟩
      refine ⟨fun i hi => ?_, fun i hi => absurd hi (by simp [interval, Poly.fresh, Mat.zeros])⟩
      have : i < 2 := hi
      interval_cases i <;> simp [interval, Poly.fresh] <;> assumption
  have h1 : (interval 2).Mem fun _ => 1 := (hmem _).2 (by norm_num)
  have hrows : (interval 2).HasRows := .inl (by norm_num [interval, Poly.fresh])
  obtain ⟨e, he, hfar, -⟩ := C176 L hL.sound 1 (interval 2) (hi 2) hrows (fun e h => by cases h)
  have hef : e = false := by
    by_contra h
    have := hfar (by simpa using h) _ h1
    rw [Real.sqrt_le_sqrt_iff (by simp)] at this
    norm_num at this
  subst hef
  refine ⟨L, _, hL.sound, hL.within, he, C177_answers L hL.sound 0 hL.within (by norm_num) 1 _ _ (hi 2) (hi 4) hrows _ ⟨_, h1⟩
    (fun i hi => ⟨2, fun x hx => ?_⟩) (fun i hi => absurd hi (by simp [interval, Poly.fresh, Mat.zeros])),
    C178_answers L hL.sound 0 hL.within (by norm_num) 1 _ (hi 2) rfl rfl ⟨_, h1⟩ ⟨2, fun c r hr h => ?_⟩⟩
  · have : i < 2 := hi
    obtain ⟨a, b⟩ := (hmem x).1 hx
    interval_cases i <;> simp [interval, Poly.fresh, Spec.rowVal] <;> linarith
  · obtain ⟨h1, h2⟩ := (ball_one rfl hr).1 h
    have a1 := h1 0 (by norm_num [interval, Poly.fresh])
    have a2 := h2 1 (by norm_num [interval, Poly.fresh])
    simp [interval, Poly.fresh] at a1 a2
    linarith

end Verif.Props
