import Verif.Props.PwaSystem
import Verif.Props.PolyhedronBall
import Verif.Proofs.Mcais

/- Well-posedness of piecewise affine systems: C60 of properties.jsonl. -/
namespace Verif.Props
open Dyn Spec Finset

/-- the arrays of an intersection -/
theorem intersection_data {n : ℕ} {p q : Poly} (hp : p.Inv n) (hq : q.Inv n) :
    ∃ r, p.intersection q = .ok r ∧ r.Inv n ∧ (∀ x, r.Mem x ↔ p.Mem x ∧ q.Mem x) ∧ r = Poly.fresh r.A r.b r.C r.d ∧
      r.A.nr = q.A.nr + p.A.nr ∧ r.C.nr = q.C.nr + p.C.nr ∧
      (∀ i < q.A.nr, r.b.e i = q.b.e i ∧ ∀ j < n, r.A.e i j = q.A.e i j) ∧
      ∀ i, r.b.e (q.A.nr + i) = p.b.e i ∧ ∀ j < n, r.A.e (q.A.nr + i) j = p.A.e i j := by
  obtain ⟨r, h1, h2, h3, h4⟩ := (C13 n n p q hp hq).1 rfl
  have hs : (Poly.sel n none).length = n := by rw [Poly.sel_none]; simp
  have k1 := (Poly.add_inequality_ok hq p.A (.d1 p.b) none _).2 ⟨p.b, rfl, hp.2.1, by rw [hs]; exact hp.1, rfl⟩
  obtain ⟨i1, -⟩ := Poly.add_inequality_spec hq k1
  have k2 := (Poly.add_equality_ok i1 p.C (.d1 p.d) none _).2 ⟨p.d, rfl, hp.2.2.2, by rw [hs]; exact hp.2.2.1, rfl⟩
  have k3 := runOn_ok.1 h1
  rw [PyM.bind_ok k1] at k3
  have hr := (Prod.mk.inj (k3.symm.trans k2)).2
  have hm : ∀ i, ∀ j < n, (p.A.mul (Poly.selectionMatrix n none)).e i j = p.A.e i j := by
    intro i j hj
    rw [Mat.mul_e, Poly.selectionMatrix_eq, Poly.sel_none, Finset.sum_eq_single j]
    · rw [show ((Mat.eye n : Mat ℝ).rows (List.range n)).e j j = (Mat.eye n : Mat ℝ).e ((List.range n).getD j 0) j from rfl, Poly.getD_range hj]
      simp [Mat.eye]
    · intro k hk hkj
      rw [show ((Mat.eye n : Mat ℝ).rows (List.range n)).e k j = (Mat.eye n : Mat ℝ).e ((List.range n).getD k 0) j from rfl,
        Poly.getD_range (by rw [hp.1] at hk; exact Finset.mem_range.1 hk)]
      simp [Mat.eye, hkj]
    · intro h
      exact absurd (Finset.mem_range.2 (by rw [hp.1]; exact hj)) h
  refine ⟨r, h1, h2, h3, h4, by rw [hr]; rfl, by rw [hr]; rfl, fun i hi => ⟨?_, fun j hj => ?_⟩, fun i => ⟨?_, fun j hj => ?_⟩⟩
  · rw [hr]; exact Vec.append_e_lt _ _ (by rw [hq.2.1]; exact hi)
  · rw [hr]; exact Mat.vapp_e_lt _ _ _ hi
  · rw [hr]; show (q.b.append p.b).e _ = _; rw [← hq.2.1]; exact Vec.append_e_add _ _ _
  · rw [hr]; show (q.A.vapp _).e _ _ = _; rw [Mat.vapp_e_add]; exact hm i j hj

/-- a ball in two domains -/
def SharedBall (n : ℕ) (D E : Poly) (c : ℕ → ℝ) (r : ℝ) : Prop :=
  BallIn n D.A D.b D.C D.d c r ∧ BallIn n E.A E.b E.C E.d c r

/-- what is required of two domains -/
structure PairOk (n : ℕ) (D E : Poly) : Prop where
  inv1 : D.Inv n
  inv2 : E.Inv n
  noeq1 : D.C.nr = 0
  noeq2 : E.C.nr = 0
  ne1 : ∃ x, D.Mem x
  ne2 : ∃ x, E.Mem x

theorem shared_iff {n : ℕ} {D E R : Poly} (h : PairOk n D E) (hR : R.C.nr = 0) (hm : ∀ x, R.Mem x ↔ D.Mem x ∧ E.Mem x) (c : ℕ → ℝ) (r : ℝ) :
    BallIn n R.A R.b R.C R.d c r ↔ SharedBall n D E c r := by
  have e : ∀ (p : Poly), p.C.nr = 0 → (BallIn n p.A p.b p.C p.d c r ↔
      ∀ v : ℕ → ℝ, Real.sqrt (∑ j ∈ range n, v j ^ 2) ≤ r → p.Mem fun j => c j + v j) := fun p hp =>
    forall_congr' fun v => ⟨fun h => h fun i hi => by omega, fun h _ => h⟩
  unfold SharedBall
  rw [e R hR, e D h.noeq1, e E h.noeq2]
  simp only [hm]
  exact ⟨fun h => ⟨fun v hv => (h v hv).1, fun v hv => (h v hv).2⟩, fun h v hv => ⟨h.1 v hv, h.2 v hv⟩⟩

/-- inequalities with zero coefficients hold in the intersection of two nonempty domains -/
theorem pair_rows {n : ℕ} {D E R : Poly} (h : PairOk n D E) (hR : R.Inv n) (hnr : R.A.nr = E.A.nr + D.A.nr) (hC : R.C.nr = 0)
    (h1 : ∀ i < E.A.nr, R.b.e i = E.b.e i ∧ ∀ j < n, R.A.e i j = E.A.e i j)
    (h2 : ∀ i, R.b.e (E.A.nr + i) = D.b.e i ∧ ∀ j < n, R.A.e (E.A.nr + i) j = D.A.e i j) : ConstantRowsHold R.A R.b R.C R.d := by
  have key : ∀ i < R.A.nr, ∃ x, rowVal R.A i x ≤ R.b.e i := by
    intro i hi
    by_cases hE : i < E.A.nr
    · obtain ⟨x, hx⟩ := h.ne2
      refine ⟨x, ?_⟩
      rw [(h1 i hE).1]
      refine le_trans (le_of_eq ?_) (hx.1 i hE)
      unfold rowVal
      rw [hR.1, h.inv2.1]
      exact Finset.sum_congr rfl fun j hj => by rw [(h1 i hE).2 j (Finset.mem_range.1 hj)]
    · obtain ⟨k, rfl⟩ := Nat.exists_eq_add_of_le (not_lt.1 hE)
      obtain ⟨x, hx⟩ := h.ne1
      refine ⟨x, ?_⟩
      rw [(h2 k).1]
      refine le_trans (le_of_eq ?_) (hx.1 k (by omega))
      unfold rowVal
      rw [hR.1, h.inv1.1]
      exact Finset.sum_congr rfl fun j hj => by rw [(h2 k).2 j (Finset.mem_range.1 hj)]
  intro i hi h0 x _
  obtain ⟨y, hy⟩ := key i hi
  rw [h0 x fun k hk => by omega]
  rw [h0 y fun k hk => by omega] at hy
  exact hy

theorem overlap_ok {L : Lib} (hL : LibSpec L) {n : ℕ} {D E : Poly} (h : PairOk n D E)
    (hbd : ∃ M, ∀ c r, 0 ≤ r → SharedBall n D E c r → r ≤ M) {tol : ℝ} (htol : 0 ≤ tol) :
    ∃ o, PWA.overlap L D E tol = .ok o ∧ (o = true ↔ ∃ c r, tol < r ∧ SharedBall n D E c r) := by
  obtain ⟨R, h1, h2, h3, h4, h5, h6, h7, h8⟩ := intersection_data h.inv1 h.inv2
  have hC : R.C.nr = 0 := by rw [h6, h.noeq1, h.noeq2]
  have hrad : R._radius = none := by rw [h4]; rfl
  have hcen : R._center = none := by rw [h4]; rfl
  obtain ⟨r, c, q, k1, -, -, -, -, k2, k3⟩ := C18_partial L hL n R h2 (.inl hC) hrad hcen (pair_rows h h2 h5 hC h7 h8) (by
    obtain ⟨M, hM⟩ := hbd
    exact ⟨M, fun c r hr hb => hM c r hr ((shared_iff h hC h3 c r).1 hb)⟩)
  refine ⟨decide (tol < r), ?_, ?_⟩
  · unfold PWA.overlap
    rw [h1, Py.ok_bind, k1]
    rfl
  · rw [decide_eq_true_iff]
    constructor
    · intro hr
      exact ⟨c.e, r, hr, (shared_iff h hC h3 _ _).1 (k2 (by linarith)).1⟩
    · rintro ⟨c', r', hr', hb⟩
      have hb' := (shared_iff h hC h3 c' r').2 hb
      have hr : 0 ≤ r := by
        by_contra hneg
        have hno := k3.1 (not_le.1 hneg) c'
        have hz := hb' (fun _ => 0) (fun i hi => by omega) (by simp; linarith)
        simp only [add_zero] at hz
        exact hno hz
      exact lt_of_lt_of_le hr' ((k2 hr).2 c' r' (by linarith) hb')

theorem noneOverlaps_ok {L : Lib} (hL : LibSpec L) {n : ℕ} {D : Poly} {tol : ℝ} (htol : 0 ≤ tol) : ∀ l : List Poly,
    (∀ E ∈ l, PairOk n D E ∧ ∃ M, ∀ c r, 0 ≤ r → SharedBall n D E c r → r ≤ M) →
    ∃ w, PWA.noneOverlaps L D tol l = .ok w ∧ (w = true ↔ ∀ E ∈ l, ¬ ∃ c r, tol < r ∧ SharedBall n D E c r)
  | [], _ => ⟨true, rfl, by simp⟩
  | E :: l, h => by
    obtain ⟨o, h1, h2⟩ := overlap_ok hL (h E (by simp)).1 (h E (by simp)).2 htol
    obtain ⟨w, h3, h4⟩ := noneOverlaps_ok hL htol l fun F hF => h F (by simp [hF])
    rw [PWA.noneOverlaps, h1, Py.ok_bind]
    cases o with
    | true =>
      refine ⟨false, rfl, ⟨fun h => (by cases h), fun hno => ?_⟩⟩
      exact absurd (h2.1 rfl) (hno E (by simp))
    | false =>
      refine ⟨w, h3, h4.trans ⟨fun hno F hF => ?_, fun hno F hF => hno F (by simp [hF])⟩⟩
      rcases List.mem_cons.1 hF with rfl | hF
      · intro hs
        have := h2.2 hs
        cases this
      · exact hno F hF

theorem wellPosedFrom_ok {L : Lib} (hL : LibSpec L) {n : ℕ} {tol : ℝ} (htol : 0 ≤ tol) : ∀ l : List Poly,
    l.Pairwise (fun D E => PairOk n D E ∧ ∃ M, ∀ c r, 0 ≤ r → SharedBall n D E c r → r ≤ M) →
    ∃ w, PWA.wellPosedFrom L tol l = .ok w ∧ (w = true ↔ l.Pairwise fun D E => ¬ ∃ c r, tol < r ∧ SharedBall n D E c r)
  | [], _ => ⟨true, rfl, by simp⟩
  | D :: l, h => by
    rw [List.pairwise_cons] at h
    obtain ⟨w1, h1, h2⟩ := noneOverlaps_ok hL htol l h.1
    obtain ⟨w2, h3, h4⟩ := wellPosedFrom_ok hL htol l h.2
    rw [PWA.wellPosedFrom, h1, Py.ok_bind, List.pairwise_cons]
    cases w1 with
    | true => exact ⟨w2, h3, h4.trans ⟨fun h => ⟨h2.1 rfl, h⟩, fun h => h.2⟩⟩
    | false => exact ⟨false, rfl, ⟨fun h => (by cases h), fun h => absurd (h2.2 h.1) (by simp)⟩⟩

/-- C60, the part that holds: for nonempty domains without equalities such that the radii of the balls in any two of them are bounded,
`is_well_posed` returns, and its answer is `True` exactly when no two different domains share a ball with radius above `tol`.
Missing: pairs of domains that share arbitrarily large balls (see `C60_false`), empty domains and equalities. -/
theorem C60_partial (L : Lib) (hL : LibSpec L) (n : ℕ) (P : PWA) (tol : ℝ) (htol : 0 ≤ tol)
    (h : ∀ i j : ℕ, i < j → ∀ D E, P.domains[i]? = some D → P.domains[j]? = some E →
      PairOk n D E ∧ ∃ M, ∀ c r, 0 ≤ r → SharedBall n D E c r → r ≤ M) :
    ∃ w, P.is_well_posed L tol = .ok w ∧
      (w = true ↔ ∀ i j : ℕ, i < j → ∀ D E, P.domains[i]? = some D → P.domains[j]? = some E → ∀ c r, SharedBall n D E c r → r ≤ tol) := by
  have e : ∀ (Q : Poly → Poly → Prop), (P.domains.Pairwise Q ↔
      ∀ i j : ℕ, i < j → ∀ D E, P.domains[i]? = some D → P.domains[j]? = some E → Q D E) := by
    intro Q
    rw [List.pairwise_iff_getElem]
    constructor
    · intro h i j hij D E hD hE
      obtain ⟨hi, rfl⟩ := List.getElem?_eq_some_iff.1 hD
      obtain ⟨hj, rfl⟩ := List.getElem?_eq_some_iff.1 hE
      exact h i j hi hj hij
    · intro h i j hi hj hij
      exact h i j hij _ _ (List.getElem?_eq_getElem hi) (List.getElem?_eq_getElem hj)
  obtain ⟨w, h1, h2⟩ := wellPosedFrom_ok hL htol P.domains ((e _).2 h)
  refine ⟨w, h1, h2.trans ((e _).trans ?_)⟩
  refine forall_congr' fun i => forall_congr' fun j => forall_congr' fun _ => forall_congr' fun D => forall_congr' fun E =>
    forall_congr' fun _ => forall_congr' fun _ => ?_
  constructor
  · intro h c r hs
    by_contra hr
    exact h ⟨c, r, not_le.1 hr, hs⟩
  · rintro h ⟨c, r, hr, hs⟩
    exact absurd (h c r hs) (not_le.2 hr)

/-- the Chebyshev radius found for the wedge `{x ≤ 0, 1e-8 y ≤ x}` -/
theorem wedge_run {L : Lib} (hL : LibSpec L) {A : Mat ℝ} {b : Vec ℝ} {C : Mat ℝ} {d : Vec ℝ} (hC : C.nr = 0) (hr : A.nr = 2) (hc : A.nc = 2)
    (hb : b.n = 2) (b0 : b.e 0 = 0) (b1 : b.e 1 = 0) (h00 : A.e 0 0 = 1) (h01 : A.e 0 1 = 0) (h10 : A.e 1 0 = -1) (h11 : A.e 1 1 = 1e-8) :
    ∃ r c, Poly.chebyshev L A b C d = .ok (some (r, c)) ∧ r ≤ 1e-7 := by
  have n0 : rowNorm A 0 = 1 := by simp [rowNorm, hc, Finset.sum_range_succ, h00, h01]
  set ν := rowNorm A 1 with hν
  have hν0 : 0 ≤ ν := rowNorm_nonneg A 1
  set f : Vec ℝ := (Vec.zeros 2).append (Vec.ones 1) with hf
  set M : Mat ℝ := A.happ (Poly.rowNorms A).neg with hM
  have e0 : M.nc = 3 := by show A.nc + 1 = 3; rw [hc]
  have e1 : M.nr = 2 := hr
  have f0 : f.e 0 = 0 := rfl
  have f1 : f.e 1 = 0 := rfl
  have f2 : f.e 2 = 1 := rfl
  have a00 : M.e 0 0 = 1 := by rw [hM, Mat.happ_e_lt _ _ _ (by omega), h00]
  have a01 : M.e 0 1 = 0 := by rw [hM, Mat.happ_e_lt _ _ _ (by omega), h01]
  have a10 : M.e 1 0 = -1 := by rw [hM, Mat.happ_e_lt _ _ _ (by omega), h10]
  have a11 : M.e 1 1 = 1e-8 := by rw [hM, Mat.happ_e_lt _ _ _ (by omega), h11]
  have a02 : M.e 0 2 = -1 := by
    have := Mat.happ_e_add A (Poly.rowNorms A).neg 0 0
    rw [hc] at this
    rw [hM, this, ← n0]; rfl
  have a12 : M.e 1 2 = -ν := by
    have := Mat.happ_e_add A (Poly.rowNorms A).neg 1 0
    rw [hc] at this
    rw [hM, this]; rfl
  obtain ⟨ys, ss, x, r, lam, k1, k2, k3, k4, k5, k6⟩ := lp_run_none hL (n := 3) (f := f) (A := M) (b := b) rfl e0 (hb.trans e1.symm) (by omega) 1e-7
  have hres : lpRes f M b (fun _ => 1 / (1 + ν)) (fun _ => 0) (fun _ => 0) < (1e-7 : ℝ) ^ 2 := by
    unfold lpRes
    rw [e0, e1]
    simp only [Finset.sum_range_succ, Finset.sum_range_zero, f0, f1, f2, a00, a01, a02, a10, a11, a12, b0, b1]
    have hpos : 0 < 1 + ν := by linarith
    have hinv : 1 / (1 + ν) ≤ 1 := by rw [div_le_one hpos]; linarith
    have hinv0 : 0 ≤ 1 / (1 + ν) := by positivity
    have hst : -1 * (1 / (1 + ν)) + -ν * (1 / (1 + ν)) + 1 = 0 := by field_simp; ring
    have hsq : (1 / (1 + ν)) ^ 2 ≤ 1 := by nlinarith
    have : (0 + -1 * (1 / (1 + ν)) + -ν * (1 / (1 + ν)) + 1) ^ 2 = 0 := by rw [zero_add, hst]; ring
    rw [this]
    norm_num
    rw [one_div] at hsq
    nlinarith
  have hlt : r < 1e-7 := by
    rw [k4, Real.sqrt_lt' (by norm_num)]
    exact lt_of_le_of_lt (k5 _ _ _ (fun _ _ => by positivity) fun _ _ => le_rfl) hres
  rw [if_pos hlt] at k6
  refine ⟨-lpCost f x, x.slice 0 (x.n - 1), ?_, ?_⟩
  · unfold Poly.chebyshev
    rw [if_neg (by omega), Poly.chebyshevLP_eq]
    unfold lpDefault
    rw [hc, k6]
    rfl
  · obtain ⟨g, -, -⟩ := lpRes_bounds k4
    rw [e0, e1] at g
    simp only [Finset.sum_range_succ, Finset.sum_range_zero, b0, b1, zero_mul, zero_add] at g
    have hcost : lpCost f x = f.e 0 * x.e 0 + f.e 1 * x.e 1 + f.e 2 * x.e 2 := by
      simp only [lpCost, show f.n = 3 from rfl, Finset.sum_range_succ, Finset.sum_range_zero, zero_add]
    rw [hcost]
    linarith [(abs_le.1 g).1]

/-- C60 is false of the code: the half-planes `{1e-8 y ≤ x}` and `{x ≤ 0}` share balls of every radius, but `is_well_posed` answers `True`. -/
theorem C60_false : ∃ P : PWA, PwaOk P ∧ (∀ D ∈ P.domains, D.C.nr = 0) ∧
    (∀ r : ℝ, 0 ≤ r → ∃ D E c, P.domains[0]? = some D ∧ P.domains[1]? = some E ∧ SharedBall 2 D E c r) ∧
    ∀ L, LibSpec L → P.is_well_posed L = .ok true := by
  let S : AffineSystem := ⟨Mat.eye 1, Mat.eye 1, Vec.zeros 1, 1, 1⟩
  let D := Poly.fresh ⟨1, 2, fun _ j => if j = 0 then -1 else 1e-8⟩ ⟨1, fun _ => 0⟩ (Mat.zeros 0 2) (Vec.zeros 0)
  let E := Poly.fresh ⟨1, 2, fun _ j => if j = 0 then 1 else 0⟩ ⟨1, fun _ => 0⟩ (Mat.zeros 0 2) (Vec.zeros 0)
  have hD : D.Inv 2 := ⟨rfl, rfl, rfl, rfl⟩
  have hE : E.Inv 2 := ⟨rfl, rfl, rfl, rfl⟩
  refine ⟨⟨1, 1, [S, S], [D, E], 2⟩, ⟨rfl, ?_, ?_⟩, ?_, fun r hr => ⟨D, E, fun j => if j = 0 then -r else -1e9 * r, rfl, rfl, ?_⟩, fun L hL => ?_⟩
  · intro T hT
    simp only [List.mem_cons, List.not_mem_nil, or_false, or_self] at hT
    subst hT
    exact ⟨rfl, rfl, rfl, rfl, rfl⟩
  · intro F hF
    simp only [List.mem_cons, List.not_mem_nil, or_false] at hF
    rcases hF with rfl | rfl
    · exact ⟨hD, by show 0 < 1; omega⟩
    · exact ⟨hE, by show 0 < 1; omega⟩
  · intro F hF
    simp only [List.mem_cons, List.not_mem_nil, or_false] at hF
    rcases hF with rfl | rfl <;> rfl
  · have hv : ∀ v : ℕ → ℝ, Real.sqrt (∑ j ∈ range 2, v j ^ 2) ≤ r → |v 0| ≤ r ∧ |v 1| ≤ r := by
      intro v hv
      rw [Real.sqrt_le_left hr] at hv
      simp only [Finset.sum_range_succ, Finset.sum_range_zero, zero_add] at hv
      exact ⟨abs_le_of_sq_le_sq (by nlinarith [_root_.sq_nonneg (v 1)]) hr, abs_le_of_sq_le_sq (by nlinarith [_root_.sq_nonneg (v 0)]) hr⟩
    constructor
    · intro v _ hn
      obtain ⟨h0, h1⟩ := hv v hn
      refine (mem_noeq (p := D) rfl _).2 fun i hi => ?_
      have : i < 1 := hi
      interval_cases i
      simp [D, Poly.fresh, rowVal, Finset.sum_range_succ]
      have := (abs_le.1 h0).1
      have := (abs_le.1 h1).2
      norm_num
      linarith
    · intro v _ hn
      obtain ⟨h0, h1⟩ := hv v hn
      refine (mem_noeq (p := E) rfl _).2 fun i hi => ?_
      have : i < 1 := hi
      interval_cases i
      simp [E, Poly.fresh, rowVal, Finset.sum_range_succ]
      exact (abs_le.1 h0).2
  · obtain ⟨R, h1, h2, -, h4, h5, h6, h7, h8⟩ := intersection_data hD hE
    have hnr : R.A.nr = 2 := h5
    obtain ⟨r, c, k1, k2⟩ := wedge_run hL (A := R.A) (b := R.b) (C := R.C) (d := R.d) h6 hnr h2.1 (h2.2.1.trans hnr) (h7 0 one_pos).1 (h8 0).1
      ((h7 0 one_pos).2 0 (by omega)) ((h7 0 one_pos).2 1 (by omega)) ((h8 0).2 0 (by omega)) ((h8 0).2 1 (by omega))
    have hov : PWA.overlap L D E 1e-7 = .ok false := by
      unfold PWA.overlap
      rw [h1, Py.ok_bind, radius_run L (by rw [h4]; rfl), k1]
      show Except.ok (decide _) = _
      rw [decide_eq_false (not_lt.2 k2)]
    show PWA.wellPosedFrom L 1e-7 [D, E] = _
    simp only [PWA.wellPosedFrom, PWA.noneOverlaps, hov, Py.ok_bind, Bool.false_eq_true, if_false, if_true]

/-- overlapping intervals meet the hypotheses of `C60_partial` -/
example : PairOk 1 (interval 2) (interval 3) ∧ ∃ M, ∀ c r, 0 ≤ r → SharedBall 1 (interval 2) (interval 3) c r → r ≤ M := by
  have hm : ∀ a : ℝ, 0 ≤ a → (interval a).Mem fun _ => 0 := by
    intro a ha
    refine (mem_noeq (p := interval a) rfl _).2 fun i hi => ?_
    have : i < 2 := hi
    interval_cases i <;> simp [interval, Poly.fresh, rowVal, ha]
  refine ⟨⟨⟨rfl, rfl, rfl, rfl⟩, ⟨rfl, rfl, rfl, rfl⟩, rfl, rfl, ⟨_, hm 2 (by norm_num)⟩, ⟨_, hm 3 (by norm_num)⟩⟩, 2, fun c r hr h => ?_⟩
  obtain ⟨h1, h2⟩ := (ball_one (A := (interval 2).A) rfl hr).1 h.1
  have a1 := h1 0 (by norm_num [interval, Poly.fresh])
  have a2 := h2 1 (by norm_num [interval, Poly.fresh])
  simp [interval, Poly.fresh] at a1 a2
  linarith

end Verif.Props
