import Verif.Proofs.Interval
import Verif.Props.PolyhedronBall
import Verif.Props.PolyhedronBounded

/- C21, C86, C87: vertices of polytopes and polytopes from points. -/
namespace Verif.Props
open Finset

/-- `bounded` on a bounded polyhedron changes the cached answers only -/
theorem bounded_true {L : Lib} (hL : LibSpec L) {n : ℕ} {p : Poly} (hp : p.Inv n) (hc : p.EmptyOk L) (hb : p._bounded = none ∨ p._bounded = some true)
    (hn : 0 < n) (hne : Spec.NearPoint n p.A p.b p.C p.d) (hbd : Spec.IsBounded n p.A p.b p.C p.d) :
    ∃ e b, Poly.bounded L p = (.ok true, { p with _empty := e, _bounded := b }) := by
  rcases hb with hb | hb
  · have hrows := Poly.hasRows_of_bounded hn hbd
    obtain ⟨r, q, h1, h2, -⟩ := C17_any_scaling L hL n p hp hc hb hrows hn hne
    rw [h2 hbd] at h1
    have hrun := Poly.bounded_run hL hp hc hb ((Poly.computeEmpty_false_iff hL hp hrows).2 hne) hn
    rw [h1] at hrun
    split_ifs at hrun with h3
    · cases Except.ok.inj (Prod.mk.inj hrun).1
    · split at hrun
      · obtain ⟨k1, k2⟩ := Prod.mk.inj hrun
        exact ⟨some false, some _, by rw [h1, k2]⟩
      · cases (Prod.mk.inj hrun).1
  · refine ⟨p._empty, p._bounded, ?_⟩
    unfold Poly.bounded
    rw [PyM.bind_ok (PyM.get_apply p), hb]
    cases p
    simp only at hb
    subst hb
    rfl

/-- the radii of the balls in a bounded polyhedron are bounded -/
theorem radii_bounded {L : Lib} (hL : LibSpec L) {n : ℕ} {p : Poly} (hp : p.Inv n) (heq : p.C.nr = 0 ∨ Spec.EqIndep n p.C) (hdim : p.C.nr < n)
    (hbd : Spec.IsBounded n p.A p.b p.C p.d) : ∃ M, ∀ c r, 0 ≤ r → Spec.BallIn n p.A p.b p.C p.d c r → r ≤ M := by
  obtain ⟨E, f, N, x0, hN, hch⟩ : ∃ E f N x0, 0 < N.nc ∧ Poly.Chart n p E f N x0 := by
    by_cases h0 : p.C.nr = 0
    · exact ⟨_, _, _, _, by show 0 < n; omega, Poly.chart_id hp h0⟩
    · obtain ⟨E, f, N, R, x0, -, h2, h3⟩ := Poly.removeEqualities_ok hL hp (by omega) (Poly.eqRank_iff.2 (heq.resolve_left h0))
      exact ⟨E, f, N, x0, h2, h3.chart hp⟩
  obtain ⟨M, hM⟩ := hbd
  refine ⟨Real.sqrt (∑ _j ∈ range n, M ^ 2), fun c r hr hball => ?_⟩
  set v : ℕ → ℝ := fun j => ∑ l ∈ range N.nc, N.e j l * (if l = 0 then r else 0) with hv
  have hn : ∑ j ∈ range n, v j ^ 2 = r ^ 2 := by
    rw [hv, hch.iso, Finset.sum_eq_single 0 (fun b _ hb => by rw [if_neg hb]; norm_num) (fun h => absurd (mem_range.2 hN) h), if_pos rfl]
  have hk : ∀ i < p.C.nr, Spec.rowVal p.C i v = 0 := (hch.ker v).2 ⟨_, fun _ _ => rfl⟩
  have hk' : ∀ i < p.C.nr, Spec.rowVal p.C i (fun j => - v j) = 0 := fun i hi => by
    have := hk i hi
    simp only [Spec.rowVal, mul_neg, Finset.sum_neg_distrib] at this ⊢
    rw [this, neg_zero]
  have h1 := hM _ (hball v hk (by rw [hn, Real.sqrt_sq hr]))
  have h2 := hM _ (hball (fun j => - v j) hk' (by simp only [neg_sq]; rw [hn, Real.sqrt_sq hr]))
  refine Real.le_sqrt_of_sq_le ?_
  rw [← hn]
  refine Finset.sum_le_sum fun j hj => ?_
  have h3 := abs_le.1 (h1 j (mem_range.1 hj))
  have h4 := abs_le.1 (h2 j (mem_range.1 hj))
  exact sq_le_sq' (by linarith) (by linarith)

/-- the run of `vertices` on a bounded polyhedron with a point -/
theorem vertices_run {L : Lib} (hL : LibSpec L) (Q : Qhull) {n : ℕ} {p : Poly} (hp : p.Inv n) (hc : p.EmptyOk L)
    (hb : p._bounded = none ∨ p._bounded = some true) (hr : p._radius = none) (hce : p._center = none) (hv : p._vertices = none)
    (hne : Spec.NearPoint n p.A p.b p.C p.d) (hbd : Spec.IsBounded n p.A p.b p.C p.d) (heq : p.C.nr = 0 ∨ Spec.EqIndep n p.C) (hdim : p.C.nr < n) :
    ∃ (r : ℝ) (c : Vec ℝ) (q : Poly), c.n = n ∧ Spec.EqHold p.C p.d c.e ∧ 0 ≤ r ∧ Spec.BallIn n p.A p.b p.C p.d c.e r ∧
      (∀ c' r', 0 ≤ r' → Spec.BallIn n p.A p.b p.C p.d c' r' → r' ≤ r) ∧
      q.A = p.A ∧ q.b = p.b ∧ q.C = p.C ∧ q.d = p.d ∧ q._center = some c ∧
      (r < 1e-7 → Poly.vertices L Q p = (.ok none, q)) ∧
      (1e-7 ≤ r → Poly.vertices L Q p = match Poly.computeVertices L Q p c with
        | .ok vs => (.ok (some vs), { q with _vertices := some vs })
        | .error e => (.error e, q)) := by
  obtain ⟨x0, hx0, -⟩ := id hne
  obtain ⟨r, c, k1, k2, k3, k4, k5, k6⟩ := Poly.chebyshev_ok hL hp (heq.imp_right Poly.eqRank_iff.2) (constantRows_of_mem hx0)
    (radii_bounded hL hp heq hdim hbd)
  have hr0 : 0 ≤ r := by
    by_contra h
    exact k6.1 (not_le.1 h) x0 hx0
  obtain ⟨e, b, hbnd⟩ := bounded_true hL hp hc hb (by omega) hne hbd
  set q1 : Poly := { p with _empty := e, _bounded := b } with hq1
  set q : Poly := { q1 with _radius := some r, _center := some c } with hq
  have e1 : Poly.radius L q1 = (.ok (some r), q) := by
    rw [radius_run L (show q1._radius = none from hr), show Poly.chebyshev L q1.A q1.b q1.C q1.d = _ from k1]
    rfl
  have e2 : Poly.center L q = (.ok (some c), q) := rfl
  refine ⟨r, c, q, k2, k3, hr0, k4 hr0, k5, rfl, rfl, rfl, rfl, rfl, fun hlt => ?_, fun hge => ?_⟩
  · unfold Poly.vertices
    rw [PyM.bind_ok (PyM.get_apply p), hv]
    simp only
    rw [PyM.bind_ok hbnd, if_pos rfl, PyM.bind_ok e1]
    have : Poly.radiusBelow 1e-7 (some r) = .ok true := congrArg Except.ok (decide_eq_true hlt)
    rw [this]
    rfl
  · unfold Poly.vertices
    rw [PyM.bind_ok (PyM.get_apply p), hv]
    simp only
    rw [PyM.bind_ok hbnd, if_pos rfl, PyM.bind_ok e1]
    have : Poly.radiusBelow 1e-7 (some r) = .ok false := congrArg Except.ok (decide_eq_false (not_lt.2 hge))
    rw [this, PyM.bind_ok (show PyM.lift (.ok false) q = (.ok false, q) from rfl), if_neg (by simp), PyM.bind_ok e2]
    simp only
    rcases Poly.computeVertices L Q p c with e | vs <;> rfl

/-- an inequality that is constant on the affine subspace of the equalities holds strictly there -/
def ConstantRowsStrict (A : Mat ℝ) (b : Vec ℝ) (C : Mat ℝ) (d : Vec ℝ) : Prop :=
  ∀ i < A.nr, (∀ v, (∀ k < C.nr, Spec.rowVal C k v = 0) → Spec.rowVal A i v = 0) → ∀ x, Spec.EqHold C d x → Spec.rowVal A i x < b.e i

/-- rows without coordinates in a chart are constant -/
theorem chart_strict {n : ℕ} {p : Poly} (hp : p.Inv n) {E : Mat ℝ} {f : Vec ℝ} {N : Mat ℝ} {x0 : ℕ → ℝ} (h : Poly.Chart n p E f N x0)
    (hst : ConstantRowsStrict p.A p.b p.C p.d) : ∀ i < E.nr, rowNorm E i = 0 → 0 < f.e i := by
  intro i hi h0
  have hi' : i < p.A.nr := h.Enr ▸ hi
  have hE : ∀ w, Spec.rowVal E i w = 0 := by
    intro w
    have k1 := rowVal_le_norm E i w
    have k2 := rowVal_le_norm E i (fun j => -w j)
    rw [h0, zero_mul] at k1 k2
    have : Spec.rowVal E i (fun j => -w j) = -Spec.rowVal E i w := by simp [Spec.rowVal, Finset.sum_neg_distrib]
    linarith
  have k := hst i hi' (fun v hv => by
    obtain ⟨w, hw⟩ := (h.ker v).1 hv
    have r1 := h.res (fun _ => 0) i hi'
    have r2 := h.res w i hi'
    have e : Spec.rowVal p.A i (affine x0 N w) = Spec.rowVal p.A i (affine x0 N fun _ => 0) + Spec.rowVal p.A i v := by
      rw [← rowVal_add]
      refine Poly.rowVal_congr hp.1 (fun j hj => ?_) i
      rw [hw j hj]
      simp [affine]
    rw [hE, e] at r2
    rw [hE] at r1
    linarith) _ (h.eqs fun _ => 0)
  have r1 := h.res (fun _ => 0) i hi'
  rw [hE] at r1
  linarith

/-- C86 (partial): for a bounded polyhedron with a point of norm at most about `1e7`, with independent equalities (or none) that leave two or more
coordinates free, without equalities disguised as constant inequalities, and containing a ball of radius `1e-7` (relative to the equalities),
`vertices` returns a list with exactly the extreme points, leaves the rows unchanged, and answers the same when it is called again.  If there is no
such ball it returns `None`.
Missing: descriptions with constant inequalities that are tight, for which `vertices` raises (`C86_false`). -/
theorem C86_partial (L : Lib) (hL : LibSpec L) (Q : Qhull) (hQ : QhullSpec Q) (n : ℕ) (p : Poly) (hp : p.Inv n) (hc : p.EmptyOk L)
    (hb : p._bounded = none ∨ p._bounded = some true) (hr : p._radius = none) (hce : p._center = none) (hv : p._vertices = none)
    (hne : Spec.NearPoint n p.A p.b p.C p.d) (hbd : Spec.IsBounded n p.A p.b p.C p.d) (heq : p.C.nr = 0 ∨ Spec.EqIndep n p.C)
    (hdim : p.C.nr + 2 ≤ n) :
    (ConstantRowsStrict p.A p.b p.C p.d → (∃ c, Spec.BallIn n p.A p.b p.C p.d c 1e-7) →
      ∃ vs q, Poly.vertices L Q p = (.ok (some vs), q) ∧ Poly.vertices L Q q = (.ok (some vs), q) ∧
        q.A = p.A ∧ q.b = p.b ∧ q.C = p.C ∧ q.d = p.d ∧ (∀ v ∈ vs, v.n = n) ∧
        ∀ x, (∃ v ∈ vs, ∀ j < n, x j = v.e j) ↔ Spec.IsVertex n (Spec.InPoly p.A p.b p.C p.d) x) ∧
    ((¬ ∃ c, Spec.BallIn n p.A p.b p.C p.d c 1e-7) →
      ∃ q, Poly.vertices L Q p = (.ok none, q) ∧ q.A = p.A ∧ q.b = p.b ∧ q.C = p.C ∧ q.d = p.d) := by
  obtain ⟨r, c, q, k1, k2, k3, k4, k5, q1, q2, q3, q4, -, hlt, hge⟩ := vertices_run hL Q hp hc hb hr hce hv hne hbd heq (by omega)
  constructor
  · rintro hst ⟨c', hc'⟩
    have hr1 := k5 c' 1e-7 (by norm_num) hc'
    have hpos : (0:ℝ) < r := lt_of_lt_of_le (by norm_num) hr1
    obtain ⟨vs, h1, h2, h3⟩ := Poly.compute_ok (Q := Q) hL hp (heq.imp_right Poly.eqRank_iff.2) k1 k2 k3 k4 (fun E f y hin hy hfit => by
      obtain ⟨N, x0, hch⟩ := hin.chart
      have hd := hin.dim
      exact Poly.inner_ok hQ (hch.fn.trans hch.Enr.symm) (by omega) hy hpos hfit (chart_strict hp hch hst) (hin.bounded hbd))
    have hrun := hge hr1
    rw [h1] at hrun
    exact ⟨vs, _, hrun, rfl, q1, q2, q3, q4, h2, h3⟩
  · intro hno
    refine ⟨q, hlt ?_, q1, q2, q3, q4⟩
    by_contra h
    push Not at h
    exact hno ⟨c.e, fun v hv hn => k4 v hv (hn.trans h)⟩

/-- a square with the additional inequality `0 ≤ 0` -/
noncomputable def squareTight (t : ℝ) : Poly :=
  Poly.fresh ⟨5, 2, fun i j => if i = 0 ∧ j = 0 ∨ i = 2 ∧ j = 1 then 1 else if i = 1 ∧ j = 0 ∨ i = 3 ∧ j = 1 then -1 else 0⟩
    ⟨5, fun i => if i < 4 then 1 else t⟩ (Mat.zeros 0 2) (Vec.zeros 0)

theorem squareTight_mem {t : ℝ} (ht : 0 ≤ t) (x : ℕ → ℝ) :
    Spec.InPoly (squareTight t).A (squareTight t).b (squareTight t).C (squareTight t).d x ↔ |x 0| ≤ 1 ∧ |x 1| ≤ 1 := by
  rw [abs_le, abs_le]
  constructor
  · rintro ⟨h, -⟩
    have h0 := h 0 (by show 0 < 5; norm_num)
    have h1 := h 1 (by show 1 < 5; norm_num)
    have h2 := h 2 (by show 2 < 5; norm_num)
    have h3 := h 3 (by show 3 < 5; norm_num)
    simp [squareTight, Poly.fresh] at h0 h1 h2 h3
    exact ⟨⟨by linarith, h0⟩, by linarith, h2⟩
  · rintro ⟨⟨h0, h1⟩, h2, h3⟩
    refine ⟨fun i hi => ?_, fun i hi => absurd hi (Nat.not_lt_zero i)⟩
    have : i < 5 := hi
    interval_cases i <;> simp [squareTight, Poly.fresh] <;> linarith

theorem squareTight_ball {t : ℝ} (ht : 0 ≤ t) :
    Spec.BallIn 2 (squareTight t).A (squareTight t).b (squareTight t).C (squareTight t).d (fun _ => 0) 1e-7 := by
  intro v _ hv
  rw [squareTight_mem ht]
  have h1 : ∑ j ∈ range 2, v j ^ 2 ≤ 1 := by
    by_contra h
    push Not at h
    have := Real.sqrt_lt_sqrt (by norm_num) h
    rw [Real.sqrt_one] at this
    norm_num at hv
    linarith
  simp only [Finset.sum_range_succ, Finset.sum_range_zero, zero_add] at h1 ⊢
  rw [abs_le, abs_le]
  refine ⟨⟨?_, ?_⟩, ?_, ?_⟩ <;> nlinarith [sq_nonneg (v 0), sq_nonneg (v 1), sq_nonneg (v 0 - 1), sq_nonneg (v 0 + 1), sq_nonneg (v 1 - 1), sq_nonneg (v 1 + 1)]

theorem squareTight_facts {t : ℝ} (ht : 0 ≤ t) : (squareTight t).Inv 2 ∧ (∀ L, (squareTight t).EmptyOk L) ∧
    Spec.NearPoint 2 (squareTight t).A (squareTight t).b (squareTight t).C (squareTight t).d ∧
    Spec.IsBounded 2 (squareTight t).A (squareTight t).b (squareTight t).C (squareTight t).d := by
  refine ⟨⟨rfl, rfl, rfl, rfl⟩, fun L e h => (by cases h), ⟨fun _ => 0, (squareTight_mem ht _).2 (by norm_num), by norm_num⟩, 1, fun x hx j hj => ?_⟩
  have := (squareTight_mem ht x).1 hx
  interval_cases j
  · exact this.1
  · exact this.2

/-- C86 (negation): the square `[-1, 1]²` described with the additional inequality `0 ≤ 0` meets the hypotheses, except the one on constant
inequalities, and `vertices` raises. -/
theorem C86_false : (squareTight 0).Inv 2 ∧ (∀ L, (squareTight 0).EmptyOk L) ∧
    Spec.NearPoint 2 (squareTight 0).A (squareTight 0).b (squareTight 0).C (squareTight 0).d ∧
    Spec.IsBounded 2 (squareTight 0).A (squareTight 0).b (squareTight 0).C (squareTight 0).d ∧
    Spec.BallIn 2 (squareTight 0).A (squareTight 0).b (squareTight 0).C (squareTight 0).d (fun _ => 0) 1e-7 ∧
    ∀ L, LibSpec L → ∀ Q, QhullSpec Q → ∃ e q, Poly.vertices L Q (squareTight 0) = (.error e, q) := by
  obtain ⟨h1, h2, h3, h4⟩ := squareTight_facts le_rfl
  have hball := squareTight_ball (t := 0) le_rfl
  refine ⟨h1, h2, h3, h4, hball, fun L hL Q hQ => ?_⟩
  obtain ⟨r, c, q, k1, k2, k3, k4, k5, -, -, -, -, -, -, hge⟩ := vertices_run hL Q h1 (h2 L) (Or.inl rfl) rfl rfl rfl h3 h4 (Or.inl rfl) (by show 0 < 2; norm_num)
  have hrun := hge (k5 _ _ (by norm_num) hball)
  obtain ⟨e, he⟩ : ∃ e, Poly.computeVertices L Q (squareTight 0) c = .error e := by
    unfold Poly.computeVertices Poly.innerVertices
    rw [if_neg (show ¬ 0 < (squareTight 0).C.nr from Nat.not_lt_zero 0), if_neg (show (squareTight 0).A.nc ≠ 1 by show 2 ≠ 1; norm_num)]
    set H : Mat ℝ := (squareTight 0).A.happ ⟨(squareTight 0).b.n, 1, fun i _ => - (squareTight 0).b.e i⟩ with hH
    have e1 : np.hstack [(squareTight 0).A, ⟨(squareTight 0).b.n, 1, fun i _ => - (squareTight 0).b.e i⟩] = .ok H := rfl
    obtain ⟨e, he⟩ := hQ.half_point H c ⟨4, by show 4 < 5; norm_num, by
      rw [k1]
      have g : ∀ j < 3, H.e 4 j = 0 := by
        intro j hj
        interval_cases j <;> simp [hH, Mat.happ_e, squareTight, Poly.fresh]
      rw [Finset.sum_eq_zero fun j hj => by rw [g j (by have := mem_range.1 hj; omega), zero_mul], g 2 (by norm_num)]
      norm_num⟩
    refine ⟨e, ?_⟩
    rw [e1, Py.ok_bind, he]
    rfl
  rw [he] at hrun
  exact ⟨e, q, hrun⟩

/-- with `0 ≤ 1` instead, the vertices are the four corners -/
example (L : Lib) (hL : LibSpec L) (Q : Qhull) (hQ : QhullSpec Q) : ∃ vs q, Poly.vertices L Q (squareTight 1) = (.ok (some vs), q) ∧
    ∀ x : ℕ → ℝ, (∃ v ∈ vs, ∀ j < 2, x j = v.e j) ↔ |x 0| = 1 ∧ |x 1| = 1 := by
  obtain ⟨h1, h2, h3, h4⟩ := squareTight_facts (t := 1) zero_le_one
  have hst : ConstantRowsStrict (squareTight 1).A (squareTight 1).b (squareTight 1).C (squareTight 1).d := by
    intro i hi hv x _
    have hi : i < 5 := hi
    have g0 := hv (fun j => if j = 0 then 1 else 0) (fun k hk => absurd hk (Nat.not_lt_zero k))
    have g1 := hv (fun j => if j = 0 then 0 else 1) (fun k hk => absurd hk (Nat.not_lt_zero k))
    interval_cases i <;> simp [squareTight, Poly.fresh, Spec.rowVal, Finset.sum_range_succ] at g0 g1 ⊢
  obtain ⟨vs, q, k1, -, -, -, -, -, -, k2⟩ := (C86_partial L hL Q hQ 2 (squareTight 1) h1 (h2 L) (Or.inl rfl) rfl rfl rfl h3 h4 (Or.inl rfl)
    (by show 0 + 2 ≤ 2; norm_num)).1 hst ⟨_, squareTight_ball zero_le_one⟩
  refine ⟨vs, q, k1, fun x => (k2 x).trans ?_⟩
  have hm := squareTight_mem (t := 1) zero_le_one
  constructor
  · rintro ⟨hx, he⟩
    have hx := (hm x).1 hx
    have side : ∀ i < 2, |x i| = 1 := by
      intro i hi
      by_contra hne
      have hlt : |x i| < 1 := lt_of_le_of_ne (by interval_cases i; exacts [hx.1, hx.2]) hne
      set v : ℕ → ℝ := fun j => if j = i then 1 - |x i| else 0 with hv
      have hb : ∀ s : ℝ, |s| = 1 → ∀ j < 2, |x j + s * v j| ≤ 1 := by
        intro s hs j hj
        by_cases hji : j = i
        · subst hji
          refine (abs_add_le _ _).trans ?_
          rw [abs_mul, hs, one_mul, hv]
          simp only [if_true]
          rw [abs_of_pos (sub_pos.2 hlt)]
          linarith
        · rw [hv]
          simp only [if_neg hji, mul_zero, add_zero]
          interval_cases j
          · exact hx.1
          · exact hx.2
      have e := he v ((hm _).2 ?_) ((hm _).2 ?_) i hi
      · rw [hv] at e
        simp only [if_true] at e
        linarith
      · have := hb 1 (by norm_num)
        simp only [one_mul] at this
        exact ⟨this 0 (by norm_num), this 1 (by norm_num)⟩
      · have := hb (-1) (by norm_num)
        simp only [neg_mul, one_mul, ← sub_eq_add_neg] at this
        exact ⟨this 0 (by norm_num), this 1 (by norm_num)⟩
    exact ⟨side 0 (by norm_num), side 1 (by norm_num)⟩
  · rintro ⟨g0, g1⟩
    refine ⟨(hm x).2 ⟨g0.le, g1.le⟩, fun v hv hv' => ?_⟩
    have a1 := (hm _).1 hv
    have a2 := (hm _).1 hv'
    have side : ∀ i, |x i| = 1 → |x i + v i| ≤ 1 → |x i - v i| ≤ 1 → v i = 0 := by
      intro i h h1 h2
      rw [abs_le] at h1 h2
      rcases abs_eq (by norm_num : (0:ℝ) ≤ 1) |>.1 h with h | h <;> rw [h] at h1 h2 <;> linarith [h1.1, h1.2, h2.1, h2.2]
    intro j hj
    interval_cases j
    · exact side 0 g0 a1.1 a2.1
    · exact side 1 g1 a1.2 a2.2

/-- C21 (partial): for a bounded polyhedron with a point of norm at most about `1e7` whose equalities (independent or none) leave one coordinate free
and that contains a segment of half length `1e-7`, if no inequality is violated by less than `1e-7` only subject to another one, `vertices` returns a
list with exactly the end points of the segment.
Missing: inequalities that are almost redundant, for which the result is not exact (`C21_false`; the error is bounded in `C21_close_partial`). -/
theorem C21_partial (L : Lib) (hL : LibSpec L) (Q : Qhull) (n : ℕ) (p : Poly) (hp : p.Inv n) (hc : p.EmptyOk L)
    (hb : p._bounded = none ∨ p._bounded = some true) (hr : p._radius = none) (hce : p._center = none) (hv : p._vertices = none)
    (hne : Spec.NearPoint n p.A p.b p.C p.d) (hbd : Spec.IsBounded n p.A p.b p.C p.d) (heq : p.C.nr = 0 ∨ Spec.EqIndep n p.C)
    (hdim : p.C.nr + 1 = n) (hball : ∃ c, Spec.BallIn n p.A p.b p.C p.d c 1e-7)
    (hgap : ∀ i < p.A.nr, ∀ k < p.A.nr, Spec.GapAt p.A p.b p.C p.d 1e-7 {k} i) :
    ∃ vs q, Poly.vertices L Q p = (.ok (some vs), q) ∧ Poly.vertices L Q q = (.ok (some vs), q) ∧
      q.A = p.A ∧ q.b = p.b ∧ q.C = p.C ∧ q.d = p.d ∧ (∀ v ∈ vs, v.n = n) ∧
      ∀ x, (∃ v ∈ vs, ∀ j < n, x j = v.e j) ↔ Spec.IsVertex n (Spec.InPoly p.A p.b p.C p.d) x := by
  obtain ⟨r, c, q, k1, k2, k3, k4, k5, q1, q2, q3, q4, -, hlt, hge⟩ := vertices_run hL Q hp hc hb hr hce hv hne hbd heq (by omega)
  obtain ⟨c', hc'⟩ := hball
  have hr1 := k5 c' 1e-7 (by norm_num) hc'
  obtain ⟨vs, h1, h2, h3⟩ := Poly.compute_ok (Q := Q) hL hp (heq.imp_right Poly.eqRank_iff.2) k1 k2 k3 k4 (fun E f y hin hy hfit => by
    obtain ⟨N, x0, hch⟩ := hin.chart
    have hE : E.nc = 1 := by have := hin.dim; omega
    obtain ⟨y0, hy0, hn⟩ := hin.near hne
    have hv : ∀ i (x : ℕ → ℝ), Spec.rowVal E i x = E.e i 0 * x 0 := fun i x => by simp [Spec.rowVal, hE]
    refine Poly.interval_ok hL Q y hE (hch.fn.trans hch.Enr.symm) hy0 hn (hin.bounded hbd) fun i hi k hk => ?_
    rw [hch.Enr] at hi hk
    rintro ⟨t, ht1, ht2⟩
    have e1 := hch.res (fun _ => t) i hi
    have e2 := hch.res (fun _ => t) k hk
    rw [hv] at e1 e2
    obtain ⟨x, x1, x2, x3⟩ := hgap i hi k hk ⟨_, hch.eqs fun _ => t, fun j _ hj => by rw [Set.mem_singleton_iff.1 hj]; linarith, by linarith⟩
    obtain ⟨z, hz⟩ := hch.surj x x1
    have x2' := x2 k hk rfl
    rw [Poly.rowVal_congr hp.1 hz] at x2' x3
    have e3 := hch.res z i hi
    have e4 := hch.res z k hk
    rw [hv] at e3 e4
    exact ⟨z 0, by linarith, by linarith⟩)
  have hrun := hge hr1
  rw [h1] at hrun
  exact ⟨vs, _, hrun, rfl, q1, q2, q3, q4, h2, h3⟩

/-- C21 (partial), without a hypothesis on almost redundant inequalities: for an interval described by inequalities `a i * x ≤ b i`, containing a
segment of half length `1e-7`, `vertices` returns two numbers.  They bound the interval from above and from below, and their distances from it are at
most `1e-7` times the sum of `1 / |a i|`. -/
theorem C21_close_partial (L : Lib) (hL : LibSpec L) (Q : Qhull) (p : Poly) (hp : p.Inv 1) (hC : p.C.nr = 0) (hc : p.EmptyOk L)
    (hb : p._bounded = none ∨ p._bounded = some true) (hr : p._radius = none) (hce : p._center = none) (hv : p._vertices = none)
    (hne : Spec.NearPoint 1 p.A p.b p.C p.d) (hbd : Spec.IsBounded 1 p.A p.b p.C p.d) (hball : ∃ c, Spec.BallIn 1 p.A p.b p.C p.d c 1e-7) :
    ∃ hi lo q, (Poly.vertices L Q p = (.ok (some [⟨1, fun _ => hi⟩, ⟨1, fun _ => lo⟩]), q) ∨
        Poly.vertices L Q p = (.ok (some [⟨1, fun _ => lo⟩, ⟨1, fun _ => hi⟩]), q)) ∧
      (∀ x, Spec.InPoly p.A p.b p.C p.d x → lo ≤ x 0 ∧ x 0 ≤ hi) ∧
      (∃ x, Spec.InPoly p.A p.b p.C p.d x ∧ hi - 1e-7 * ∑ i ∈ range p.A.nr, 1 / |p.A.e i 0| ≤ x 0) ∧
      ∃ x, Spec.InPoly p.A p.b p.C p.d x ∧ x 0 ≤ lo + 1e-7 * ∑ i ∈ range p.A.nr, 1 / |p.A.e i 0| := by
  obtain ⟨r, c, q, k1, k2, k3, k4, k5, q1, q2, q3, q4, -, hlt, hge⟩ := vertices_run hL Q hp hc hb hr hce hv hne hbd (Or.inl hC) (by omega)
  obtain ⟨c', hc'⟩ := hball
  have hrun := hge (k5 c' 1e-7 (by norm_num) hc')
  obtain ⟨y0, hy0, hn⟩ := id hne
  have hA : p.A.nc = 1 := hp.1
  have hval : ∀ i (x : ℕ → ℝ), Spec.rowVal p.A i x = p.A.e i 0 * x 0 := fun i x => by simp [Spec.rowVal, hA]
  have hmem : ∀ x, Spec.InPoly p.A p.b p.C p.d x ↔ ∀ i < p.A.nr, p.A.e i 0 * x 0 ≤ p.b.e i := fun x =>
    ⟨fun h i hi => by rw [← hval]; exact h.1 i hi, fun h => ⟨fun i hi => (hval i x).le.trans (h i hi), fun i hi => absurd hi (by omega)⟩⟩
  obtain ⟨l, i, j, hk, hi, hj, pi, pj, hor⟩ := Poly.interval_run hL Q c hA hp.2.1 hy0.1 (by rw [hA]; exact hn) (by
    obtain ⟨M, hM⟩ := hbd
    exact ⟨M, fun y hy l hl => hM y ⟨hy, fun i hi => absurd hi (by omega)⟩ l (by omega)⟩)
  have hcomp : Poly.computeVertices L Q p c = Poly.innerVertices L Q p.A p.b c := by
    unfold Poly.computeVertices
    rw [if_neg (by omega)]
  rw [hcomp] at hrun
  obtain ⟨x1, a1, a2, a3⟩ := hk.close (s := 1) (Or.inl rfl) hi (by linarith)
  obtain ⟨x2, b1, b2, b3⟩ := hk.close (s := -1) (Or.inr rfl) hj (by linarith)
  obtain ⟨q', hq'⟩ : ∃ q', Poly.vertices L Q p = (.ok (some [⟨1, fun _ => p.b.e i / p.A.e i 0⟩, ⟨1, fun _ => p.b.e j / p.A.e j 0⟩]), q') ∨
      Poly.vertices L Q p = (.ok (some [⟨1, fun _ => p.b.e j / p.A.e j 0⟩, ⟨1, fun _ => p.b.e i / p.A.e i 0⟩]), q') := by
    rcases hor with h | h
    · rw [h] at hrun; exact ⟨_, Or.inl hrun⟩
    · rw [h] at hrun; exact ⟨_, Or.inr hrun⟩
  refine ⟨p.b.e i / p.A.e i 0, p.b.e j / p.A.e j 0, q', hq', fun x hx => ?_, ⟨fun _ => x1, (hmem _).2 a1, by linarith⟩,
    fun _ => x2, (hmem _).2 b1, by linarith⟩
  have g := (hmem x).1 hx
  have g1 := g i (hk.lt i hi)
  have g2 := g j (hk.lt j hj)
  constructor
  · rw [div_le_iff_of_neg pj]; linarith
  · rw [le_div_iff₀ pi]; linarith

/-- the interval `[-1, 0]` with the inequalities `x ≤ 0`, `x ≤ t`, `-x ≤ 1` -/
noncomputable def segment (t : ℝ) : Poly :=
  Poly.fresh ⟨3, 1, fun i _ => if i < 2 then 1 else -1⟩ ⟨3, fun i => if i = 0 then 0 else if i = 1 then t else 1⟩ (Mat.zeros 0 1) (Vec.zeros 0)

theorem segment_mem {t : ℝ} (ht : 0 ≤ t) (x : ℕ → ℝ) :
    Spec.InPoly (segment t).A (segment t).b (segment t).C (segment t).d x ↔ -1 ≤ x 0 ∧ x 0 ≤ 0 := by
  constructor
  · rintro ⟨h, -⟩
    have h0 := h 0 (by show 0 < 3; norm_num)
    have h2 := h 2 (by show 2 < 3; norm_num)
    simp [segment, Poly.fresh] at h0 h2
    exact ⟨by linarith, h0⟩
  · rintro ⟨h0, h1⟩
    refine ⟨fun i hi => ?_, fun i hi => absurd hi (Nat.not_lt_zero i)⟩
    have : i < 3 := hi
    interval_cases i <;> simp [segment, Poly.fresh] <;> linarith

theorem segment_facts {t : ℝ} (ht : 0 ≤ t) : (segment t).Inv 1 ∧ (∀ L, (segment t).EmptyOk L) ∧
    Spec.NearPoint 1 (segment t).A (segment t).b (segment t).C (segment t).d ∧
    Spec.IsBounded 1 (segment t).A (segment t).b (segment t).C (segment t).d ∧
    Spec.BallIn 1 (segment t).A (segment t).b (segment t).C (segment t).d (fun _ => -1 / 2) 1e-7 := by
  refine ⟨⟨rfl, rfl, rfl, rfl⟩, fun L e h => (by cases h), ⟨fun _ => 0, (segment_mem ht _).2 (by norm_num), by norm_num⟩, ⟨1, fun x hx j hj => ?_⟩,
    fun v _ hv => ?_⟩
  · have := (segment_mem ht x).1 hx
    interval_cases j
    rw [abs_le]
    exact ⟨this.1, by linarith⟩
  · rw [segment_mem ht]
    simp only [Finset.sum_range_one, Real.sqrt_sq_eq_abs] at hv
    have := abs_le.1 hv
    norm_num at this
    constructor <;> linarith

/-- C21 (negation): the interval `[-1, 0]` described by `x ≤ 0`, `x ≤ 5e-8` and `-x ≤ 1`.  The first inequality is removed as redundant and `5e-8` is
returned as a vertex; it is not in the interval. -/
theorem C21_false : (segment 5e-8).Inv 1 ∧ (∀ L, (segment 5e-8).EmptyOk L) ∧
    Spec.NearPoint 1 (segment 5e-8).A (segment 5e-8).b (segment 5e-8).C (segment 5e-8).d ∧
    Spec.IsBounded 1 (segment 5e-8).A (segment 5e-8).b (segment 5e-8).C (segment 5e-8).d ∧
    Spec.BallIn 1 (segment 5e-8).A (segment 5e-8).b (segment 5e-8).C (segment 5e-8).d (fun _ => -1 / 2) 1e-7 ∧
    ∀ L, LibSpec L → ∀ Q, ∃ vs q, Poly.vertices L Q (segment 5e-8) = (.ok (some vs), q) ∧
      ∃ v ∈ vs, v.e 0 = 5e-8 ∧ ¬ Spec.InPoly (segment 5e-8).A (segment 5e-8).b (segment 5e-8).C (segment 5e-8).d v.e := by
  have ht : (0:ℝ) ≤ 5e-8 := by norm_num
  obtain ⟨h1, h2, h3, h4, h5⟩ := segment_facts ht
  refine ⟨h1, h2, h3, h4, h5, fun L hL Q => ?_⟩
  obtain ⟨r, c, q, k1, k2, k3, k4, k5, q1, q2, q3, q4, -, hlt, hge⟩ := vertices_run hL Q h1 (h2 L) (Or.inl rfl) rfl rfl rfl h3 h4 (Or.inl rfl) (by show 0 < 1; norm_num)
  have hrun := hge (k5 _ 1e-7 (by norm_num) h5)
  obtain ⟨y0, hy0, hn⟩ := id h3
  obtain ⟨l, i, j, hk, hi, hj, pi, pj, hor⟩ := Poly.interval_run hL Q c (show (segment 5e-8).A.nc = 1 from rfl) rfl hy0.1 hn (by
    obtain ⟨M, hM⟩ := h4
    exact ⟨M, fun y hy l hl => hM y ⟨hy, fun i hi => absurd hi (Nat.not_lt_zero i)⟩ l hl⟩)
  have hcomp : Poly.computeVertices L Q (segment 5e-8) c = Poly.innerVertices L Q (segment 5e-8).A (segment 5e-8).b c := if_neg (Nat.not_lt_zero 0)
  rw [hcomp] at hrun
  -- the first inequality is not kept
  have hi0 : i ≠ 0 := by
    rintro rfl
    obtain ⟨x, -, x1, x2⟩ := hk.keep 0 hi
    have x3 := x2 1 (by show 1 < 3; norm_num) (by norm_num)
    simp [segment, Poly.fresh] at x1 x3
    norm_num at x1 x3
    linarith
  have hi1 : i = 1 := by
    have hi3 : i < 3 := hk.lt i hi
    interval_cases i
    · exact absurd rfl hi0
    · rfl
    · simp [segment, Poly.fresh] at pi
      linarith
  subst hi1
  have hval : (segment 5e-8).b.e 1 / (segment 5e-8).A.e 1 0 = 5e-8 := by simp [segment, Poly.fresh]
  have hnot : ¬ Spec.InPoly (segment 5e-8).A (segment 5e-8).b (segment 5e-8).C (segment 5e-8).d fun _ => (segment 5e-8).b.e 1 / (segment 5e-8).A.e 1 0 := by
    rw [segment_mem ht, hval]
    rintro ⟨-, h⟩
    norm_num at h
  rcases hor with h | h
  · rw [h] at hrun
    exact ⟨_, _, hrun, _, List.mem_cons_self, hval, hnot⟩
  · rw [h] at hrun
    exact ⟨_, _, hrun, _, List.mem_cons_of_mem _ List.mem_cons_self, hval, hnot⟩

/-- with `x ≤ 1` instead, the result is exact although the description is redundant -/
example (L : Lib) (hL : LibSpec L) (Q : Qhull) : ∃ vs q, Poly.vertices L Q (segment 1) = (.ok (some vs), q) ∧
    ∀ x : ℕ → ℝ, (∃ v ∈ vs, ∀ j < 1, x j = v.e j) ↔ x 0 = -1 ∨ x 0 = 0 := by
  obtain ⟨h1, h2, h3, h4, h5⟩ := segment_facts (t := 1) zero_le_one
  have hm := segment_mem (t := 1) zero_le_one
  obtain ⟨vs, q, k1, -, -, -, -, -, -, k2⟩ := C21_partial L hL Q 1 (segment 1) h1 (h2 L) (Or.inl rfl) rfl rfl rfl h3 h4 (Or.inl rfl) rfl ⟨_, h5⟩ (by
    intro i hi k hk
    have hi : i < 3 := hi
    have hk : k < 3 := hk
    rintro ⟨x, -, x2, x3⟩
    have x2 := x2 k hk rfl
    -- a point far away, or the end of the half line
    have key : ∃ x : ℕ → ℝ, Spec.rowVal (segment 1).A k x ≤ (segment 1).b.e k ∧ (segment 1).b.e i + 1e-7 ≤ Spec.rowVal (segment 1).A i x := by
      refine ⟨fun _ => if k = 2 then (if i = 2 then 0 else 2) else (if i = 2 then -2 else 1), ?_⟩
      interval_cases i <;> interval_cases k <;> simp [segment, Poly.fresh, Spec.rowVal] at x2 x3 ⊢ <;> first | linarith | norm_num
    obtain ⟨x, y1, y2⟩ := key
    exact ⟨x, fun i hi => absurd hi (Nat.not_lt_zero i), fun j _ hj => by rw [Set.mem_singleton_iff.1 hj]; exact y1, y2⟩)
  refine ⟨vs, q, k1, fun x => (k2 x).trans ?_⟩
  constructor
  · rintro ⟨hx, he⟩
    have hx := (hm x).1 hx
    by_contra hne
    push Not at hne
    have l1 := lt_of_le_of_ne hx.1 (Ne.symm hne.1)
    have l2 := lt_of_le_of_ne hx.2 hne.2
    have := he (fun _ => min (x 0 + 1) (- x 0)) ((hm _).2 ?_) ((hm _).2 ?_) 0 (by norm_num)
    · have : 0 < min (x 0 + 1) (- x 0) := lt_min (by linarith) (by linarith)
      linarith
    · have a := min_le_right (x 0 + 1) (- x 0)
      have b : 0 ≤ min (x 0 + 1) (- x 0) := le_min (by linarith) (by linarith)
      constructor <;> linarith
    · have a := min_le_left (x 0 + 1) (- x 0)
      have b : 0 ≤ min (x 0 + 1) (- x 0) := le_min (by linarith) (by linarith)
      constructor <;> linarith
  · intro h
    refine ⟨(hm x).2 (by rcases h with h | h <;> rw [h] <;> norm_num), fun v hv hv' => ?_⟩
    have a1 := (hm _).1 hv
    have a2 := (hm _).1 hv'
    intro j hj
    interval_cases j
    rcases h with h | h <;> rw [h] at a1 a2 <;> linarith [a1.1, a1.2, a2.1, a2.2]

/-- C89 (partial): `vertices` is `None` for an unbounded polyhedron with a point of norm at most about `1e7` and data that are not badly scaled, and
for an empty polyhedron whose equalities are independent (or none) and whose constant inequalities hold; without inequalities and equalities
it raises `RuntimeError`.
Missing: empty polyhedra with a constant inequality that does not hold, for which `vertices` raises (`C89_false`). -/
theorem C89_partial (L : Lib) (hL : LibSpec L) (Q : Qhull) (n : ℕ) (p : Poly) (hp : p.Inv n) (hc : p.EmptyOk L)
    (hb : p._bounded = none) (hr : p._radius = none) (hv : p._vertices = none) :
    (0 < p.A.nr ∨ 0 < p.C.nr → Spec.NearPoint n p.A p.b p.C p.d → Spec.WellScaled 2e-7 n p.A p.C → ¬ Spec.IsBounded n p.A p.b p.C p.d →
      ∃ q, Poly.vertices L Q p = (.ok none, q)) ∧
    ((∀ x, ¬ Spec.InPoly p.A p.b p.C p.d x) → (p.C.nr = 0 ∨ Spec.EqIndep n p.C) → ConstantRowsHold p.A p.b p.C p.d →
      ∃ q, Poly.vertices L Q p = (.ok none, q)) ∧
    (p.A.nr = 0 → p.C.nr = 0 → Poly.vertices L Q p = (.error .runtimeError, p)) := by
  refine ⟨?_, ?_, ?_⟩
  · intro hrows hne hsc hnb
    have hn : 0 < n := Nat.pos_of_ne_zero fun h0 => hnb ⟨0, fun x _ j hj => absurd hj (by omega)⟩
    obtain ⟨r, q, h1, h2⟩ := (C17 L hL n p hp hc hb).1 hrows hn hne hsc
    have : r = false := by
      cases r with
      | true => exact absurd (h2.1 rfl) hnb
      | false => rfl
    subst this
    refine ⟨q, ?_⟩
    unfold Poly.vertices
    rw [PyM.bind_ok (PyM.get_apply p), hv]
    simp only
    rw [PyM.bind_ok h1, if_neg (by simp)]
    rfl
  · intro hem heq hrows
    have hR : p.HasRows := by
      by_contra h0
      unfold Poly.HasRows at h0
      exact hem (fun _ => 0) ⟨fun i hi => absurd hi (by omega), fun i hi => absurd hi (by omega)⟩
    obtain ⟨e, he, hrun⟩ := Poly.empty_run hL hp hR hc
    have : e = true := by
      cases e with
      | true => rfl
      | false => obtain ⟨x, hx, -⟩ := (Poly.computeEmpty_false_iff hL hp hR).1 he; exact absurd hx (hem x)
    subst this
    set q1 : Poly := { p with _empty := some true } with hq1
    have h1 : Poly.bounded L p = (.ok true, q1) := by
      unfold Poly.bounded
      rw [PyM.bind_ok (PyM.get_apply p), hb]
      simp only
      rw [PyM.bind_ok hrun]
      rfl
    obtain ⟨r, c, k1, -, -, -, -, k6⟩ := Poly.chebyshev_ok hL hp (heq.imp_right Poly.eqRank_iff.2) hrows
      ⟨0, fun c r hr hball => absurd (hball (fun _ => 0) (fun i _ => by simp [Spec.rowVal]) (by simpa using hr)) (hem _)⟩
    have hneg : r < 0 := k6.2 hem
    have h2 := radius_run L (show q1._radius = none from hr)
    rw [show Poly.chebyshev L q1.A q1.b q1.C q1.d = _ from k1] at h2
    obtain ⟨q2, h2⟩ : ∃ q2, Poly.radius L q1 = (.ok (some r), q2) := ⟨_, h2⟩
    refine ⟨q2, ?_⟩
    unfold Poly.vertices
    rw [PyM.bind_ok (PyM.get_apply p), hv]
    simp only
    rw [PyM.bind_ok h1, if_pos rfl, PyM.bind_ok h2]
    have : Poly.radiusBelow 1e-7 (some r) = .ok true := congrArg Except.ok (decide_eq_true (hneg.trans (by norm_num)))
    rw [this]
    rfl
  · intro hA hC
    have h1 := Poly.bounded_no_rows hL hp (by unfold Poly.HasRows; omega) hc hb
    unfold Poly.vertices
    rw [PyM.bind_ok (PyM.get_apply p), hv]
    simp only
    rw [PyM.bind_error h1]

/-- the half line `x ≤ 0`, and the empty set `x ≤ 0, 1 ≤ x` meet the hypotheses -/
example : (let p := Poly.fresh ⟨1, 1, fun _ _ => 1⟩ ⟨1, fun _ => 0⟩ (Mat.zeros 0 1) (Vec.zeros 0)
    p.Inv 1 ∧ 0 < p.A.nr ∧ Spec.NearPoint 1 p.A p.b p.C p.d ∧ Spec.WellScaled 2e-7 1 p.A p.C ∧ ¬ Spec.IsBounded 1 p.A p.b p.C p.d) ∧
    let p := Poly.fresh ⟨2, 1, fun i _ => if i = 0 then 1 else -1⟩ ⟨2, fun i => if i = 0 then 0 else -1⟩ (Mat.zeros 0 1) (Vec.zeros 0)
    p.Inv 1 ∧ (∀ x, ¬ Spec.InPoly p.A p.b p.C p.d x) ∧ p.C.nr = 0 ∧ ConstantRowsHold p.A p.b p.C p.d := by
  refine ⟨⟨⟨rfl, rfl, rfl, rfl⟩, Nat.zero_lt_one, ⟨fun _ => 0, ⟨fun i hi => ?_, fun i hi => absurd hi (Nat.not_lt_zero i)⟩, by norm_num⟩, Spec.wellScaled_of fun v hv => ?_, ?_⟩,
    ⟨rfl, rfl, rfl, rfl⟩, fun x hx => ?_, rfl, fun i hi h => ?_⟩
  · simp [Poly.fresh]
  · simp [Poly.fresh, Spec.rowVal]
    intro h
    nlinarith [abs_pos.2 h]
  · rintro ⟨M, hM⟩
    have := hM (fun _ => -(|M| + 1)) ⟨fun i hi => by simp [Poly.fresh]; linarith [abs_nonneg M], fun i hi => absurd hi (Nat.not_lt_zero i)⟩ 0 (by norm_num)
    rw [abs_neg, abs_of_pos (by positivity)] at this
    linarith [le_abs_self M]
  · have h0 := hx.1 0 (by show 0 < 2; norm_num)
    have h1 := hx.1 1 (by show 1 < 2; norm_num)
    simp [Poly.fresh] at h0 h1
    linarith
  · have hi : i < 2 := hi
    have := h (fun _ => 1) (fun i hi => absurd hi (Nat.not_lt_zero i))
    interval_cases i <;> simp [Poly.fresh, Spec.rowVal] at this

/-- C89 (negation): for the empty polyhedron `0 * x ≤ -1` the radius is `None` and `vertices` raises `TypeError` when it compares it with `1e-7`. -/
theorem C89_false : let p := Poly.fresh ⟨1, 1, fun _ _ => 0⟩ ⟨1, fun _ => -1⟩ (Mat.zeros 0 1) (Vec.zeros 0)
    p.Inv 1 ∧ (∀ L, p.EmptyOk L) ∧ (∀ x, ¬ Spec.InPoly p.A p.b p.C p.d x) ∧
    ∀ L, LibSpec L → ∀ Q, ∃ q, Poly.vertices L Q p = (.error .typeError, q) := by
  intro p
  have hp : p.Inv 1 := ⟨rfl, rfl, rfl, rfl⟩
  have hc : ∀ L, p.EmptyOk L := fun L e h => (by cases h)
  have hem : ∀ x, ¬ Spec.InPoly p.A p.b p.C p.d x := fun x hx => by
    have := hx.1 0 (by show 0 < 1; norm_num)
    simp [p, Poly.fresh] at this
    linarith
  refine ⟨hp, hc, hem, fun L hL Q => ?_⟩
  have hR : p.HasRows := .inl (show 0 < 1 by norm_num)
  obtain ⟨e, he, hrun⟩ := Poly.empty_run hL hp hR (hc L)
  have : e = true := by
    cases e with
    | true => rfl
    | false => obtain ⟨x, hx, -⟩ := (Poly.computeEmpty_false_iff hL hp hR).1 he; exact absurd hx (hem x)
  subst this
  set q1 : Poly := { p with _empty := some true } with hq1
  have h1 : Poly.bounded L p = (.ok true, q1) := by
    unfold Poly.bounded
    rw [PyM.bind_ok (PyM.get_apply p)]
    rw [show p._bounded = none from rfl]
    simp only
    rw [PyM.bind_ok hrun]
    rfl
  have k1 : Poly.chebyshev L q1.A q1.b q1.C q1.d = .ok none := by
    show Poly.chebyshevLP L p.A p.b = .ok none
    set B : Mat ℝ := p.A.happ (Poly.rowNorms p.A).neg with hB
    unfold Poly.chebyshevLP
    rw [show np.concatenate [Vec.zeros p.A.nc, Vec.ones 1] = .ok ((Vec.zeros p.A.nc).append (Vec.ones 1)) from rfl, Py.ok_bind,
      show np.hstack [p.A, (Poly.rowNorms p.A).neg] = .ok B from rfl, Py.ok_bind]
    have hs : Spec.ConstrShape 2 B p.b none none := ⟨rfl, rfl⟩
    obtain ⟨s, s1, -, s3⟩ := (C31 L hL 2 ((Vec.zeros p.A.nc).append (Vec.ones 1)) B p.b none none rfl hs 1e-7 (by norm_num)).1 (.inl (show 0 < 1 by norm_num))
    have hnone : s.min = none := by
      by_contra h
      obtain ⟨m, hm⟩ := Option.ne_none_iff_exists'.1 h
      obtain ⟨x, lam, ε, e1, -, -, -, -, e5, -⟩ := C32_partial L hL 2 ((Vec.zeros p.A.nc).append (Vec.ones 1)) B p.b none none rfl hs 1e-7 s m s1 hm
      have e6 := e5.1 0 (by show 0 < 1; norm_num)
      have hz : ∀ j, B.e 0 j = 0 := by
        intro j
        rw [hB, Mat.happ_e]
        split_ifs <;> simp [p, Poly.fresh, Poly.rowNorms, Mat.neg, vnorm, Mat.row]
      rw [Finset.sum_eq_zero fun j _ => by rw [hz j, zero_mul]] at e6
      simp [p, Poly.fresh] at e6
      norm_num at e1
      linarith
    unfold lpDefault
    rw [s1, Py.ok_bind, hnone]
    rfl
  have h2 := radius_run L (show q1._radius = none from rfl)
  rw [k1] at h2
  refine ⟨{ q1 with _radius := none, _center := none }, ?_⟩
  unfold Poly.vertices
  rw [PyM.bind_ok (PyM.get_apply p)]
  rw [show p._vertices = none from rfl]
  simp only
  rw [PyM.bind_ok h1, if_pos rfl, PyM.bind_ok (show Poly.radius L q1 = (.ok none, { q1 with _radius := none, _center := none }) from h2)]
  rfl

/-- no hyperplane contains all the points -/
def NotFlat (n : ℕ) (points : List (Vec ℝ)) : Prop :=
  ∀ (a : ℕ → ℝ) (d : ℝ), (∀ v ∈ points, ∑ j ∈ range n, a j * v.e j = d) → ∀ j < n, a j = 0

/-- `x` is a convex combination of the points -/
def IsCombination (n : ℕ) (points : List (Vec ℝ)) (x : ℕ → ℝ) : Prop :=
  ∃ w : Fin points.length → ℝ, (∀ k, 0 ≤ w k) ∧ ∑ k, w k = 1 ∧ ∀ j < n, x j = ∑ k, w k * (points[k]).e j

/-- C87: `from_convex_hull` of points of `R^n`, `n ≥ 2`, that are not on a hyperplane returns a polyhedron of `R^n` without equalities whose points
are exactly the convex combinations of the given points.  It raises if the points are on a hyperplane.  In dimension one, and without points, it raises
`ValueError`. -/
theorem C87 (Q : Qhull) (hQ : QhullSpec Q) (n : ℕ) (points : List (Vec ℝ)) (hne : points ≠ []) (hn : ∀ v ∈ points, v.n = n) :
    (2 ≤ n → NotFlat n points → ∃ p, Poly.from_convex_hull Q points = .ok p ∧ p.Inv n ∧ p.C.nr = 0 ∧
      ∀ x, Spec.InPoly p.A p.b p.C p.d x ↔ IsCombination n points x) ∧
    (¬ NotFlat n points → ∃ e, Poly.from_convex_hull Q points = .error e) ∧
    (n < 2 → Poly.from_convex_hull Q points = .error .valueError) ∧ Poly.from_convex_hull Q [] = .error .valueError := by
  obtain ⟨P, hP, hPn⟩ := vstack_ofRow_ok hne hn
  obtain ⟨p1, -, p3⟩ := vstack_ofRow hP
  have hflat : NotFlat n points ↔ Spec.FullDim P := by
    unfold NotFlat Spec.FullDim
    rw [hPn, p1]
    constructor
    · intro h a d hk
      refine h a d fun v hv => ?_
      obtain ⟨k, hk', rfl⟩ := List.getElem_of_mem hv
      rw [← hk k hk']
      exact Finset.sum_congr rfl fun j _ => by rw [p3 k hk']
    · intro h a d hv
      refine h a d fun k hk => ?_
      rw [← hv _ (List.getElem_mem hk)]
      exact Finset.sum_congr rfl fun j _ => by rw [p3 k hk]
  have hcomb : ∀ x, Spec.InHull P x ↔ IsCombination n points x := by
    intro x
    unfold Spec.InHull IsCombination
    rw [hPn, p1]
    constructor
    · rintro ⟨w, w1, w2, w3⟩
      refine ⟨fun k => w k, fun k => w1 k k.2, by rw [← w2, Finset.sum_range], fun j hj => ?_⟩
      rw [w3 j hj, Finset.sum_range]
      exact Finset.sum_congr rfl fun k _ => by rw [p3 k k.2]; rfl
    · rintro ⟨w, w1, w2, w3⟩
      refine ⟨fun k => if h : k < points.length then w ⟨k, h⟩ else 0, fun k hk => by simp only [dif_pos hk]; exact w1 _, ?_, fun j hj => ?_⟩
      · rw [Finset.sum_range, ← w2]
        exact Finset.sum_congr rfl fun k _ => by rw [dif_pos k.2]
      · rw [w3 j hj, Finset.sum_range]
        exact Finset.sum_congr rfl fun k _ => by simp only [dif_pos k.2]; rw [p3 k k.2]; rfl
  refine ⟨?_, ?_, fun h => ?_, rfl⟩
  · intro h2 hf
    obtain ⟨E, e1, e2, -, e3, -⟩ := hQ.hull P (by omega) (hflat.1 hf)
    have hEn : E.nc - 1 = n := by omega
    set b : Vec ℝ := ⟨E.nr, fun i => - E.e i (E.nc - 1)⟩ with hb
    have hi : Poly.init (E.colsTo (E.nc - 1)) (.d1 b) = .ok (Poly.fresh (E.colsTo (E.nc - 1)) b (Mat.zeros 0 (E.colsTo (E.nc - 1)).nc) (Vec.zeros 0)) :=
      Poly.init_eq_ok.2 ⟨b, rfl, rfl, Or.inl ⟨rfl, rfl, rfl⟩⟩
    have hcn : (E.colsTo (E.nc - 1)).nc = n := by show min _ _ = n; omega
    refine ⟨Poly.fresh (E.colsTo (E.nc - 1)) b (Mat.zeros 0 (E.colsTo (E.nc - 1)).nc) (Vec.zeros 0), ?_, ⟨hcn, rfl, hcn, rfl⟩, rfl, fun x => ?_⟩
    · unfold Poly.from_convex_hull
      rw [hP, Py.ok_bind, e1, Py.ok_bind]
      exact hi
    · rw [← hcomb, ← e3]
      have key : ∀ i, Spec.rowVal (E.colsTo (E.nc - 1)) i x ≤ b.e i ↔ ∑ j ∈ range P.nc, E.e i j * x j + E.e i P.nc ≤ 0 := by
        intro i
        unfold Spec.rowVal
        rw [hcn, hPn, hb]
        simp only
        rw [hEn]
        show ∑ j ∈ range n, E.e i j * x j ≤ _ ↔ _
        constructor <;> intro h <;> linarith
      exact ⟨fun h i hi => (key i).1 (h.1 i hi), fun h => ⟨fun i hi => (key i).2 (h i hi), fun i hi => absurd hi (Nat.not_lt_zero i)⟩⟩
  · intro hf
    obtain ⟨e, he⟩ := hQ.hull_flat P (fun h => hf (hflat.2 h))
    refine ⟨e, ?_⟩
    unfold Poly.from_convex_hull
    rw [hP, Py.ok_bind, he]
    rfl
  · unfold Poly.from_convex_hull
    rw [hP, Py.ok_bind, hQ.hull_line P (by omega)]
    rfl

/-- the corners of a triangle -/
noncomputable def corners : List (Vec ℝ) := [⟨2, fun _ => 0⟩, ⟨2, fun j => if j = 0 then 1 else 0⟩, ⟨2, fun j => if j = 0 then 0 else 1⟩]

example (Q : Qhull) (hQ : QhullSpec Q) : ∃ p, Poly.from_convex_hull Q corners = .ok p ∧
    ∀ x, Spec.InPoly p.A p.b p.C p.d x ↔ 0 ≤ x 0 ∧ 0 ≤ x 1 ∧ x 0 + x 1 ≤ 1 := by
  obtain ⟨p, h1, -, -, h2⟩ := (C87 Q hQ 2 corners (by simp [corners]) (by intro v hv; simp [corners] at hv; rcases hv with rfl | rfl | rfl <;> rfl)).1 le_rfl (by
    intro a d h j hj
    have h0 := h _ (List.mem_cons_self)
    have h1 := h _ (List.mem_cons_of_mem _ List.mem_cons_self)
    have h2 := h _ (List.mem_cons_of_mem _ (List.mem_cons_of_mem _ List.mem_cons_self))
    simp [Finset.sum_range_succ] at h0 h1 h2
    interval_cases j <;> linarith)
  refine ⟨p, h1, fun x => (h2 x).trans ?_⟩
  constructor
  · rintro ⟨w, w1, w2, w3⟩
    have sum3 : ∀ g : Fin corners.length → ℝ, ∑ k, g k = g (0 : Fin 3) + g (1 : Fin 3) + g (2 : Fin 3) := fun g => Fin.sum_univ_three g
    have a0 := w3 0 (by norm_num)
    have a1 := w3 1 (by norm_num)
    have e0 := w1 (0 : Fin 3)
    have e1 := w1 (1 : Fin 3)
    have e2 := w1 (2 : Fin 3)
    rw [sum3] at w2 a0 a1
    simp [corners] at a0 a1
    rw [a0, a1]
    exact ⟨e1, e2, by linarith⟩
  · rintro ⟨h0, h1, h2⟩
    refine ⟨fun k : Fin 3 => if k = 0 then 1 - x 0 - x 1 else if k = 1 then x 0 else x 1, fun k => ?_, ?_, fun j hj => ?_⟩
    · match k with
      | ⟨0, _⟩ => show 0 ≤ 1 - x 0 - x 1; linarith
      | ⟨1, _⟩ => exact h0
      | ⟨2, _⟩ => exact h1
    · show ∑ k : Fin 3, _ = _
      rw [Fin.sum_univ_three]
      simp
      ring
    · show x j = ∑ k : Fin 3, _
      rw [Fin.sum_univ_three]
      interval_cases j <;> simp [corners]

end Verif.Props
