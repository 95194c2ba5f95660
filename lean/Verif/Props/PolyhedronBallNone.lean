import Verif.Props.PolyhedronBall

/- `radius` and `center` when there is no largest ball (C120). -/
namespace Verif.Props
open Finset

theorem chebyshevLP_total {L : Lib} (hL : LibSpec L) {A : Mat ℝ} {b : Vec ℝ} (hrows : 0 < A.nr) (hb : b.n = A.nr) :
    Poly.chebyshevLP L A b = .ok none ∨ ∃ r c, Poly.chebyshevLP L A b = .ok (some (r, c)) ∧ c.n = A.nc := by
  rw [Poly.chebyshevLP_eq]
  unfold lpDefault
  rcases lp_total hL (n := A.nc + 1) (f := (Vec.zeros A.nc).append (Vec.ones 1)) (A := A.happ (Poly.rowNorms A).neg) (b := b) (C := none) (d := none)
    rfl (show Spec.ConstrShape _ _ _ none none from ⟨rfl, hb⟩) (.inl hrows) 1e-7 with h | ⟨x, lam, mu, h, hx⟩
  · rw [h]; exact Or.inl rfl
  · rw [h]; exact Or.inr ⟨_, _, rfl, by simp [hx]⟩

/-- C120, what holds: `radius` and `center` raise `ValueError` if the equalities are dependent or leave a single point.  Without equalities they
give an answer.  With independent equalities they give numbers or raise `ValueError`.  If the answer is `None`, or `ValueError` is raised with
independent equalities, arbitrarily large balls fit in the polyhedron (unless a row that does not depend on the point is violated).
Without inequalities the linear program has no constraint and `RuntimeError` is raised.

Missing with respect to C120: no exception with independent equalities, and the answer `None` whenever arbitrarily large balls fit; both are
false (`C120_false`, `C18_false`). -/
theorem C120_partial (L : Lib) (hL : LibSpec L) (n : ℕ) (p : Poly) (hp : p.Inv n) (hr : p._radius = none) (hc : p._center = none) :
    (0 < p.C.nr → ¬ Spec.EqIndep n p.C → Poly.radius L p = (.error .valueError, p) ∧ Poly.center L p = (.error .valueError, p)) ∧
    (p.A.nr = 0 → p.C.nr = 0 ∨ Spec.EqIndep n p.C →
      Poly.radius L p = (.error .runtimeError, p) ∧ Poly.center L p = (.error .runtimeError, p)) ∧
    (0 < p.A.nr → p.C.nr = 0 ∨ Spec.EqIndep n p.C →
      (∃ r c q, Poly.radius L p = (.ok (some r), q) ∧ Poly.center L p = (.ok (some c), q) ∧ c.n = n) ∨
      ((p.C.nr = 0 ∧ Poly.radius L p = (.ok none, p) ∧ Poly.center L p = (.ok none, p) ∨
        0 < p.C.nr ∧ Poly.radius L p = (.error .valueError, p) ∧ Poly.center L p = (.error .valueError, p)) ∧
        (ConstantRowsHold p.A p.b p.C p.d → ∀ M, ∃ c r, M < r ∧ 0 ≤ r ∧ Spec.BallIn n p.A p.b p.C p.d c r))) := by
  have herr : ∀ e, Poly.chebyshev L p.A p.b p.C p.d = .error e → Poly.radius L p = (.error e, p) ∧ Poly.center L p = (.error e, p) := fun e h =>
    ⟨by rw [radius_run L hr, h], by rw [center_run L hc, h]⟩
  have hsome : ∀ r c, Poly.chebyshev L p.A p.b p.C p.d = .ok (some (r, c)) → c.n = n →
      ∃ r c q, Poly.radius L p = (.ok (some r), q) ∧ Poly.center L p = (.ok (some c), q) ∧ c.n = n := fun r c h hn =>
    ⟨r, c, _, by rw [radius_run L hr, h]; rfl, by rw [center_run L hc, h]; rfl, hn⟩
  have hpp : { p with _radius := none, _center := none } = p := by
    cases p
    cases hr
    cases hc
    rfl
  refine ⟨?_, ?_, ?_⟩
  · intro h0 hi
    refine herr _ ?_
    unfold Poly.chebyshev
    rw [if_pos h0, Poly.removeEqualities_error hL (n := n) (p := Poly.fresh p.A p.b p.C p.d) hp h0 (fun h => hi (Poly.eqRank_iff.1 h))]
    rfl
  · intro hA heq
    refine herr _ ?_
    unfold Poly.chebyshev
    by_cases h0 : p.C.nr = 0
    · rw [if_neg (by omega)]
      exact Poly.chebyshevLP_no_rows hL hA hp.2.1
    · obtain ⟨E, f, N, R, x0, h1, -, h2⟩ := Poly.removeEqualities_ok hL (n := n) (p := Poly.fresh p.A p.b p.C p.d) hp (by show 0 < p.C.nr; omega)
        (Poly.eqRank_iff.2 (heq.resolve_left h0))
      rw [if_pos (by omega), h1, Py.ok_bind]
      simp only
      rw [Poly.chebyshevLP_no_rows hL (h2.Enr.trans hA) (h2.fn.trans h2.Enr.symm)]
      rfl
  · intro hA heq
    by_cases hbig : ConstantRowsHold p.A p.b p.C p.d → ∀ M, ∃ c r, M < r ∧ 0 ≤ r ∧ Spec.BallIn n p.A p.b p.C p.d c r
    · by_cases h0 : p.C.nr = 0
      · have hch : Poly.chebyshev L p.A p.b p.C p.d = Poly.chebyshevLP L p.A p.b := if_neg (by omega)
        rcases chebyshevLP_total hL (A := p.A) (b := p.b) hA hp.2.1 with h | ⟨r, c, h, hn⟩
        · refine Or.inr ⟨Or.inl ⟨h0, ?_, ?_⟩, hbig⟩
          · rw [radius_run L hr, hch, h]
            exact Prod.ext rfl hpp
          · rw [center_run L hc, hch, h]
            exact Prod.ext rfl hpp
        · exact Or.inl (hsome r c (hch.trans h) (hn.trans hp.1))
      · obtain ⟨E, f, N, R, x0, h1, -, h2⟩ := Poly.removeEqualities_ok hL (n := n) (p := Poly.fresh p.A p.b p.C p.d) hp (by show 0 < p.C.nr; omega)
          (Poly.eqRank_iff.2 (heq.resolve_left h0))
        rcases chebyshevLP_total hL (A := E) (b := f) (h2.Enr.symm ▸ hA) (h2.fn.trans h2.Enr.symm) with h | ⟨r, c, h, hn⟩
        · refine Or.inr ⟨Or.inr ⟨by omega, herr _ ?_⟩, hbig⟩
          unfold Poly.chebyshev
          rw [if_pos (by omega), h1, Py.ok_bind]
          simp only [h, Py.ok_bind]
        · obtain ⟨x, b1, b2, -⟩ := h2.back c (hn.trans h2.Enc)
          refine Or.inl (hsome r x ?_ b2)
          unfold Poly.chebyshev
          rw [if_pos (by omega), h1, Py.ok_bind]
          have b1 : Poly.backToOriginal p.C p.d N R c = .ok x := b1
          simp only [h, Py.ok_bind, b1]
          rfl
    · push Not at hbig
      obtain ⟨hrows, M, hM⟩ := hbig
      obtain ⟨r, c, q, k1, k2, -, -, k3, -⟩ := C18_partial L hL n p hp heq hr hc hrows ⟨M, fun c r h0 hb => by
        by_contra h
        exact hM c r (not_le.1 h) h0 hb⟩
      exact Or.inl ⟨r, c, q, k1, k2, k3⟩

/-- the half line `x₀ = 0, x₁ ≤ 0` of the plane -/
def halfLine : Poly := Poly.fresh ⟨1, 2, fun _ j => if j = 1 then 1 else 0⟩ ⟨1, fun _ => 0⟩ ⟨1, 2, fun _ j => if j = 0 then 1 else 0⟩ ⟨1, fun _ => 0⟩

/-- C120 is false of the code: `radius` and `center` of the half line `x₀ = 0, x₁ ≤ 0` raise `ValueError`; there is no largest ball. -/
theorem C120_false : halfLine.Inv 2 ∧ Spec.EqIndep 2 halfLine.C ∧
    (∀ M, ∃ c r, M < r ∧ Spec.BallIn 2 halfLine.A halfLine.b halfLine.C halfLine.d c r) ∧
    ∀ L, LibSpec L → Poly.radius L halfLine = (.error .valueError, halfLine) ∧ Poly.center L halfLine = (.error .valueError, halfLine) := by
  have hp : halfLine.Inv 2 := ⟨rfl, rfl, rfl, rfl⟩
  have hi : Spec.EqIndep 2 halfLine.C := by
    refine ⟨by simp [halfLine, Poly.fresh], fun w h i hi => ?_⟩
    have := h 0 (by norm_num)
    have hi : i < 1 := hi
    interval_cases i
    simpa [halfLine, Poly.fresh] using this
  refine ⟨hp, hi, fun M => ?_, fun L hL => ?_⟩
  · refine ⟨fun j => if j = 0 then 0 else -(|M| + 1), |M| + 1, by linarith [le_abs_self M], fun v hv hn => ⟨fun i hi => ?_, fun i hi => ?_⟩⟩
    · have hi : i < 1 := hi
      interval_cases i
      have h1 : |v 1| ≤ |M| + 1 := by
        refine le_trans (Real.abs_le_sqrt ?_) hn
        rw [Finset.sum_range_succ, Finset.sum_range_one]
        nlinarith [sq_nonneg (v 0)]
      have := le_abs_self (v 1)
      simp [halfLine, Poly.fresh, Finset.sum_range_succ]
      linarith
    · have hi : i < 1 := hi
      interval_cases i
      have := hv 0 Nat.zero_lt_one
      simpa [halfLine, Poly.fresh, Finset.sum_range_succ, Spec.rowVal] using this
  · have key : Poly.chebyshev L halfLine.A halfLine.b halfLine.C halfLine.d = .error .valueError := by
      obtain ⟨E, f, N, R, x0, h1, hN0, h2⟩ := Poly.removeEqualities_ok hL (n := 2) (p := halfLine) hp (show 0 < 1 by norm_num) (Poly.eqRank_iff.2 hi)
      have hNc : N.nc = 1 := by have := h2.Nnc; simp [halfLine, Poly.fresh] at this; omega
      have hEr : E.nr = 1 := h2.Enr
      have hEc : E.nc = 1 := h2.Enc.trans hNc
      -- the coordinate of the half line
      have n0 : N.e 0 0 = 0 := by
        have := (h2.ker (fun j => ∑ l ∈ range N.nc, N.e j l * 1)).2 ⟨fun _ => 1, fun _ _ => rfl⟩ 0 Nat.zero_lt_one
        simpa [halfLine, Poly.fresh, Finset.sum_range_succ, hNc] using this
      have n1 : N.e 1 0 ^ 2 = 1 := by
        have := h2.iso fun _ => 1
        simpa [hNc, Finset.sum_range_succ, n0] using this
      have hE : E.e 0 0 = N.e 1 0 := by
        have r1 := h2.res (fun _ => 1) 0 Nat.zero_lt_one
        have r2 := h2.res (fun _ => 0) 0 Nat.zero_lt_one
        simp [halfLine, Poly.fresh, Finset.sum_range_succ, hNc, affine] at r1 r2
        linarith
      have hlp : Poly.chebyshevLP L E f = .ok none := by
        rw [Poly.chebyshevLP_eq]
        unfold lpDefault
        obtain ⟨q, AC, bd, ys, x, r, hS, -, -, -, -, k5, -, k7, -⟩ := lp_run hL (n := 2) (f := (Vec.zeros E.nc).append (Vec.ones 1))
          (A := E.happ (Poly.rowNorms E).neg) (b := f) (C := none) (d := none) (by rw [hEc]; rfl)
          (show Spec.ConstrShape _ _ _ none none from ⟨by show E.nc + 1 = 2; omega, h2.fn.trans h2.Enr.symm⟩) 1e-7
        have hq : q = 0 := by
          by_contra h
          obtain ⟨C', hC'⟩ := hS.qpos (Nat.pos_of_ne_zero h)
          cases hC'
        have hnr : AC.nr = 1 := by rw [hS.nr, hq]; exact hEr
        obtain ⟨-, -, b3⟩ := lpRes_bounds k5
        have hrow := hS.rowA 0 (by show 0 < E.nr; omega)
        have c0 := b3 0 (by rw [hS.nc]; norm_num)
        have c1 := b3 1 (by rw [hS.nc]; norm_num)
        rw [hnr, Finset.sum_range_one, hrow] at c0 c1
        have a0 : (E.happ (Poly.rowNorms E).neg).e 0 0 = N.e 1 0 := by
          rw [← hE]
          exact if_pos (by show 0 < E.nc; omega)
        have a1 : (E.happ (Poly.rowNorms E).neg).e 0 1 = -1 := by
          have hn : vnorm (E.row 0) = 1 := by
            have : vnorm (E.row 0) ^ 2 = 1 := by
              rw [vnorm_sq]
              show ∑ j ∈ range E.nc, E.e 0 j ^ 2 = 1
              rw [hEc, Finset.sum_range_one, hE, n1]
            exact (pow_eq_one_iff_of_nonneg (Real.sqrt_nonneg _) two_ne_zero).1 this
          rw [show (E.happ (Poly.rowNorms E).neg).e 0 1 = (Poly.rowNorms E).neg.e 0 (1 - E.nc) from if_neg (by omega)]
          show - vnorm (E.row 0) = -1
          rw [hn]
        have f0 : ((Vec.zeros E.nc : Vec ℝ).append (Vec.ones 1)).e 0 = 0 := by rw [hEc]; rfl
        have f1 : ((Vec.zeros E.nc : Vec ℝ).append (Vec.ones 1)).e 1 = 1 := by rw [hEc]; rfl
        rw [a0, f0] at c0
        rw [a1, f1] at c1
        have hab : |N.e 1 0| = 1 := by
          rw [← sq_abs] at n1
          exact (pow_eq_one_iff_of_nonneg (abs_nonneg _) two_ne_zero).1 n1
        rw [add_zero, abs_mul, hab, one_mul] at c0
        have hlt : ¬ r < 1e-7 := by
          intro h
          have e1 := abs_le.1 c0
          have e2 := abs_le.1 c1
          norm_num at h
          linarith [e1.2, e2.2]
        have k7 := k7 (.inl (show 0 < E.nr by omega))
        rw [if_neg hlt] at k7
        rw [k7]
        rfl
      unfold Poly.chebyshev
      have h1 : Poly.removeEqualities L (Poly.fresh halfLine.A halfLine.b halfLine.C halfLine.d) = .ok (E, f, N, R) := h1
      rw [if_pos (by simp [halfLine, Poly.fresh]), h1, Py.ok_bind]
      simp only [hlp, Py.ok_bind]
    exact ⟨by rw [radius_run L rfl, key], by rw [center_run L rfl, key]⟩

/-- the hypotheses of `C120_partial` hold for the half line, with a largest ball missing -/
example (L : Lib) (hL : LibSpec L) : ∀ M, ∃ c r, M < r ∧ 0 ≤ r ∧ Spec.BallIn 2 halfLine.A halfLine.b halfLine.C halfLine.d c r := by
  obtain ⟨h1, h2, -, h3⟩ := C120_false
  rcases (C120_partial L hL 2 halfLine h1 rfl rfl).2.2 (show 0 < 1 by norm_num) (Or.inr h2) with ⟨r, c, q, h, -⟩ | ⟨-, h⟩
  · rw [(h3 L hL).1] at h
    cases h
  · refine h fun i hi hv x hx => ?_
    have hi : i < 1 := hi
    interval_cases i
    have := hv (fun j => if j = 1 then 1 else 0) (fun k hk => by
      have hk : k < 1 := hk
      interval_cases k
      simp [Spec.rowVal, halfLine, Poly.fresh, Finset.sum_range_succ])
    simp [Spec.rowVal, halfLine, Poly.fresh, Finset.sum_range_succ] at this

end Verif.Props
