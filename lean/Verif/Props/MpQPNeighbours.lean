import Verif.Props.MpQPSearch
import Verif.Props.PolyhedronBall
import Verif.Props.PolyhedronRedundancy

/-
What `explicit_solve` of `/repo/pympc/optimization/parametric_programs.py` explores: a point beyond each facet of each region (C103).
-/
namespace Verif

/-- the answer of the program of the Chebyshev ball has the right size -/
theorem Poly.chebyshevLP_size {L : Lib} (hL : LibSpec L) {A : Mat ℝ} {b : Vec ℝ} (hb : b.n = A.nr) {r : ℝ} {c : Vec ℝ}
    (h : Poly.chebyshevLP L A b = .ok (some (r, c))) : c.n = A.nc := by
  have hrows : 0 < A.nr := by
    by_contra h0
    rw [Poly.chebyshevLP_no_rows hL (by omega) hb] at h
    cases h
  rw [Poly.chebyshevLP_eq] at h
  obtain ⟨ys, ss, x, r', lam, hx, -, -, -, -, hrun⟩ := lp_run_none hL (n := A.nc + 1) (f := (Vec.zeros A.nc).append (Vec.ones 1)) rfl
    (A := A.happ (Poly.rowNorms A).neg) (b := b) rfl hb hrows 1e-7
  have : lpDefault L ((Vec.zeros A.nc).append (Vec.ones 1)) (A.happ (Poly.rowNorms A).neg) b = _ := hrun
  rw [this, Py.ok_bind] at h
  split_ifs at h with hr
  · cases h
    simp [Vec.slice, hx]
  · cases h

/-- whatever the accuracy of the solver, the center satisfies the equalities -/
theorem Poly.chebyshev_eqs {L : Lib} (hL : LibSpec L) {n : ℕ} {p : Poly} (hp : p.Inv n) (h0 : 0 < p.C.nr) {r : ℝ} {c : Vec ℝ}
    (h : Poly.chebyshev L p.A p.b p.C p.d = .ok (some (r, c))) : Poly.EqRank n p ∧ c.n = n ∧ Spec.EqHold p.C p.d c.e := by
  unfold Poly.chebyshev at h
  rw [if_pos h0] at h
  by_cases heq : Poly.EqRank n p
  · obtain ⟨E, f, N, R, x0, h1, -, h2⟩ := Poly.removeEqualities_ok hL hp h0 heq
    have h1 : Poly.removeEqualities L (Poly.fresh p.A p.b p.C p.d) = .ok (E, f, N, R) := h1
    rw [h1, Py.ok_bind] at h
    obtain ⟨s, k1, h⟩ := Py.bind_eq_ok h
    cases s with
    | none => cases h
    | some rc =>
      obtain ⟨r', y⟩ := rc
      simp only at h
      have hy := Poly.chebyshevLP_size hL (h2.fn.trans h2.Enr.symm) k1
      obtain ⟨x, b1, b2, b3⟩ := h2.back y (hy.trans h2.Enc)
      rw [b1, Py.ok_bind] at h
      cases h
      refine ⟨heq, b2, fun i hi => ?_⟩
      rw [Poly.rowVal_congr hp.2.2.1 b3 i]
      exact (h2.chart hp).eqs y.e i hi
  · have : Poly.removeEqualities L (Poly.fresh p.A p.b p.C p.d) = .error .valueError := Poly.removeEqualities_error hL hp h0 heq
    rw [this] at h
    cases h

/-- the balls in a bounded polyhedron are bounded -/
theorem Poly.balls_bounded {L : Lib} (hL : LibSpec L) {n : ℕ} {p : Poly} (hp : p.Inv n) (h0 : 0 < p.C.nr) (heq : Poly.EqRank n p) {M : ℝ}
    (hM : ∀ x, p.Mem x → ∀ j < n, |x j| ≤ M) : ∃ M', ∀ c r, 0 ≤ r → Spec.BallIn n p.A p.b p.C p.d c r → r ≤ M' := by
  obtain ⟨E, f, N, R, x0, -, hN, h2⟩ := Poly.removeEqualities_ok hL hp h0 heq
  refine ⟨Real.sqrt (n * (2 * M) ^ 2), fun c r hr hb => ?_⟩
  have hc : p.Mem c := by
    have := hb (fun _ => 0) (fun i _ => by simp [Spec.rowVal]) (by simpa using hr)
    simpa [Poly.Mem] using this
  let w : ℕ → ℝ := fun l => if l = 0 then r else 0
  have hw : ∑ l ∈ Finset.range N.nc, w l ^ 2 = r ^ 2 := by
    rw [Finset.sum_eq_single_of_mem 0 (Finset.mem_range.2 hN) fun l _ hl => by simp [w, hl]]
    simp [w]
  let v : ℕ → ℝ := fun j => ∑ l ∈ Finset.range N.nc, N.e j l * w l
  have hv : ∑ j ∈ Finset.range n, v j ^ 2 = r ^ 2 := (h2.iso w).trans hw
  have hk := ((h2.chart hp).ker v).2 ⟨w, fun _ _ => rfl⟩
  have hm := hb v hk (by rw [hv, Real.sqrt_sq hr])
  refine Real.le_sqrt_of_sq_le ?_
  rw [← hv]
  calc ∑ j ∈ Finset.range n, v j ^ 2 ≤ ∑ j ∈ Finset.range n, (2 * M) ^ 2 := Finset.sum_le_sum fun j hj => by
        have h3 := hM c hc j (Finset.mem_range.1 hj)
        have h4 := hM _ hm j (Finset.mem_range.1 hj)
        rw [abs_le] at h3 h4
        have : |v j| ≤ |2 * M| := by
          refine le_trans ?_ (le_abs_self _)
          exact abs_le.2 ⟨by linarith, by linarith⟩
        exact sq_le_sq.2 this
    _ = n * (2 * M) ^ 2 := by rw [Finset.sum_const, Finset.card_range, nsmul_eq_mul]


end Verif

namespace Verif.Props
open Finset Verif.MpQP

variable {nu nx : ℕ} {q : MpQP}

/-- the polyhedron with an inequality turned into an equality -/
theorem facet_run {p : Poly} {n : ℕ} (hp : p.Inv n) (h0 : p.C.nr = 0) (i : ℕ) :
    ∃ F, Poly.runOn p (Poly.add_equality (p.A.rows [i]) (.d1 (p.b.take [i]))) = .ok F ∧ F.Inv n ∧ F.A = p.A ∧ F.b = p.b ∧ F.C.nr = 1 ∧
      F._center = none ∧ (∀ w, Spec.EqHold F.C F.d w ↔ Spec.rowVal p.A i w = p.b.e i) ∧ ∀ w, F.Mem w ↔ p.Mem w ∧ Spec.rowVal p.A i w = p.b.e i := by
  have hrun := (Poly.add_equality_ok hp (p.A.rows [i]) (.d1 (p.b.take [i])) none _).2 ⟨_, rfl, rfl, by rw [Poly.sel_none, List.length_range]; exact hp.1, rfl⟩
  obtain ⟨hi, v, hv, -, -, hmem⟩ := Poly.add_equality_spec hp hrun
  cases hv
  have heq : ∀ w, Spec.EqHold (p.C.vapp ((p.A.rows [i]).mul (Poly.selectionMatrix n none))) (p.d.append (p.b.take [i])) w ↔
      Spec.rowVal p.A i w = p.b.e i := by
    intro w
    have e1 : Spec.rowVal (p.C.vapp ((p.A.rows [i]).mul (Poly.selectionMatrix n none))) 0 w = Spec.rowVal p.A i w := by
      unfold Spec.rowVal
      rw [show (p.C.vapp ((p.A.rows [i]).mul (Poly.selectionMatrix n none))).nc = n from hp.2.2.1, hp.1]
      refine Finset.sum_congr rfl fun j hj => ?_
      have hj := mem_range.1 hj
      congr 1
      have : (p.C.vapp ((p.A.rows [i]).mul (Poly.selectionMatrix n none))).e 0 j = ((p.A.rows [i]).mul (Poly.selectionMatrix n none)).e 0 j := by
        simp [Mat.vapp, h0]
      rw [this]
      show ∑ l ∈ range p.A.nc, p.A.e i l * (if (Poly.sel n none).getD l 0 = j then 1 else 0) = _
      rw [hp.1, Poly.sel_none, Finset.sum_eq_single_of_mem j (mem_range.2 hj)]
      · simp [hj]
      · intro l hl hlj
        have hl := mem_range.1 hl
        rw [List.getD_eq_getElem _ _ (by simpa using hl), List.getElem_range, if_neg hlj, mul_zero]
    have e2 : (p.d.append (p.b.take [i])).e 0 = p.b.e i := by
      have hd : p.d.n = 0 := hp.2.2.2.trans h0
      simp [Vec.append, hd, Vec.take]
    have e3 : (p.C.vapp ((p.A.rows [i]).mul (Poly.selectionMatrix n none))).nr = 1 := by
      show p.C.nr + 1 = 1
      omega
    constructor
    · intro h
      have := h 0 (by rw [e3]; exact one_pos)
      rwa [e1, e2] at this
    · intro h k hk
      rw [e3] at hk
      obtain rfl : k = 0 := by omega
      rw [e1, e2]
      exact h
  refine ⟨_, by unfold Poly.runOn; rw [hrun], hi, rfl, rfl, by show p.C.nr + 1 = 1; omega, rfl, heq, fun w => ?_⟩
  constructor
  · intro hw
    exact ⟨((hmem w).1 hw).1, (heq w).1 hw.2⟩
  · rintro ⟨h1, h2⟩
    exact ⟨h1.1, (heq w).2 h2⟩

/-- the size of the center of a facet -/
theorem facet_center_size {L : Lib} (hL : LibSpec L) {cr : CritReg} {n : ℕ} (hp : cr.polyhedron.Inv n) (h0 : cr.polyhedron.C.nr = 0) {i : ℕ} {c : Vec ℝ}
    (h : cr.facet_center L i = .ok (some c)) : c.n = n := by
  unfold CritReg.facet_center at h
  by_cases h1 : cr.polyhedron.A.nc = 1
  · rw [if_pos h1] at h
    cases h
    exact h1.symm.trans hp.1
  · rw [if_neg h1] at h
    obtain ⟨F, F1, F2, F3, F4, F5, F6, F7, F8⟩ := facet_run hp h0 i
    simp only [F1, Py.ok_bind] at h
    rw [center_run L F6] at h
    cases hch : Poly.chebyshev L F.A F.b F.C F.d with
    | error e => rw [hch] at h; cases h
    | ok s =>
      rw [hch] at h
      cases s with
      | none => cases h
      | some rc =>
        obtain ⟨ρ, c'⟩ := rc
        simp only [Option.map_some] at h
        obtain rfl : c' = c := Option.some.inj (Except.ok.inj h)
        exact (Poly.chebyshev_eqs hL F2 (by rw [F5]; exact one_pos) hch).2.1

/-- between a point of the polyhedron and a point beyond one of its inequalities there is a point of the facet -/
theorem facet_point {p : Poly} (h0 : p.C.nr = 0) {i : ℕ} (hi : i < p.A.nr) {w z : ℕ → ℝ} (hw : p.Mem w)
    (hz : ∀ j < p.A.nr, j ≠ i → Spec.rowVal p.A j z ≤ p.b.e j) (hzi : p.b.e i < Spec.rowVal p.A i z) :
    ∃ f, p.Mem f ∧ Spec.rowVal p.A i f = p.b.e i := by
  have hwi : Spec.rowVal p.A i w ≤ p.b.e i := hw.1 i hi
  have hpos : 0 < Spec.rowVal p.A i z - Spec.rowVal p.A i w := by linarith
  set t := (p.b.e i - Spec.rowVal p.A i w) / (Spec.rowVal p.A i z - Spec.rowVal p.A i w) with ht
  have ht0 : 0 ≤ t := div_nonneg (by linarith) hpos.le
  have ht1 : t ≤ 1 := (div_le_one hpos).2 (by linarith)
  have hc : t * (Spec.rowVal p.A i z - Spec.rowVal p.A i w) = p.b.e i - Spec.rowVal p.A i w := div_mul_cancel₀ _ hpos.ne'
  have e : ∀ j, Spec.rowVal p.A j (fun k => (1 - t) * w k + t * z k) = (1 - t) * Spec.rowVal p.A j w + t * Spec.rowVal p.A j z := by
    intro j
    unfold Spec.rowVal
    rw [Finset.mul_sum, Finset.mul_sum, ← Finset.sum_add_distrib]
    exact Finset.sum_congr rfl fun k _ => by ring
  have hfi : Spec.rowVal p.A i (fun k => (1 - t) * w k + t * z k) = p.b.e i := by rw [e]; linarith
  refine ⟨_, ⟨fun j hj => ?_, fun j hj => by omega⟩, hfi⟩
  by_cases hji : j = i
  · rw [hji]; exact hfi.le
  · have h1 := hz j hj hji
    have h2 : Spec.rowVal p.A j w ≤ p.b.e j := hw.1 j hj
    show Spec.rowVal p.A j _ ≤ _
    rw [e]
    nlinarith

/-- C103: `explicit_solve` steps over each facet of each region that it returns.  Let the inequality `i` of a region not be implied up to `1e-7` by the
other ones.  Then there is a point `y` with equality, in the region if this is bounded or if there is only one parameter, such that the search is through with
`x = y + step * A_i`: a region of the result contains `x` up to its tolerance, or there is no solution at `x`, or the region found at `x` is in the result.  The guess of
the active set at `x` differs from that of the region by `i`.  With a step beyond the tolerance, the region itself does not contain `x`. -/
theorem C103 (L : Lib) (hL : LibSpec L) (nu nx : ℕ) (q : MpQP) (hm : q.Made) (hs : q.data.Shape nu nx) (step : ℝ) (fuel : ℕ) (sol : ExplicitSolution)
    (h : explicit_solve L q fuel step = .ok (some sol)) (k : ℕ) (cr : CritReg) (hk : sol[k]? = some cr) (i : ℕ) (hi : i < cr.polyhedron.A.nr)
    (z : ℕ → ℝ) (hz : ∀ j < cr.polyhedron.A.nr, j ≠ i → Spec.rowVal cr.polyhedron.A j z ≤ cr.polyhedron.b.e j)
    (hzi : cr.polyhedron.b.e i + 1e-7 ≤ Spec.rowVal cr.polyhedron.A i z) :
    ∃ (y : ℕ → ℝ) (x : Vec ℝ) (guess : List ℕ), x.n = nx ∧ Spec.rowVal cr.polyhedron.A i y = cr.polyhedron.b.e i ∧
      (∀ j < nx, x.e j = y j + step * cr.polyhedron.A.e i j) ∧
      ((nx = 1 ∨ ∃ M, ∀ w, cr.polyhedron.Mem w → ∀ j < nx, |w j| ≤ M) → cr.polyhedron.Mem y) ∧
      (∀ j, j ∈ guess ↔ Xor' (j ∈ cr.active_set) (j = i)) ∧ Through L q sol (x, guess) ∧
      (1e-7 < step * ∑ j ∈ range nx, cr.polyhedron.A.e i j ^ 2 → cr.contains x = .ok false) := by
  obtain ⟨-, h2⟩ := C43 L nu nx q hm hs step fuel _ sol h
  obtain ⟨⟨x0, g0, cr0, l, k1, k2, hlike, -, k4⟩, -⟩ := h2 k cr hk
  obtain ⟨a, hrun⟩ := point_from k1
  obtain ⟨-, -, hcr0⟩ := explicit_cases hm hs hrun
  have hp0 : cr0.polyhedron.Inv nx := by rw [hcr0]; exact fCr_inv hs
  have hC0 : cr0.polyhedron.C.nr = 0 := by
    rw [hcr0]
    exact (C07 nx _ (fPoly_inv (a := a) hs) 1e-7 (by norm_num)).2.2.1
  have hE0 : cr0.polyhedron.EmptyOk L := by
    rw [hcr0]
    intro e he
    cases he
  obtain ⟨mf, m1, m2⟩ := neighbours_mem k2
  obtain ⟨P, ⟨e1, e2, e3, e4⟩, rfl⟩ := hlike
  simp only at hi hz hzi ⊢
  have hp : P.Inv nx := by
    obtain ⟨s1, s2, s3, s4⟩ := hp0
    exact ⟨by rw [e1]; exact s1, by rw [e1, e2]; exact s2, by rw [e3]; exact s3, by rw [e3, e4]; exact s4⟩
  have hC : P.C.nr = 0 := by rw [e3]; exact hC0
  -- the region has a point and the facet is one of the minimal ones
  have hrows0 : cr0.polyhedron.HasRows := by
    by_contra h0
    rw [((C09_errors L hL nx _ hp0 hE0 1e-7).1 h0).1] at m1
    cases m1
  have hne : Spec.NearPoint nx cr0.polyhedron.A cr0.polyhedron.b cr0.polyhedron.C cr0.polyhedron.d := by
    by_contra hne
    rw [((C09_errors L hL nx _ hp0 hE0 1e-7).2.1 hrows0 (Or.inr hne)).1] at m1
    cases m1
  obtain ⟨r, r1, -, -, r2, -, r3⟩ := redundancy_run hL hp0 hrows0 hE0 hne (Or.inl hC0) (tol := 1e-7) (by norm_num)
  rw [r1] at m1
  obtain rfl : r = mf := Option.some.inj (Except.ok.inj m1)
  have hir : i ∈ r := by
    by_contra hir
    have := r3 i (by rw [← e1]; exact hi) hir z (fun j hj => by omega)
      (fun j hj => by
        rw [← e1, ← e2]
        exact hz j (by rw [e1]; exact r2 j hj) fun hji => hir (hji ▸ hj))
      (fun j hj hij => by
        rw [← e1, ← e2]
        exact hz j (by rw [e1]; exact hj) (by omega))
    rw [← e1, ← e2] at this
    linarith
  obtain ⟨w, hw, -⟩ := hne
  have hw : P.Mem w := by
    show Spec.InPoly P.A P.b P.C P.d w
    rw [e1, e2, e3, e4]
    exact hw
  obtain ⟨f, hf, hfi⟩ := facet_point hC hi hw hz (by linarith [show (0 : ℝ) < 1e-7 by norm_num])
  -- the point beyond the facet
  obtain ⟨l1, l2⟩ := mapM_ok_iff m2
  obtain ⟨n, hn, hni⟩ := List.getElem_of_mem hir
  have hb := l2 n hn (by rw [l1]; exact hn)
  rw [hni] at hb
  have hl := k4 l[n] (List.getElem_mem _)
  generalize l[n]'(by rw [l1]; exact hn) = xa at hb hl
  have hsize := beyondFacet_size hb
  unfold beyondFacet at hb
  obtain ⟨o, c1, hb⟩ := Py.bind_eq_ok hb
  cases o with
  | none => cases hb
  | some c =>
    simp only at hb
    obtain ⟨x, c2, hb⟩ := Py.bind_eq_ok hb
    cases hb
    simp only at hsize
    have hcn : c.n = nx := facet_center_size hL hp hC c1
    have hx : x = c.add ((P.A.row i).smul step) := by
      have : np.addV c ((P.A.row i).smul step) = .ok _ := if_pos (hcn.trans hp.1.symm)
      rw [this] at c2
      cases c2
      rfl
    have hxe : ∀ j < nx, x.e j = c.e j + step * P.A.e i j := fun j _ => by rw [hx]; rfl
    have hcc : Spec.rowVal P.A i c.e = P.b.e i ∧ ((nx = 1 ∨ ∃ M, ∀ w, P.Mem w → ∀ j < nx, |w j| ≤ M) → P.Mem c.e) := by
      unfold CritReg.facet_center at c1
      by_cases h1 : P.A.nc = 1
      · rw [if_pos h1] at c1
        cases c1
        have hn1 : nx = 1 := hp.1.symm.trans h1
        have hrow : ∀ v, Spec.rowVal P.A i v = P.A.e i 0 * v 0 := fun v => by
          unfold Spec.rowVal
          rw [h1, Finset.sum_range_one]
        have hA : P.A.e i 0 ≠ 0 := by
          intro hA
          have hwi : Spec.rowVal P.A i w ≤ P.b.e i := hw.1 i hi
          rw [hrow, hA, zero_mul] at hzi hwi
          linarith [show (0 : ℝ) < 1e-7 by norm_num]
        have hc0 : Spec.rowVal P.A i (Vec.single (P.b.e i / P.A.e i 0)).e = P.b.e i := by
          rw [hrow]
          exact mul_div_cancel₀ _ hA
        refine ⟨hc0, fun _ => (Poly.mem_congr hp fun j hj => ?_).1 hf⟩
        obtain rfl : j = 0 := by omega
        rw [hrow] at hfi
        show f 0 = P.b.e i / P.A.e i 0
        rw [← hfi, mul_div_cancel_left₀ _ hA]
      · rw [if_neg h1] at c1
        obtain ⟨F, F1, F2, F3, F4, F5, F6, F7, F8⟩ := facet_run hp hC i
        simp only [F1, Py.ok_bind] at c1
        rw [center_run L F6] at c1
        cases hch : Poly.chebyshev L F.A F.b F.C F.d with
        | error e => rw [hch] at c1; cases c1
        | ok s =>
          rw [hch] at c1
          cases s with
          | none => cases c1
          | some rc =>
            obtain ⟨ρ, c'⟩ := rc
            have : c' = c := by
              simp only [Option.map_some] at c1
              exact Option.some.inj (Except.ok.inj c1)
            subst this
            obtain ⟨hrank, -, heqs⟩ := Poly.chebyshev_eqs hL F2 (by rw [F5]; exact one_pos) hch
            refine ⟨(F7 _).1 heqs, fun hbd => ?_⟩
            obtain ⟨M, hM⟩ := hbd.resolve_left fun hn1 => h1 (hp.1.trans hn1)
            have hFf : F.Mem f := (F8 f).2 ⟨hf, hfi⟩
            obtain ⟨r', c'', g1, -, -, g2, -, g3⟩ := Poly.chebyshev_ok hL F2 (Or.inr hrank) (constantRows_of_mem hFf)
              (Poly.balls_bounded hL F2 (by rw [F5]; exact one_pos) hrank (M := M) fun v hv => hM v ((F8 v).1 hv).1)
            rw [hch] at g1
            cases g1
            have hρ : 0 ≤ ρ := by
              by_contra hneg
              exact g3.1 (not_le.1 hneg) f hFf
            have := g2 hρ (fun _ => 0) (fun i _ => by simp [Spec.rowVal]) (by simpa using hρ)
            have hmem : F.Mem c'.e := by simpa [Poly.Mem] using this
            exact ((F8 _).1 hmem).1
    refine ⟨c.e, x, _, hsize.trans hp.1, hcc.1, hxe, hcc.2, fun j => ?_, hl, fun hst => ?_⟩
    · rw [Finset.mem_sort, Finset.mem_symmDiff, List.mem_toFinset, Finset.mem_singleton]
      rfl
    · obtain ⟨b, b1, b2⟩ := contains_iff hp (by omega) x (hsize.trans hp.1) 1e-7
      have : b = false := by
        by_contra hb
        have hb : b = true := by simpa using hb
        have h3 := (b2.1 hb).1 i hi
        have h4 : ∑ j ∈ range nx, P.A.e i j * x.e j = P.b.e i + step * ∑ j ∈ range nx, P.A.e i j ^ 2 := by
          have h5 := hcc.1
          unfold Spec.rowVal at h5
          rw [hp.1] at h5
          rw [← h5, Finset.mul_sum, ← Finset.sum_add_distrib]
          refine Finset.sum_congr rfl fun j hj => ?_
          rw [hxe j (mem_range.1 hj)]
          ring
        rw [h4] at h3
        linarith
      rw [this] at b1
      exact b1

end Verif.Props
