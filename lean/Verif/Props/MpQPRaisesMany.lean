import Verif.Props.MpQPRaises
import Verif.Props.MpQPNeighbours

/-
Whether `explicit_solve` of `/repo/pympc/optimization/parametric_programs.py` raises exceptions when there are several parameters (C123).
-/
namespace Verif.Props
open Finset Verif.MpQP

variable {nu nx : ℕ} {q : MpQP}

/-- the guesses made by the search are indices of constraints -/
theorem reached_index {L : Lib} (hL : LibSpec L) (hm : q.Made) (hs : q.data.Shape nu nx) {step : ℝ} {xa : Vec ℝ × List ℕ} (h : Reached L q step xa) :
    ∀ j ∈ xa.2, j < q.Au.nr := by
  cases h with
  | start => simp
  | next h1 h2 h3 h4 =>
    obtain ⟨a, hrun⟩ := point_from h2
    obtain ⟨ha, hl, rfl⟩ := explicit_cases hm hs hrun
    obtain ⟨P, hsame, rfl⟩ := neighbours_like h3
    obtain ⟨mf, k1, k2⟩ := neighbours_mem h3
    obtain ⟨l1, l2⟩ := mapM_ok_iff k2
    obtain ⟨i, hi, rfl⟩ := List.getElem_of_mem h4
    have hb := l2 i (l1 ▸ hi) hi
    have hI := fCr_inv (a := a) hs
    have hE : (q.fCr a).polyhedron.EmptyOk L := fun e he => by cases he
    have hC : (q.fCr a).polyhedron.C.nr = 0 := (C07 nx _ (fPoly_inv (a := a) hs) 1e-7 (by norm_num)).2.2.1
    have hnr : (q.fCr a).polyhedron.A.nr = q.Au.nr := by
      rw [show (q.fCr a).polyhedron.A.nr = a.length + (q.inactive a).length from (C07 nx _ (fPoly_inv (a := a) hs) 1e-7 (by norm_num)).2.1]
      exact length_inactive hs ha (licq_nodup hl)
    have hrows : (q.fCr a).polyhedron.HasRows := by
      by_contra h0
      rw [((C09_errors L hL nx _ hI hE 1e-7).1 h0).1] at k1
      cases k1
    have hne : Spec.NearPoint nx (q.fCr a).polyhedron.A (q.fCr a).polyhedron.b (q.fCr a).polyhedron.C (q.fCr a).polyhedron.d := by
      by_contra hne
      rw [((C09_errors L hL nx _ hI hE 1e-7).2.1 hrows (Or.inr hne)).1] at k1
      cases k1
    obtain ⟨r, r1, -, -, r2, -⟩ := redundancy_run hL hI hrows hE hne (Or.inl hC) (tol := 1e-7) (by norm_num)
    rw [r1] at k1
    obtain rfl : r = mf := Option.some.inj (Except.ok.inj k1)
    have hlt := r2 (r[i]'(l1 ▸ hi)) (List.getElem_mem _)
    rw [hnr] at hlt
    generalize r[i]'(l1 ▸ hi) = m at hb hlt
    generalize l1 ▸ hi = hi' at *
    unfold beyondFacet at hb
    obtain ⟨o, -, hb⟩ := Py.bind_eq_ok hb
    cases o with
    | none => cases hb
    | some c =>
      simp only at hb
      obtain ⟨x, -, hb⟩ := Py.bind_eq_ok hb
      intro j hj
      have hb := (Except.ok.inj hb).symm
      rw [hb] at hj
      simp only [Finset.mem_sort, Finset.mem_symmDiff, List.mem_toFinset, Finset.mem_singleton] at hj
      rcases hj with hj | hj
      · exact ha j hj.1
      · omega

/-- the equality added for a facet is independent, if it holds somewhere but not everywhere -/
theorem facet_indep {p F : Poly} {n : ℕ} (hF : F.Inv n) (h1 : F.C.nr = 1) (hn : 1 < n) {i : ℕ}
    (heq : ∀ w, Spec.EqHold F.C F.d w ↔ Spec.rowVal p.A i w = p.b.e i) {f z : ℕ → ℝ} (hf : Spec.rowVal p.A i f = p.b.e i) (hz : Spec.rowVal p.A i z ≠ p.b.e i) :
    Spec.EqIndep n F.C := by
  refine ⟨by omega, fun w hw k hk => ?_⟩
  obtain rfl : k = 0 := by omega
  by_contra h0
  refine hz ((heq z).1 fun k hk => ?_)
  obtain rfl : k = 0 := by omega
  have h2 := (heq f).2 hf 0 hk
  have hzero : ∀ j ∈ range F.C.nc, F.C.e 0 j = 0 := fun j hj => by
    have := hw j (by rw [← hF.2.2.1]; exact mem_range.1 hj)
    rw [h1, Finset.sum_range_one] at this
    exact (mul_eq_zero.1 this).resolve_left h0
  unfold Spec.rowVal at h2 ⊢
  rw [Finset.sum_eq_zero fun j hj => by rw [hzero j hj, zero_mul]] at h2
  rw [Finset.sum_eq_zero fun j hj => by rw [hzero j hj, zero_mul], h2]

/-- the center of a bounded facet -/
theorem facet_center_ok {L : Lib} (hL : LibSpec L) {cr : CritReg} {n : ℕ} (hp : cr.polyhedron.Inv n) (h0 : cr.polyhedron.C.nr = 0) (hn : 1 < n) {i : ℕ} {M : ℝ}
    {f z : ℕ → ℝ} (hM : ∀ w, cr.polyhedron.Mem w → Spec.rowVal cr.polyhedron.A i w = cr.polyhedron.b.e i → ∀ j < n, |w j| ≤ M) (hf : cr.polyhedron.Mem f)
    (hfi : Spec.rowVal cr.polyhedron.A i f = cr.polyhedron.b.e i) (hz : Spec.rowVal cr.polyhedron.A i z ≠ cr.polyhedron.b.e i) :
    ∃ c, cr.facet_center L i = .ok (some c) ∧ c.n = n := by
  unfold CritReg.facet_center
  rw [if_neg (by rw [hp.1]; omega)]
  obtain ⟨F, F1, F2, F3, F4, F5, F6, F7, F8⟩ := facet_run hp h0 i
  have hrank : Poly.EqRank n F := Poly.eqRank_iff.2 (facet_indep F2 F5 hn F7 hfi hz)
  have hFf : F.Mem f := (F8 f).2 ⟨hf, hfi⟩
  obtain ⟨r, c, g1, g2, -⟩ := Poly.chebyshev_ok hL F2 (Or.inr hrank) (constantRows_of_mem hFf)
    (Poly.balls_bounded hL F2 (by rw [F5]; exact one_pos) hrank (M := M) fun v hv => hM v ((F8 v).1 hv).1 ((F8 v).1 hv).2)
  simp only [F1, Py.ok_bind]
  rw [center_run L F6, g1]
  exact ⟨c, rfl, g2⟩

/-- C123 for any number of parameters, what holds: if the regions found at the points of the search have a point (closer to `0` than about `1e7`), and with two or more parameters each facet
that they go through is bounded and has a point, then `explicit_solve` raises nothing, however long it runs.  Missing: empty regions found within the tolerance (`C123_false`), unbounded facets
(`C123_unbounded_false`); both are false. -/
theorem C123_many_partial (L : Lib) (hL : LibSpec L) (nu nx : ℕ) (q : MpQP) (hm : q.Made) (hs : q.data.Shape nu nx) (hnu : 0 < nu) (hnx : 0 < nx) (hpos : 0 < q.Au.nr) (step : ℝ)
    (hreg : ∀ xa, Reached L q step xa → ∀ cr : CritReg, q.explicit_solve_given_point L xa.1 (some xa.2) = .ok (some cr) →
      (∃ x : ℕ → ℝ, cr.polyhedron.Mem x ∧ ∑ j ∈ range nx, x j ^ 2 < 1 / (1e-7 : ℝ) ^ 2 - 1) ∧
      (nx = 1 ∨ ∀ mf, (Poly.minimal_facets L 1e-7 cr.polyhedron).1 = .ok (some mf) → ∀ i ∈ mf,
        (∃ f, cr.polyhedron.Mem f ∧ Spec.rowVal cr.polyhedron.A i f = cr.polyhedron.b.e i) ∧
        ∃ M, ∀ w, cr.polyhedron.Mem w → Spec.rowVal cr.polyhedron.A i w = cr.polyhedron.b.e i → ∀ j < nx, |w j| ≤ M)) (fuel : ℕ) :
    ∃ r, explicit_solve L q fuel step = .ok r := by
  suffices H : ∀ (fuel : ℕ) (buffer : List (Vec ℝ × List ℕ)) (found : List CritReg), (∀ xa ∈ buffer, Reached L q step xa) →
      (∀ c ∈ found, ∃ a, q.data.Licq nu a ∧ Like c (q.fCr a)) → ∃ r, explore L q step fuel buffer found = .ok r from
    H fuel _ [] (fun xa hxa => by rw [List.mem_singleton] at hxa; subst hxa; exact .start) (by simp)
  intro fuel
  induction fuel with
  | zero => exact fun _ _ _ _ => ⟨_, rfl⟩
  | succ fuel ih =>
    intro buffer found hb hf
    obtain ⟨l, hl⟩ := uncovered_ok (found := found) (l := buffer) fun c hc xa hxa => by
      obtain ⟨a, a1, a2⟩ := hf c hc
      obtain ⟨r, r1, -⟩ := contains_fCr hm hs a1 hpos (reached_size hm hs (hb xa hxa))
      exact ⟨r, by rw [a2.contains, r1]⟩
    obtain ⟨u1, -⟩ := uncovered_cases hl
    unfold explore
    rw [hl, Py.ok_bind]
    cases l with
    | nil => exact ⟨_, rfl⟩
    | cons xa rest =>
      have hxa : Reached L q step xa := hb xa (u1.subset (List.mem_cons_self ..))
      have hrest : ∀ ya ∈ rest, Reached L q step ya := fun ya hya => hb ya (u1.subset (List.mem_cons_of_mem _ hya))
      obtain ⟨o, ho⟩ := point_ok hL hm hs hnu hpos (reached_size hm hs hxa) (reached_index hL hm hs hxa)
      simp only [ho, Py.ok_bind]
      cases o with
      | none => exact ih rest found hrest hf
      | some cr =>
        obtain ⟨⟨x, x1, x2⟩, x3⟩ := hreg xa hxa cr ho
        obtain ⟨a, hrun⟩ := point_from ho
        obtain ⟨ha, hla, rfl⟩ := explicit_cases hm hs hrun
        have hI := fCr_inv (a := a) hs
        have hE : (q.fCr a).polyhedron.EmptyOk L := fun e he => by cases he
        have hC : (q.fCr a).polyhedron.C.nr = 0 := (C07 nx _ (fPoly_inv (a := a) hs) 1e-7 (by norm_num)).2.2.1
        have hnr : (q.fCr a).polyhedron.A.nr = q.Au.nr := by
          rw [show (q.fCr a).polyhedron.A.nr = a.length + (q.inactive a).length from (C07 nx _ (fPoly_inv (a := a) hs) 1e-7 (by norm_num)).2.1]
          exact length_inactive hs ha (licq_nodup hla)
        obtain ⟨r, r1, -, -, -, r5, -⟩ := redundancy_run hL hI (.inl (by omega)) hE ⟨x, x1, x2⟩ (Or.inl hC) (tol := 1e-7) (by norm_num)
        have hnb : ∃ w, neighbours L step (q.fCr a) = .ok w := by
          unfold neighbours
          rw [r1]
          simp only [Py.ok_bind]
          have hfacet : ∀ i ∈ r, ∃ w, beyondFacet L step { q.fCr a with polyhedron := { (q.fCr a).polyhedron with _empty := some false } } i = .ok w := by
            intro i hir
            have hcen : ∃ c, CritReg.facet_center L { q.fCr a with polyhedron := { (q.fCr a).polyhedron with _empty := some false } } i = .ok (some c) ∧ c.n = nx := by
              by_cases h1 : nx = 1
              · unfold CritReg.facet_center
                rw [if_pos (show (q.fCr a).polyhedron.A.nc = 1 from hI.1.trans h1)]
                exact ⟨_, rfl, h1.symm⟩
              · obtain ⟨⟨f, f1, f2⟩, M, hM⟩ := x3.resolve_left h1 r (by rw [r1]) i hir
                obtain ⟨z, -, -, -, hz⟩ := r5 i hir
                exact facet_center_ok hL (cr := { q.fCr a with polyhedron := { (q.fCr a).polyhedron with _empty := some false } }) (n := nx) hI hC (by omega) hM f1 f2
                  (z := z) (by
                    show Spec.rowVal (q.fCr a).polyhedron.A i z ≠ (q.fCr a).polyhedron.b.e i
                    have : (0 : ℝ) < 1e-7 := by norm_num
                    exact ne_of_gt (by linarith))
            obtain ⟨c, c1, c2⟩ := hcen
            unfold beyondFacet
            rw [c1, Py.ok_bind]
            have hadd : np.addV c (((q.fCr a).polyhedron.A.row i).smul step) = .ok _ := if_pos (c2.trans hI.1.symm)
            simp only [hadd, Py.ok_bind]
            exact ⟨_, rfl⟩
          have hg : ∀ i ∈ r, beyondFacet L step { q.fCr a with polyhedron := { (q.fCr a).polyhedron with _empty := some false } } i
              = .ok (match beyondFacet L step { q.fCr a with polyhedron := { (q.fCr a).polyhedron with _empty := some false } } i with
                | .ok w => w | .error _ => (Vec.zeros 0, [])) := by
            intro i hi
            obtain ⟨w, hw⟩ := hfacet i hi
            rw [hw]
          rw [mapM_ok hg]
          exact ⟨_, rfl⟩
        obtain ⟨⟨l, cr'⟩, hnb⟩ := hnb
        simp only [hnb, Py.ok_bind]
        refine ih _ _ (fun ya hya => ?_) fun c hc => ?_
        · rcases List.mem_append.1 hya with h | h
          · exact hrest ya h
          · exact .next hxa ho hnb h
        · rcases List.mem_append.1 hc with h | h
          · exact hf c h
          · rw [List.mem_singleton] at h
            subst h
            exact ⟨a, hla, neighbours_like hnb⟩

/-! ### unbounded facets -/

/-- with two or more parameters `facet_center` raises `ValueError` for the only inequality of a half space -/
theorem facet_center_single {L : Lib} (hL : LibSpec L) {cr : CritReg} {n : ℕ} (hp : cr.polyhedron.Inv n) (h0 : cr.polyhedron.C.nr = 0) (hn : 1 < n)
    (hA : cr.polyhedron.A.nr = 1) {f z : ℕ → ℝ} (hf : Spec.rowVal cr.polyhedron.A 0 f = cr.polyhedron.b.e 0) (hz : Spec.rowVal cr.polyhedron.A 0 z ≠ cr.polyhedron.b.e 0) :
    cr.facet_center L 0 = .error .valueError := by
  unfold CritReg.facet_center
  rw [if_neg (by rw [hp.1]; omega)]
  obtain ⟨F, F1, F2, F3, F4, F5, F6, F7, F8⟩ := facet_run hp h0 0
  have hrank : Poly.EqRank n F := Poly.eqRank_iff.2 (facet_indep F2 F5 hn F7 hf hz)
  simp only [F1, Py.ok_bind]
  obtain ⟨E, g, N, R, x0, h1, hN0, h2⟩ := Poly.removeEqualities_ok hL F2 (by omega) hrank
  have hEr : E.nr = 1 := by rw [h2.Enr, F3, hA]
  -- the inequality is trivial on the facet
  have hE : ∀ y : ℕ → ℝ, ∑ l ∈ range N.nc, E.e 0 l * y l = g.e 0 := by
    intro y
    have h3 := h2.res y 0 (by rw [F3]; omega)
    have h4 := (F7 (affine x0 N y)).1 fun i hi => by
      unfold Spec.rowVal
      rw [F2.2.2.1]
      exact h2.eqs y i hi
    unfold Spec.rowVal at h4
    rw [hp.1] at h4
    rw [F3, F4, h4] at h3
    linarith
  have hEz : ∀ l < N.nc, E.e 0 l = 0 := by
    intro l hl
    have e1 := hE fun _ => 0
    have e2 := hE fun j => if j = l then 1 else 0
    rw [Finset.sum_eq_single_of_mem l (mem_range.2 hl) fun j _ hj => by simp [hj]] at e2
    simp at e1 e2
    linarith
  have hlp : Poly.chebyshevLP L E g = .ok none := by
    rw [Poly.chebyshevLP_eq]
    unfold lpDefault
    obtain ⟨q, AC, bd, ys, x, r, hS, -, -, -, -, k5, -, k7, -⟩ := lp_run hL (n := N.nc + 1) (f := (Vec.zeros E.nc).append (Vec.ones 1))
      (A := E.happ (Poly.rowNorms E).neg) (b := g) (C := none) (d := none) (by rw [h2.Enc]; rfl)
      (show Spec.ConstrShape _ _ _ none none from ⟨by show E.nc + 1 = N.nc + 1; rw [h2.Enc], h2.fn.trans h2.Enr.symm⟩) 1e-7
    have hq : q = 0 := by
      by_contra h
      obtain ⟨C', hC'⟩ := hS.qpos (Nat.pos_of_ne_zero h)
      cases hC'
    have hnr : AC.nr = 1 := by rw [hS.nr, hq]; exact hEr
    obtain ⟨-, -, b3⟩ := lpRes_bounds k5
    have hrow := hS.rowA 0 (by show 0 < E.nr; omega)
    have c1 := b3 N.nc (by rw [hS.nc]; omega)
    rw [hnr, Finset.sum_range_one, hrow] at c1
    have a1 : (E.happ (Poly.rowNorms E).neg).e 0 N.nc = 0 := by
      have hn : vnorm (E.row 0) = 0 := by
        have : vnorm (E.row 0) ^ 2 = 0 := by
          rw [vnorm_sq]
          show ∑ j ∈ range E.nc, E.e 0 j ^ 2 = 0
          rw [h2.Enc]
          exact Finset.sum_eq_zero fun j hj => by rw [hEz j (mem_range.1 hj)]; norm_num
        exact pow_eq_zero_iff two_ne_zero |>.1 this
      rw [show (E.happ (Poly.rowNorms E).neg).e 0 N.nc = (Poly.rowNorms E).neg.e 0 (N.nc - E.nc) from if_neg (by rw [h2.Enc]; omega)]
      show - vnorm (E.row 0) = 0
      rw [hn, neg_zero]
    have f1 : ((Vec.zeros E.nc : Vec ℝ).append (Vec.ones 1)).e N.nc = 1 := by rw [h2.Enc]; simp [Vec.append, Vec.zeros, Vec.ones]
    rw [a1, f1] at c1
    have hlt : ¬ r < 1e-7 := by
      intro h
      norm_num at h c1
      linarith
    have k7 := k7 (.inl (show 0 < E.nr by omega))
    rw [if_neg hlt] at k7
    rw [k7]
    rfl
  have hch : Poly.chebyshev L F.A F.b F.C F.d = .error .valueError := by
    unfold Poly.chebyshev
    have h1 : Poly.removeEqualities L (Poly.fresh F.A F.b F.C F.d) = .ok (E, g, N, R) := h1
    rw [if_pos (by omega), h1, Py.ok_bind]
    simp only [hlp, Py.ok_bind]
  rw [center_run L F6, hch]

/-- min u² / 2 - u x₀ s.t. u ≤ 0, with the parameters x₀ and x₁ -/
noncomputable def halfPlaneQP : Spec.ParamQP :=
  ⟨⟨1, 1, fun _ _ => 1⟩, ⟨1, 2, fun _ j => if j = 0 then -1 else 0⟩, ⟨2, 2, fun _ _ => 0⟩, ⟨1, fun _ => 0⟩, ⟨2, fun _ => 0⟩, 0,
   ⟨1, 1, fun _ _ => 1⟩, ⟨1, 2, fun _ _ => 0⟩, ⟨1, fun _ => 0⟩⟩

theorem halfPlaneQP_shape : halfPlaneQP.Shape 1 2 := by
  refine ⟨⟨rfl, rfl, fun _ _ _ _ => rfl, ?_⟩, rfl, rfl, rfl, rfl, rfl, rfl, rfl, rfl, rfl, rfl⟩
  rintro x ⟨i, hi, hx⟩
  have : i = 0 := by omega
  subst this
  have := mul_self_pos.2 hx
  simp [halfPlaneQP]
  nlinarith

/-- C123 is false for two parameters also without the tolerances: `explicit_solve` raises `ValueError` on the program `halfPlaneQP`, though `solve` gives the minimizer `min (x₀, 0)` (here for
`|x₀| ≤ 1000`).  The region found first is the half plane `x₀ ≤ 0`, whose facet is a line and has no largest ball. -/
theorem C123_unbounded_false (L : Lib) (hL : LibSpec L) : ∃ q : MpQP, q.Made ∧ q.data.Shape 1 2 ∧ 0 < q.Au.nr ∧
    (∀ x : Vec ℝ, x.n = 2 → |x.e 0| ≤ 1000 → ∃ (s : Sol) (u : Vec ℝ), q.solve L x = .ok s ∧ s.argmin = some u ∧ u.e 0 = min (x.e 0) 0) ∧
    ∀ fuel > 0, ∀ step, q.explicit_solve L fuel step = .error .valueError := by
  obtain ⟨q, -, hm, hd⟩ := init_made halfPlaneQP_shape
  have hs : q.data.Shape 1 2 := by rw [hd]; exact halfPlaneQP_shape
  have hA : q.Au.nr = 1 := congrArg (fun P : Spec.ParamQP => P.Au.nr) hd
  have hAx : q.Ax.nr = 1 := congrArg (fun P : Spec.ParamQP => P.Ax.nr) hd
  have hH : q.Huu.e 0 0 = 1 := congrArg (fun P : Spec.ParamQP => P.Huu.e 0 0) hd
  have hb : q.b.e 0 = 0 := congrArg (fun P : Spec.ParamQP => P.b.e 0) hd
  have hlhs : ∀ u x, q.data.lhs 1 2 0 u x = u 0 := fun u x => by rw [hd]; simp [Spec.ParamQP.lhs, halfPlaneQP]
  have hlag : ∀ u x p, q.data.lagrangian 1 2 u x p 0 = u 0 - x 0 + p 0 := fun u x p => by
    rw [hd]; simp [Spec.ParamQP.lagrangian, halfPlaneQP]; ring
  have hl : q.data.Licq 1 [] := fun w _ k hk => by simp at hk
  have hkkt : ∀ x : ℕ → ℝ, q.data.KKT 1 2 (fun _ => min (x 0) 0) (fun _ => x 0 - min (x 0) 0) x := by
    intro x
    refine ⟨fun i hi => ?_, fun j hj => ?_, fun i hi => sub_nonneg.2 (min_le_left _ _), fun i hi => ?_⟩
    · obtain rfl : i = 0 := by have : i < q.Au.nr := hi; omega
      rw [hlhs, show q.data.b.e 0 = 0 from hb]
      exact min_le_right _ _
    · obtain rfl : j = 0 := by omega
      rw [hlag]; ring
    · obtain rfl : i = 0 := by have : i < q.Au.nr := hi; omega
      rw [hlhs, show q.data.b.e 0 = 0 from hb]
      rcases min_choice (x 0) 0 with h | h <;> rw [h] <;> ring
  refine ⟨q, hm, hs, by omega, fun x hx hx0 => ?_, fun fuel hfuel step => ?_⟩
  · obtain ⟨s, h1, h2, h3, -⟩ := (C45_partial L hL 1 2 q hs x hx (fun _ => x.e 0) (by
      intro j hj
      obtain rfl : j = 0 := by omega
      rw [hlag]; ring)).1 (by omega)
    obtain ⟨o1, o2⟩ := opt_of_kkt hs (hkkt x.e)
    cases hmin : s.min with
    | none =>
      exfalso
      rcases h3.1 hmin with h4 | ⟨v, h4, h5⟩
      · exact h4 _ o1.1
      · rw [Finset.sum_range_one, Finset.sum_range_one, hH, o2 v h4.1 (h4.2 _ o1.1) 0 (by norm_num)] at h5
        obtain ⟨x1, x2⟩ := abs_le.1 hx0
        have m1 : min (x.e 0) 0 ≤ 0 := min_le_right _ _
        have m2 : -1000 ≤ min (x.e 0) 0 := le_min x1 (by norm_num)
        norm_num at h5
        nlinarith
    | some m =>
      obtain ⟨u, lam, k1, k2, k3, k4, -⟩ := h2 m hmin
      exact ⟨s, u, h1, k1, (k4 _ o1 0 (by norm_num)).symm⟩
  · obtain ⟨fuel, rfl⟩ : ∃ f, fuel = f + 1 := ⟨fuel - 1, by omega⟩
    have hi0 : q.inactive [] = [0] := by simp [inactive, hAx]
    have hk : ∀ x : ℕ → ℝ, q.fu' [] 2 x 0 = x 0 := by
      intro x
      obtain ⟨k1, -⟩ := (fCr_kkt hm hs (a := []) (by simp) hl x).2.2 (fun _ => x 0) (fun _ => 0) (by
        intro j hj
        obtain rfl : j = 0 := by omega
        rw [hlag]; ring) (by simp) (by simp)
      exact (k1 0 (by norm_num)).symm
    have hI := fCr_inv (a := []) hs
    have hE : (q.fCr []).polyhedron.EmptyOk L := fun e he => by cases he
    have hC : (q.fCr []).polyhedron.C.nr = 0 := (C07 2 _ (fPoly_inv (a := []) hs) 1e-7 (by norm_num)).2.2.1
    have hnr : (q.fCr []).polyhedron.A.nr = 1 := by
      rw [show (q.fCr []).polyhedron.A.nr = ([] : List ℕ).length + (q.inactive []).length from (C07 2 _ (fPoly_inv (a := []) hs) 1e-7 (by norm_num)).2.1, hi0]
      rfl
    -- the region is the half plane
    have hmem : ∀ x : ℕ → ℝ, (q.fCr []).polyhedron.Mem x ↔ x 0 ≤ 0 := by
      intro x
      rw [fCr_mem hm hs hl x]
      constructor
      · rintro ⟨-, m2⟩
        have := m2 0 (by omega) (by simp)
        rwa [hlhs, hk, hb] at this
      · intro h
        refine ⟨by simp, fun i hi _ => ?_⟩
        obtain rfl : i = 0 := by omega
        rwa [hlhs, hk, hb]
    have hrow : ∀ x : ℕ → ℝ, Spec.rowVal (q.fCr []).polyhedron.A 0 x ≤ (q.fCr []).polyhedron.b.e 0 ↔ x 0 ≤ 0 := by
      intro x
      rw [← hmem]
      constructor
      · intro h
        refine ⟨fun i hi => ?_, fun i hi => by omega⟩
        obtain rfl : i = 0 := by omega
        exact h
      · exact fun h => h.1 0 (by omega)
    have hv : ∀ x, Spec.rowVal (q.fCr []).polyhedron.A 0 x = (q.fCr []).polyhedron.A.e 0 0 * x 0 + (q.fCr []).polyhedron.A.e 0 1 * x 1 := by
      intro x
      unfold Spec.rowVal
      rw [hI.1, Finset.sum_range_succ, Finset.sum_range_one]
    simp only [hv] at hrow
    set P := (q.fCr []).polyhedron with hP
    have e0 := (hrow fun _ => 0).2 le_rfl
    have e1 : P.A.e 0 1 = 0 := by
      by_contra h
      have := (hrow fun j => if j = 0 then 0 else (P.b.e 0 + 1) / P.A.e 0 1).2 (by simp)
      simp only [if_true, one_ne_zero, if_false, mul_zero, zero_add] at this
      rw [mul_div_cancel₀ _ h] at this
      linarith
    have e2 : 0 < P.A.e 0 0 := by
      by_contra h
      have := (hrow fun j => if j = 0 then 1 else 0).1 (by
        simp only [if_true, one_ne_zero, if_false, mul_zero, mul_one, add_zero]
        simp only [mul_zero, add_zero] at e0
        linarith)
      norm_num at this
    have e3 : P.b.e 0 = 0 := by
      by_contra h
      have hb0 : 0 < P.b.e 0 := lt_of_le_of_ne (by simpa using e0) (Ne.symm h)
      have := (hrow fun j => if j = 0 then P.b.e 0 / P.A.e 0 0 else 0).1 (by
        simp only [if_true, one_ne_zero, if_false, mul_zero, add_zero]
        rw [mul_div_cancel₀ _ e2.ne'])
      simp only [if_true] at this
      exact absurd (div_pos hb0 e2) (not_lt.2 this)
    have hzero : (Vec.zeros q.fx.n : Vec ℝ).n = 2 := hs.fx
    have hcon : (q.fCr []).contains (Vec.zeros q.fx.n) = .ok true := by
      obtain ⟨b, b1, b2⟩ := contains_iff hI (by omega) _ hzero 1e-7
      have : b = true := b2.2 ⟨fun i hi => by
        obtain rfl : i = 0 := by omega
        rw [e3]
        simp [Vec.zeros]; norm_num, fun hi => by omega⟩
      rw [this] at b1
      exact b1
    have hrun : q.explicit_solve_given_active_set [] = .ok (some (q.fCr [])) := explicit_some hm hs (by simp) hl
    have hpoint := (C44_partial L hL 1 2 q hm hs one_pos (by omega) _ hzero).1 _ _ hrun hcon
    obtain ⟨r, r1, -, r2, r3, -, r4⟩ := redundancy_run hL hI (.inl (by omega)) hE ⟨fun _ => 0, (hmem _).2 le_rfl, by norm_num⟩ (Or.inl hC) (tol := 1e-7) (by norm_num)
    have hr : r = [0] := by
      rw [hnr] at r2
      rcases List.sublist_singleton.1 (show r.Sublist [0] from r2) with h | h
      · exfalso
        have := r4 0 (by omega) (by rw [h]; simp) (fun j => if j = 0 then 1 / P.A.e 0 0 else 0) (fun i hi => by omega) (by rw [h]; simp) (fun j hj hj' => by omega)
        rw [hv, e3] at this
        simp only [if_true, one_ne_zero, if_false, mul_zero, add_zero] at this
        rw [mul_div_cancel₀ _ e2.ne'] at this
        norm_num at this
      · exact h
    have hfc : CritReg.facet_center L { q.fCr [] with polyhedron := { (q.fCr []).polyhedron with _empty := some false } } 0 = .error .valueError := by
      refine facet_center_single hL (n := 2) hI hC (by norm_num) hnr (f := fun _ => 0) (z := fun _ => 1) ?_ ?_
      · show Spec.rowVal P.A 0 _ = P.b.e 0
        rw [hv, e3]; simp
      · show Spec.rowVal P.A 0 _ ≠ P.b.e 0
        rw [hv, e3, e1]; simp [e2.ne']
    show explore L q step (fuel + 1) _ _ = _
    unfold explore
    have hunc : uncovered [] [((Vec.zeros q.fx.n : Vec ℝ), ([] : List ℕ))] = .ok [(Vec.zeros q.fx.n, [])] := rfl
    rw [hunc, Py.ok_bind]
    simp only [hpoint, Py.ok_bind]
    have hbf : beyondFacet L step { q.fCr [] with polyhedron := { (q.fCr []).polyhedron with _empty := some false } } 0 = .error .valueError := by
      unfold beyondFacet
      rw [hfc]
      rfl
    unfold neighbours
    simp only [← hP, r1, Py.ok_bind, hr, List.mapM_cons]
    simp only [← hP] at hbf
    rw [hbf]
    rfl

/-- min u² / 2 s.t. |x₀| ≤ 1, |x₁| ≤ 1 -/
noncomputable def penQP : Spec.ParamQP :=
  ⟨⟨1, 1, fun _ _ => 1⟩, ⟨1, 2, fun _ _ => 0⟩, ⟨2, 2, fun _ _ => 0⟩, ⟨1, fun _ => 0⟩, ⟨2, fun _ => 0⟩, 0,
   ⟨4, 1, fun _ _ => 0⟩, ⟨4, 2, fun i j => if i = j then 1 else if i = j + 2 then -1 else 0⟩, ⟨4, fun _ => 1⟩⟩

theorem penQP_shape : penQP.Shape 1 2 := by
  refine ⟨⟨rfl, rfl, fun _ _ _ _ => rfl, ?_⟩, rfl, rfl, rfl, rfl, rfl, rfl, rfl, rfl, rfl, rfl⟩
  rintro x ⟨i, hi, hx⟩
  have : i = 0 := by omega
  subst this
  have := mul_self_pos.2 hx
  simp [penQP]
  nlinarith

/-- the hypotheses of `C123_many_partial` are met on the program `penQP` with two parameters, where the search takes four steps out of the box -/
example (L : Lib) (hL : LibSpec L) : ∃ q : MpQP, q.Made ∧ q.data.Shape 1 2 ∧ 0 < q.Au.nr ∧
    (∀ xa, Reached L q 1e-5 xa → ∀ cr : CritReg, q.explicit_solve_given_point L xa.1 (some xa.2) = .ok (some cr) →
      (∃ x : ℕ → ℝ, cr.polyhedron.Mem x ∧ ∑ j ∈ range 2, x j ^ 2 < 1 / (1e-7 : ℝ) ^ 2 - 1) ∧
      (2 = 1 ∨ ∀ mf, (Poly.minimal_facets L 1e-7 cr.polyhedron).1 = .ok (some mf) → ∀ i ∈ mf,
        (∃ f, cr.polyhedron.Mem f ∧ Spec.rowVal cr.polyhedron.A i f = cr.polyhedron.b.e i) ∧
        ∃ M, ∀ w, cr.polyhedron.Mem w → Spec.rowVal cr.polyhedron.A i w = cr.polyhedron.b.e i → ∀ j < 2, |w j| ≤ M)) ∧
    ∀ fuel, ∃ r, explicit_solve L q fuel = .ok r := by
  obtain ⟨q, -, hm, hd⟩ := init_made penQP_shape
  have hs : q.data.Shape 1 2 := by rw [hd]; exact penQP_shape
  have hA : q.Au.nr = 4 := congrArg (fun P : Spec.ParamQP => P.Au.nr) hd
  have hAx : q.Ax.nr = 4 := congrArg (fun P : Spec.ParamQP => P.Ax.nr) hd
  have hAe : ∀ i j, q.Au.e i j = 0 := fun i j => congrArg (fun P : Spec.ParamQP => P.Au.e i j) hd
  have hb : ∀ i, q.b.e i = 1 := fun i => congrArg (fun P : Spec.ParamQP => P.b.e i) hd
  have hlhs : ∀ i u x, q.data.lhs 1 2 i u x = (if i = 0 then 1 else if i = 2 then -1 else 0) * x 0 + (if i = 1 then 1 else if i = 3 then -1 else 0) * x 1 := fun i u x => by
    rw [hd]; simp [Spec.ParamQP.lhs, penQP, Finset.sum_range_succ]
  have hnil : ∀ a, q.data.Licq 1 a → a = [] := by
    intro a hl
    by_contra h
    have := hl (fun _ => 1) (fun j hj => Finset.sum_eq_zero fun k _ => by
      show 1 * q.Au.e _ _ = 0
      rw [hAe, mul_zero]) 0 (List.length_pos_iff.2 h)
    norm_num at this
  have hreg : ∀ xa, Reached L q 1e-5 xa → ∀ cr : CritReg, q.explicit_solve_given_point L xa.1 (some xa.2) = .ok (some cr) →
      (∃ x : ℕ → ℝ, cr.polyhedron.Mem x ∧ ∑ j ∈ range 2, x j ^ 2 < 1 / (1e-7 : ℝ) ^ 2 - 1) ∧
      (2 = 1 ∨ ∀ mf, (Poly.minimal_facets L 1e-7 cr.polyhedron).1 = .ok (some mf) → ∀ i ∈ mf,
        (∃ f, cr.polyhedron.Mem f ∧ Spec.rowVal cr.polyhedron.A i f = cr.polyhedron.b.e i) ∧
        ∃ M, ∀ w, cr.polyhedron.Mem w → Spec.rowVal cr.polyhedron.A i w = cr.polyhedron.b.e i → ∀ j < 2, |w j| ≤ M) := by
    intro xa _ cr hcr
    obtain ⟨a, hrun⟩ := point_from hcr
    obtain ⟨ha, hl, rfl⟩ := explicit_cases hm hs hrun
    obtain rfl := hnil a hl
    have hmem : ∀ x : ℕ → ℝ, (q.fCr []).polyhedron.Mem x ↔ |x 0| ≤ 1 ∧ |x 1| ≤ 1 := by
      intro x
      rw [fCr_mem hm hs hl x, abs_le, abs_le]
      simp only [hlhs, hb]
      constructor
      · rintro ⟨-, m2⟩
        have m0 := m2 0 (by omega) (by simp)
        have m1 := m2 1 (by omega) (by simp)
        have m3 := m2 2 (by omega) (by simp)
        have m4 := m2 3 (by omega) (by simp)
        norm_num at m0 m1 m3 m4
        exact ⟨⟨by linarith, m0⟩, by linarith, m1⟩
      · rintro ⟨⟨h1, h2⟩, h3, h4⟩
        refine ⟨by simp, fun i hi _ => ?_⟩
        rw [hA] at hi
        interval_cases i <;> norm_num <;> linarith
    have hI := fCr_inv (a := []) hs
    have hE : (q.fCr []).polyhedron.EmptyOk L := fun e he => by cases he
    have hC : (q.fCr []).polyhedron.C.nr = 0 := (C07 2 _ (fPoly_inv (a := []) hs) 1e-7 (by norm_num)).2.2.1
    have hi0 : q.inactive [] = [0, 1, 2, 3] := by simp [inactive, hAx]; rfl
    have hnr : (q.fCr []).polyhedron.A.nr = 4 := by
      rw [show (q.fCr []).polyhedron.A.nr = ([] : List ℕ).length + (q.inactive []).length from (C07 2 _ (fPoly_inv (a := []) hs) 1e-7 (by norm_num)).2.1, hi0]
      rfl
    have hN : Spec.NearPoint 2 (q.fCr []).polyhedron.A (q.fCr []).polyhedron.b (q.fCr []).polyhedron.C (q.fCr []).polyhedron.d :=
      ⟨fun _ => 0, (hmem _).2 (by norm_num), by norm_num⟩
    refine ⟨hN, Or.inr fun mf h1 i hi => ⟨?_, 1, fun w hw _ j hj => ?_⟩⟩
    · obtain ⟨r, r1, -, -, r2, -⟩ := redundancy_run hL hI (.inl (by omega)) hE hN (Or.inl hC) (tol := 1e-7) (by norm_num)
      rw [r1] at h1
      obtain rfl : r = mf := Option.some.inj (Except.ok.inj h1)
      have hi4 := r2 i hi
      rw [hnr] at hi4
      have hrow : ∀ x : ℕ → ℝ, q.data.lhs 1 2 i (q.fu' [] 2 x) x = 1 → Spec.rowVal (q.fCr []).polyhedron.A i x = (q.fCr []).polyhedron.b.e i := by
        intro x hx
        have h5 := fAcr_con (a := []) hm hs x i
        have hg : (q.inactive []).getD i 0 = i := by rw [hi0]; interval_cases i <;> rfl
        rw [hg, hx, hb, List.length_nil, Nat.zero_add, sub_self] at h5
        obtain ⟨n1, n2⟩ := normalize_row (p := q.fPoly []) (i := i) (by
          rw [show (q.fPoly []).A.nr = ([] : List ℕ).length + (q.inactive []).length from rfl, hi0]
          exact hi4)
        unfold Spec.rowVal
        rw [hI.1]
        show ∑ j ∈ range 2, (q.fPoly []).normalize.A.e i j * x j = (q.fPoly []).normalize.b.e i
        simp only [n1, n2]
        split
        · rw [eq_comm, ← sub_eq_zero]
          have : (q.fBcr []).e i = ∑ j ∈ range 2, (q.fAcr []).e i j * x j := by linarith
          rw [show (q.fPoly []).b.e i = _ from this, Finset.sum_div, ← Finset.sum_sub_distrib]
          exact Finset.sum_eq_zero fun j _ => by
            show (q.fAcr []).e i j * x j / _ - (q.fAcr []).e i j / _ * x j = 0
            ring
        · exact sub_eq_zero.1 h5
      refine ⟨fun j => if i = j then 1 else if i = j + 2 then -1 else 0, (hmem _).2 ?_, hrow _ ?_⟩
      · interval_cases i <;> norm_num
      · rw [hlhs]
        interval_cases i <;> norm_num
    · obtain ⟨h1, h2⟩ := (hmem w).1 hw
      interval_cases j
      · exact h1
      · exact h2
  exact ⟨q, hm, hs, by omega, hreg, C123_many_partial L hL 1 2 q hm hs one_pos (by norm_num) (by omega) 1e-5 hreg⟩

end Verif.Props
