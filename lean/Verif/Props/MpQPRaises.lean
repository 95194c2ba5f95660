import Verif.Props.MpQPCoverage
import Verif.Props.MpQPLoop

/-
Whether `explicit_solve` of `/repo/pympc/optimization/parametric_programs.py` raises exceptions (C123).
-/
namespace Verif.Props
open Finset Verif.MpQP

variable {nu nx : ℕ} {q : MpQP}

theorem uncovered_ok {found : List CritReg} {l : List (Vec ℝ × List ℕ)} (h : ∀ c ∈ found, ∀ xa ∈ l, ∃ r, c.contains xa.1 = .ok r) :
    ∃ r, uncovered found l = .ok r := by
  induction l with
  | nil => exact ⟨[], rfl⟩
  | cons xa l ih =>
    obtain ⟨r, hr⟩ := ih fun c hc ya hya => h c hc ya (List.mem_cons_of_mem _ hya)
    have hcov : ∃ c, covered found xa.1 = .ok c := by
      have : ∀ c ∈ found, c.contains xa.1 = .ok (match c.contains xa.1 with | .ok r => r | .error _ => false) := by
        intro c hc
        obtain ⟨r, hr⟩ := h c hc xa (by simp)
        rw [hr]
      unfold covered
      rw [mapM_ok this]
      exact ⟨_, rfl⟩
    obtain ⟨c, hc⟩ := hcov
    unfold uncovered
    rw [hc, Py.ok_bind, hr, Py.ok_bind]
    exact ⟨_, rfl⟩

/-- The points that the search adds to the buffer, for one parameter: a step from an inequality of the region found.  Their guesses are indices of constraints. -/
theorem step_from {L : Lib} (hL : LibSpec L) (hm : q.Made) (hs : q.data.Shape nu 1) {step : ℝ} {x : Vec ℝ} {guess : Option (List ℕ)} {cr cr' : CritReg}
    {l : List (Vec ℝ × List ℕ)} (h2 : q.explicit_solve_given_point L x guess = .ok (some cr)) (h3 : neighbours L step cr = .ok (l, cr')) {ya : Vec ℝ × List ℕ} (h4 : ya ∈ l) :
    (∀ j ∈ ya.2, j < q.Au.nr) ∧ ∃ (a : List ℕ) (i : ℕ), cr = q.fCr a ∧ (∀ j ∈ a, j < q.Au.nr) ∧ q.data.Licq nu a ∧ i < q.Au.nr ∧
      ya.1.e 0 = cr.polyhedron.b.e i / cr.polyhedron.A.e i 0 + step * cr.polyhedron.A.e i 0 := by
  obtain ⟨a, hrun⟩ := point_from h2
  obtain ⟨ha, hl, rfl⟩ := explicit_cases hm hs hrun
  obtain ⟨P, hsame, rfl⟩ := neighbours_like h3
  obtain ⟨mf, k1, k2⟩ := neighbours_mem h3
  obtain ⟨l1, l2⟩ := mapM_ok_iff k2
  obtain ⟨i, hi, rfl⟩ := List.getElem_of_mem h4
  have hb := l2 i (l1 ▸ hi) hi
  have hI := fCr_inv (a := a) hs
  have hE : (q.fCr a).polyhedron.EmptyOk L := fun e he => by cases he
  have hC : (q.fCr a).polyhedron.C.nr = 0 := (C07 1 _ (fPoly_inv (a := a) hs) 1e-7 (by norm_num)).2.2.1
  have hnr : (q.fCr a).polyhedron.A.nr = q.Au.nr := by
    rw [show (q.fCr a).polyhedron.A.nr = a.length + (q.inactive a).length from (C07 1 _ (fPoly_inv (a := a) hs) 1e-7 (by norm_num)).2.1]
    exact length_inactive hs ha (licq_nodup hl)
  have hrows : (q.fCr a).polyhedron.HasRows := by
    by_contra h0
    rw [((C09_errors L hL 1 _ hI hE 1e-7).1 h0).1] at k1
    cases k1
  have hne : Spec.NearPoint 1 (q.fCr a).polyhedron.A (q.fCr a).polyhedron.b (q.fCr a).polyhedron.C (q.fCr a).polyhedron.d := by
    by_contra hne
    rw [((C09_errors L hL 1 _ hI hE 1e-7).2.1 hrows (Or.inr hne)).1] at k1
    cases k1
  obtain ⟨r, r1, -, -, r2, -⟩ := redundancy_run hL hI hrows hE hne (Or.inl hC) (tol := 1e-7) (by norm_num)
  rw [r1] at k1
  obtain rfl : r = mf := Option.some.inj (Except.ok.inj k1)
  have hlt := r2 (r[i]'(l1 ▸ hi)) (List.getElem_mem _)
  rw [hnr] at hlt
  have hnc : P.A.nc = 1 := by rw [hsame.1]; exact hI.1
  generalize r[i]'(l1 ▸ hi) = m at hb hlt
  generalize l[i] = za at hb
  unfold beyondFacet CritReg.facet_center at hb
  simp only [hnc, if_true, Py.ok_bind] at hb
  have hadd : np.addV (Vec.single (P.b.e m / P.A.e m 0)) ((P.A.row m).smul step) = .ok _ := if_pos hnc.symm
  rw [hadd] at hb
  cases hb
  refine ⟨fun j hj => ?_, a, m, rfl, ha, hl, hlt, ?_⟩
  · simp only [Finset.mem_sort, Finset.mem_symmDiff, List.mem_toFinset, Finset.mem_singleton] at hj
    rcases hj with hj | hj
    · exact ha j hj.1
    · omega
  · rw [← hsame.1, ← hsame.2.1]
    rfl

theorem reached_guess {L : Lib} (hL : LibSpec L) (hm : q.Made) (hs : q.data.Shape nu 1) {step : ℝ} {xa : Vec ℝ × List ℕ} (h : Reached L q step xa) :
    ∀ j ∈ xa.2, j < q.Au.nr := by
  cases h with
  | start => simp
  | next h1 h2 h3 h4 => exact (step_from hL hm hs h2 h3 h4).1

/-- at the points of the search `explicit_solve_given_point` raises nothing -/
theorem point_ok {L : Lib} (hL : LibSpec L) (hm : q.Made) (hs : q.data.Shape nu nx) (hnu : 0 < nu) (hpos : 0 < q.Au.nr) {x : Vec ℝ} (hx : x.n = nx) {a : List ℕ}
    (ha : ∀ j ∈ a, j < q.Au.nr) : ∃ r, q.explicit_solve_given_point L x (some a) = .ok r := by
  obtain ⟨g1, g2, g3, -⟩ := C44_partial L hL nu nx q hm hs hnu hpos x hx
  by_cases hg : ∃ c : CritReg, q.explicit_solve_given_active_set a = .ok (some c) ∧ c.contains x = .ok true
  · obtain ⟨c, c1, c2⟩ := hg
    exact ⟨_, g1 _ c c1 c2⟩
  · rw [g2 a ha fun c c1 c2 => hg ⟨c, c1, c2⟩]
    rcases g3 with ⟨s, h1, h2, h3⟩ | ⟨u, lam, s, act, h1, h2, hlam, h3, h4, h5, -, h6, h7, h8⟩
    · exact ⟨_, h3⟩
    · by_cases hl : q.data.Licq nu act
      · obtain ⟨c, c1, -⟩ := h8 hl
        exact ⟨_, c1⟩
      · exact ⟨_, h7 hl⟩

/-- C123, what holds, for programs with one parameter: if the regions found at the points of the search have a point (closer to `0` than about `1e7`, what the code takes as not empty), then
`explicit_solve` raises nothing, however long it runs.  Missing: regions found within the tolerance although no parameter satisfies their inequalities (false, see `C123_false`), more
parameters. -/
theorem C123_partial (L : Lib) (hL : LibSpec L) (nu : ℕ) (q : MpQP) (hm : q.Made) (hs : q.data.Shape nu 1) (hnu : 0 < nu) (hpos : 0 < q.Au.nr) (step : ℝ)
    (hreg : ∀ xa, Reached L q step xa → ∀ cr : CritReg, q.explicit_solve_given_point L xa.1 (some xa.2) = .ok (some cr) →
      ∃ x : ℕ → ℝ, cr.polyhedron.Mem x ∧ x 0 ^ 2 < 1 / (1e-7 : ℝ) ^ 2 - 1) (fuel : ℕ) :
    ∃ r, explicit_solve L q fuel step = .ok r := by
  suffices H : ∀ (fuel : ℕ) (buffer : List (Vec ℝ × List ℕ)) (found : List CritReg), (∀ xa ∈ buffer, Reached L q step xa) →
      (∀ c ∈ found, ∃ a, q.data.Licq nu a ∧ Like c (q.fCr a)) → ∃ r, explore L q step fuel buffer found = .ok r from
    H fuel _ [] (fun xa hxa => by rw [List.mem_singleton] at hxa; subst hxa; exact .start) (by simp)
  intro fuel
  induction fuel with
  | zero => exact fun _ _ _ _ => ⟨_, rfl⟩
  | succ fuel ih =>
    intro buffer found hb hf
    obtain ⟨l, hl⟩ := uncovered_ok (found := found) (l := buffer) fun c hc xa hxa => by
      obtain ⟨a, a1, a2⟩ := hf c hc
      obtain ⟨r, r1, -⟩ := contains_fCr hm hs a1 hpos (reached_size hm hs (hb xa hxa))
      exact ⟨r, by rw [a2.contains, r1]⟩
    obtain ⟨u1, -⟩ := uncovered_cases hl
    unfold explore
    rw [hl, Py.ok_bind]
    cases l with
    | nil => exact ⟨_, rfl⟩
    | cons xa rest =>
      have hxa : Reached L q step xa := hb xa (u1.subset (List.mem_cons_self ..))
      have hrest : ∀ ya ∈ rest, Reached L q step ya := fun ya hya => hb ya (u1.subset (List.mem_cons_of_mem _ hya))
      obtain ⟨o, ho⟩ := point_ok hL hm hs hnu hpos (reached_size hm hs hxa) (reached_guess hL hm hs hxa)
      simp only [ho, Py.ok_bind]
      cases o with
      | none => exact ih rest found hrest hf
      | some cr =>
        obtain ⟨x, x1, x2⟩ := hreg xa hxa cr ho
        obtain ⟨a, hrun⟩ := point_from ho
        obtain ⟨ha, hla, rfl⟩ := explicit_cases hm hs hrun
        have hI := fCr_inv (a := a) hs
        have hE : (q.fCr a).polyhedron.EmptyOk L := fun e he => by cases he
        have hC : (q.fCr a).polyhedron.C.nr = 0 := (C07 1 _ (fPoly_inv (a := a) hs) 1e-7 (by norm_num)).2.2.1
        have hnr : (q.fCr a).polyhedron.A.nr = q.Au.nr := by
          rw [show (q.fCr a).polyhedron.A.nr = a.length + (q.inactive a).length from (C07 1 _ (fPoly_inv (a := a) hs) 1e-7 (by norm_num)).2.1]
          exact length_inactive hs ha (licq_nodup hla)
        obtain ⟨r, r1, -⟩ := redundancy_run hL hI (.inl (by omega)) hE ⟨x, x1, by rw [Finset.sum_range_one]; exact x2⟩ (Or.inl hC) (tol := 1e-7) (by norm_num)
        have hnb : ∃ w, neighbours L step (q.fCr a) = .ok w := by
          unfold neighbours
          rw [r1]
          simp only [Py.ok_bind]
          have hfacet : ∀ i, ∃ w, beyondFacet L step { q.fCr a with polyhedron := { (q.fCr a).polyhedron with _empty := some false } } i = .ok w := by
            intro i
            unfold beyondFacet CritReg.facet_center
            simp only [show (q.fCr a).polyhedron.A.nc = 1 from hI.1, if_true, Py.ok_bind]
            have hadd : np.addV (Vec.single ((q.fCr a).polyhedron.b.e i / (q.fCr a).polyhedron.A.e i 0)) (((q.fCr a).polyhedron.A.row i).smul step) = .ok _ :=
              if_pos (show _ = (q.fCr a).polyhedron.A.nc from hI.1.symm)
            rw [hadd]
            exact ⟨_, rfl⟩
          choose g hg using hfacet
          rw [mapM_ok (g := g) fun i _ => hg i]
          exact ⟨_, rfl⟩
        obtain ⟨⟨l, cr'⟩, hnb⟩ := hnb
        simp only [hnb, Py.ok_bind]
        refine ih _ _ (fun ya hya => ?_) fun c hc => ?_
        · rcases List.mem_append.1 hya with h | h
          · exact hrest ya h
          · exact .next hxa ho hnb h
        · rcases List.mem_append.1 hc with h | h
          · exact hf c h
          · rw [List.mem_singleton] at h
            subst h
            exact ⟨a, hla, neighbours_like hnb⟩

/-! ### a program on which it raises an exception -/

/-- min u² / 2 s.t. u ≤ -5e-8 -/
noncomputable def hair : Spec.ParamQP :=
  ⟨⟨1, 1, fun _ _ => 1⟩, ⟨1, 1, fun _ _ => 0⟩, ⟨1, 1, fun _ _ => 0⟩, ⟨1, fun _ => 0⟩, ⟨1, fun _ => 0⟩, 0,
   ⟨1, 1, fun _ _ => 1⟩, ⟨1, 1, fun _ _ => 0⟩, ⟨1, fun _ => -5e-8⟩⟩

theorem hair_shape : hair.Shape 1 1 := by
  refine ⟨⟨rfl, rfl, fun _ _ _ _ => rfl, ?_⟩, rfl, rfl, rfl, rfl, rfl, rfl, rfl, rfl, rfl, rfl⟩
  rintro x ⟨i, hi, hx⟩
  have : i = 0 := by omega
  subst this
  have := mul_self_pos.2 hx
  simp [hair]
  nlinarith

/-- C123 is false: `explicit_solve` raises `TypeError` on a program that `solve` answers for each parameter.  The region without active constraints is taken at `0`, since its inequality is
violated by less than `1e-7`, but it is empty, and there is no list of minimal facets to go through. -/
theorem C123_false (L : Lib) (hL : LibSpec L) : ∃ q : MpQP, q.Made ∧ q.data.Shape 1 1 ∧ 0 < q.Au.nr ∧
    (∀ x : Vec ℝ, x.n = 1 → ∃ (s : Sol) (u : Vec ℝ), q.solve L x = .ok s ∧ s.argmin = some u ∧ u.e 0 = -5e-8) ∧
    ∀ fuel > 0, q.explicit_solve L fuel = .error .typeError := by
  obtain ⟨q, -, hm, hd⟩ := init_made hair_shape
  have hs : q.data.Shape 1 1 := by rw [hd]; exact hair_shape
  have hA : q.Au.nr = 1 := congrArg (fun P : Spec.ParamQP => P.Au.nr) hd
  have hAx : q.Ax.nr = 1 := congrArg (fun P : Spec.ParamQP => P.Ax.nr) hd
  have hnc : q.Ax.nc = 1 := congrArg (fun P : Spec.ParamQP => P.Ax.nc) hd
  have hH : q.Huu.e 0 0 = 1 := congrArg (fun P : Spec.ParamQP => P.Huu.e 0 0) hd
  have hb : q.b.e 0 = -5e-8 := congrArg (fun P : Spec.ParamQP => P.b.e 0) hd
  have hlhs : ∀ u x, q.data.lhs 1 1 0 u x = u 0 := fun u x => by rw [hd]; simp [Spec.ParamQP.lhs, hair]
  have hlag : ∀ u x p, q.data.lagrangian 1 1 u x p 0 = u 0 + p 0 := fun u x p => by rw [hd]; simp [Spec.ParamQP.lagrangian, hair]
  have hl : q.data.Licq 1 [] := fun w _ k hk => by simp at hk
  have hkkt : ∀ x : ℕ → ℝ, q.data.KKT 1 1 (fun _ => -5e-8) (fun _ => 5e-8) x := by
    intro x
    refine ⟨fun i hi => ?_, fun j hj => ?_, fun i hi => by norm_num, fun i hi => ?_⟩
    · obtain rfl : i = 0 := by have : i < q.Au.nr := hi; omega
      rw [hlhs, show q.data.b.e 0 = -5e-8 from hb]
    · obtain rfl : j = 0 := by omega
      rw [hlag]; ring
    · obtain rfl : i = 0 := by have : i < q.Au.nr := hi; omega
      rw [hlhs, show q.data.b.e 0 = -5e-8 from hb]; ring
  refine ⟨q, hm, hs, by omega, fun x hx => ?_, fun fuel hfuel => ?_⟩
  · obtain ⟨s, h1, h2, h3, -⟩ := (C45_partial L hL 1 1 q hs x hx (fun _ => 0) (by
      intro j hj
      obtain rfl : j = 0 := by omega
      rw [hlag]; ring)).1 (by omega)
    obtain ⟨o1, o2⟩ := opt_of_kkt hs (hkkt x.e)
    cases hmin : s.min with
    | none =>
      exfalso
      rcases h3.1 hmin with h4 | ⟨v, h4, h5⟩
      · exact h4 _ o1.1
      · rw [Finset.sum_range_one, Finset.sum_range_one, hH, o2 v h4.1 (h4.2 _ o1.1) 0 (by norm_num)] at h5
        norm_num at h5
    | some m =>
      obtain ⟨u, lam, k1, k2, k3, k4, -⟩ := h2 m hmin
      exact ⟨s, u, h1, k1, (k4 _ o1 0 (by norm_num)).symm⟩
  · obtain ⟨fuel, rfl⟩ : ∃ f, fuel = f + 1 := ⟨fuel - 1, by omega⟩
    have hi0 : q.inactive [] = [0] := by simp [inactive, hAx]
    have hk : ∀ x : ℕ → ℝ, q.fu' [] 1 x 0 = 0 := by
      intro x
      obtain ⟨k1, -⟩ := (fCr_kkt hm hs (a := []) (by simp) hl x).2.2 (fun _ => 0) (fun _ => 0) (by
        intro j hj
        obtain rfl : j = 0 := by omega
        rw [hlag]; ring) (by simp) (by simp)
      exact (k1 0 (by norm_num)).symm
    have h5 := fun x : ℝ => fAcr_con (a := []) hm hs (fun _ => x) 0
    simp only [hi0, show ([0] : List ℕ).getD 0 0 = 0 from rfl, hlhs, hk, hb, Finset.sum_range_one, List.length_nil, Nat.add_zero] at h5
    have e1 := h5 0
    have e2 := h5 1
    have a1 : (q.fAcr []).e 0 0 = 0 := by linarith
    have hzero : (Vec.zeros q.fx.n : Vec ℝ).n = 1 := hs.fx
    have hcon : (q.fCr []).contains (Vec.zeros q.fx.n) = .ok true := by
      obtain ⟨r, h1, h2⟩ := contains_fCr hm hs hl (by omega) hzero
      rw [h1]
      congr 1
      rw [h2]
      refine ⟨fun k hk => by simp at hk, fun k hk' => ?_⟩
      rw [hi0] at hk' ⊢
      obtain rfl : k = 0 := by simpa using hk'
      rw [show ([0] : List ℕ).getD 0 0 = 0 from rfl, hlhs, hk, hb, slackTol_one hnc (.inl a1)]
      norm_num
    have hrun : q.explicit_solve_given_active_set [] = .ok (some (q.fCr [])) := explicit_some hm hs (by simp) hl
    have hpoint := (C44_partial L hL 1 1 q hm hs one_pos (by omega) _ hzero).1 _ _ hrun hcon
    have hI := fCr_inv (a := []) hs
    have hE : (q.fCr []).polyhedron.EmptyOk L := fun e he => by cases he
    have hnr : (q.fCr []).polyhedron.A.nr = 1 := by
      rw [show (q.fCr []).polyhedron.A.nr = ([] : List ℕ).length + (q.inactive []).length from (C07 1 _ (fPoly_inv (a := []) hs) 1e-7 (by norm_num)).2.1, hi0]
      rfl
    have hmf : (Poly.minimal_facets L 1e-7 (q.fCr []).polyhedron).1 = .ok none := by
      rw [((C09_errors L hL 1 _ hI hE 1e-7).2.1 (.inl (by omega)) (Or.inr ?_)).1]
      rintro ⟨x, x1, -⟩
      obtain ⟨-, m2⟩ := (fCr_mem hm hs hl x).1 x1
      have := m2 0 (by omega) (by simp)
      rw [hlhs, hk, hb] at this
      norm_num at this
    show explore L q 1e-5 (fuel + 1) _ _ = _
    unfold explore
    have hunc : uncovered [] [((Vec.zeros q.fx.n : Vec ℝ), ([] : List ℕ))] = .ok [(Vec.zeros q.fx.n, [])] := rfl
    rw [hunc, Py.ok_bind]
    simp only [hpoint, Py.ok_bind]
    unfold neighbours
    rw [hmf]
    rfl

/-- the hypotheses of `C123_partial` are met on the program `clip`, where the search finds two regions -/
example (L : Lib) (hL : LibSpec L) : ∃ q : MpQP, q.Made ∧ q.data.Shape 1 1 ∧ 0 < q.Au.nr ∧
    (∀ xa, Reached L q 1e-5 xa → ∀ cr : CritReg, q.explicit_solve_given_point L xa.1 (some xa.2) = .ok (some cr) →
      ∃ x : ℕ → ℝ, cr.polyhedron.Mem x ∧ x 0 ^ 2 < 1 / (1e-7 : ℝ) ^ 2 - 1) ∧ ∀ fuel, ∃ r, explicit_solve L q fuel = .ok r := by
  obtain ⟨q, hm, hd, hs, hA, -⟩ := clip_made
  have hd : IsClip q.data := by rw [hd]; exact clip_is
  have hreg : ∀ xa, Reached L q 1e-5 xa → ∀ cr : CritReg, q.explicit_solve_given_point L xa.1 (some xa.2) = .ok (some cr) →
      ∃ x : ℕ → ℝ, cr.polyhedron.Mem x ∧ x 0 ^ 2 < 1 / (1e-7 : ℝ) ^ 2 - 1 := by
    intro xa _ cr hcr
    obtain ⟨a, hrun⟩ := point_from hcr
    obtain ⟨ha, hl, rfl⟩ := explicit_cases hm hs hrun
    refine ⟨fun _ => 0, (fCr_mem hm hs hl _).2 ?_, by norm_num⟩
    obtain ⟨-, -, k⟩ := fCr_kkt hm hs ha hl (fun _ => 0)
    obtain ⟨k1, k2⟩ := k (fun _ => 0) (fun _ => 0) (by
      intro j hj
      obtain rfl : j = 0 := by omega
      rw [hd.lag]; ring) (by
      intro i hi
      obtain rfl : i = 0 := by have := ha i hi; omega
      rw [hd.lhs, show q.b.e 0 = 0 from hd.b]) (by simp)
    refine ⟨fun i hi => by rw [← k2 i (ha i hi)], fun i hi _ => ?_⟩
    obtain rfl : i = 0 := by omega
    rw [hd.lhs, show q.b.e 0 = 0 from hd.b, ← k1 0 (by norm_num)]
  exact ⟨q, hm, hs, by omega, hreg, C123_partial L hL 1 q hm hs one_pos (by omega) 1e-5 hreg⟩

end Verif.Props
