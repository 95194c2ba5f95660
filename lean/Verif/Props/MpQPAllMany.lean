import Verif.Props.MpQPRaisesMany
import Verif.Math.FacetCover

/-
Whether the regions of `explicit_solve` of `/repo/pympc/optimization/parametric_programs.py` cover the feasible parameters, for programs with several parameters (C122).
-/
namespace Verif.Props
open Finset Verif.MpQP

variable {nu nx : ℕ} {q : MpQP}

/-- The step over each facet of the regions that the search finds is right.  The regions found are defined by the inequalities that `minimal_facets` keeps, and have a point where all these
are strict.  If the program is not feasible at the point beyond a facet, then it is not feasible anywhere beyond that facet.  A critical region that `contains` finds to have the point beyond
the facet in it has the whole facet in it, and a point strictly beyond the facet. -/
def FacetToFacet (L : Lib) (q : MpQP) (nu nx : ℕ) (step : ℝ) : Prop :=
  ∀ xa, Reached L q step xa → ∀ (cr0 cr : CritReg) (l : List (Vec ℝ × List ℕ)) (mf : List ℕ),
    q.explicit_solve_given_point L xa.1 (some xa.2) = .ok (some cr0) → neighbours L step cr0 = .ok (l, cr) →
    (Poly.minimal_facets L 1e-7 cr0.polyhedron).1 = .ok (some mf) →
    (∃ w, ∀ i ∈ mf, Spec.rowVal cr.polyhedron.A i w < cr.polyhedron.b.e i) ∧
    (∀ y, (∀ i ∈ mf, Spec.rowVal cr.polyhedron.A i y ≤ cr.polyhedron.b.e i) → cr.polyhedron.Mem y) ∧
    ∀ i ∈ mf, ∀ ya, beyondFacet L step cr i = .ok ya →
      ((¬ ∃ u, q.data.Feas nu nx u ya.1.e) → ∀ z, (∃ u, q.data.Feas nu nx u z) → Spec.rowVal cr.polyhedron.A i z ≤ cr.polyhedron.b.e i) ∧
      ∀ (a : List ℕ) (c : CritReg), q.explicit_solve_given_active_set a = .ok (some c) → c.contains ya.1 = .ok true →
        (∀ y, cr.polyhedron.Mem y → Spec.rowVal cr.polyhedron.A i y = cr.polyhedron.b.e i → c.polyhedron.Mem y) ∧
        ∃ p, c.polyhedron.Mem p ∧ cr.polyhedron.b.e i < Spec.rowVal cr.polyhedron.A i p

/-- the facets of a region of the result, and the points beyond them -/
theorem region_facets {L : Lib} (hL : LibSpec L) (hm : q.Made) (hs : q.data.Shape nu nx) {step : ℝ} {fuel : ℕ} {sol : ExplicitSolution}
    (h : explicit_solve L q fuel step = .ok (some sol)) {cr : CritReg} (hcr : cr ∈ sol) :
    cr.polyhedron.Inv nx ∧ cr.polyhedron.C.nr = 0 ∧
    (∃ a cr0, q.explicit_solve_given_active_set a = .ok (some cr0) ∧ Like cr cr0) ∧
    ∃ (xa : Vec ℝ × List ℕ) (cr0 : CritReg) (l : List (Vec ℝ × List ℕ)) (mf : List ℕ), Reached L q step xa ∧
      q.explicit_solve_given_point L xa.1 (some xa.2) = .ok (some cr0) ∧ neighbours L step cr0 = .ok (l, cr) ∧
      (Poly.minimal_facets L 1e-7 cr0.polyhedron).1 = .ok (some mf) ∧ (∀ i ∈ mf, i < cr.polyhedron.A.nr) ∧
      (∀ i ∈ mf, ∀ j ∈ mf, i ≠ j → ∃ z, Spec.rowVal cr.polyhedron.A i z ≤ cr.polyhedron.b.e i ∧ cr.polyhedron.b.e j < Spec.rowVal cr.polyhedron.A j z) ∧
      ∀ i ∈ mf, ∃ ya, beyondFacet L step cr i = .ok ya ∧ ya.1.n = nx ∧ Reached L q step ya ∧ Through L q sol ya := by
  obtain ⟨k, hk⟩ := List.getElem?_of_mem hcr
  obtain ⟨-, h2⟩ := C43 L nu nx q hm hs step fuel _ sol h
  obtain ⟨⟨x0, g0, cr0, l, k1, k2, hlike, -, k4⟩, hact, hlicq, -⟩ := h2 k cr hk
  obtain ⟨a, hrun⟩ := point_from k1
  obtain ⟨ha, hla, hcr0⟩ := explicit_cases hm hs hrun
  obtain ⟨xa, cr1, l', j1, j2, j3⟩ := (explore_reached fuel [(Vec.zeros q.fx.n, [])]
    (fun xa hxa => by rw [List.mem_singleton] at hxa; subst hxa; exact .start) [] sol h cr hcr).resolve_left (by simp)
  obtain ⟨a', hrun'⟩ := point_from j2
  obtain ⟨-, -, hcr1⟩ := explicit_cases hm hs hrun'
  have e01 : cr0 = cr1 := by
    obtain ⟨P, -, e⟩ := hlike
    obtain ⟨P', -, e'⟩ := neighbours_like j3
    have h1 : cr.active_set = a := by rw [e, hcr0]; rfl
    have h2 : cr.active_set = a' := by rw [e', hcr1]; rfl
    rw [hcr0, hcr1, ← h1, ← h2]
  subst e01
  have hll : l = l' := by
    rw [k2] at j3
    exact (Prod.mk.inj (Except.ok.inj j3)).1
  subst hll
  have hp0 : cr0.polyhedron.Inv nx := by rw [hcr0]; exact fCr_inv hs
  have hC0 : cr0.polyhedron.C.nr = 0 := by
    rw [hcr0]
    exact (C07 nx _ (fPoly_inv (a := a) hs) 1e-7 (by norm_num)).2.2.1
  have hE0 : cr0.polyhedron.EmptyOk L := by
    rw [hcr0]
    intro e he
    cases he
  obtain ⟨mf, m1, m2⟩ := neighbours_mem k2
  have hlike' := hlike
  obtain ⟨P, ⟨e1, e2, e3, e4⟩, rfl⟩ := hlike
  have hp : P.Inv nx := by
    obtain ⟨s1, s2, s3, s4⟩ := hp0
    exact ⟨by rw [e1]; exact s1, by rw [e1, e2]; exact s2, by rw [e3]; exact s3, by rw [e3, e4]; exact s4⟩
  have hC : P.C.nr = 0 := by rw [e3]; exact hC0
  have hrows0 : cr0.polyhedron.HasRows := by
    by_contra h0
    rw [((C09_errors L hL nx _ hp0 hE0 1e-7).1 h0).1] at m1
    cases m1
  have hne : Spec.NearPoint nx cr0.polyhedron.A cr0.polyhedron.b cr0.polyhedron.C cr0.polyhedron.d := by
    by_contra hne
    rw [((C09_errors L hL nx _ hp0 hE0 1e-7).2.1 hrows0 (Or.inr hne)).1] at m1
    cases m1
  obtain ⟨r, r1, -, -, r2, r3, -⟩ := redundancy_run hL hp0 hrows0 hE0 hne (Or.inl hC0) (tol := 1e-7) (by norm_num)
  have m1' := m1
  rw [r1] at m1
  obtain rfl : r = mf := Option.some.inj (Except.ok.inj m1)
  refine ⟨hp, hC, ⟨a, cr0, hrun, hlike'⟩, xa, cr0, l, r, j1, j2, j3, m1', fun i hi => ?_, fun i hi j hj hij => ?_, fun i hir => ?_⟩
  · show i < P.A.nr
    rw [e1]; exact r2 i hi
  · obtain ⟨z, -, z1, -, z2⟩ := r3 j hj
    refine ⟨z, ?_, ?_⟩
    · show Spec.rowVal P.A i z ≤ P.b.e i
      rw [e1, e2]; exact z1 i hi hij
    · show P.b.e j < Spec.rowVal P.A j z
      rw [e1, e2]
      linarith [show (0 : ℝ) < 1e-7 by norm_num]
  · obtain ⟨l1, l2⟩ := mapM_ok_iff m2
    obtain ⟨n, hn, hni⟩ := List.getElem_of_mem hir
    have hb := l2 n hn (by rw [l1]; exact hn)
    rw [hni] at hb
    have hl := k4 l[n] (List.getElem_mem _)
    have hl' : Reached L q step l[n] := .next j1 j2 j3 (List.getElem_mem _)
    exact ⟨_, hb, (beyondFacet_size hb).trans hp.1, hl', hl⟩

/-- C122, what holds, for any number of parameters: let the solver find, at each point of the search where the program has feasible points, a solution whose active constraints are
independent and whose multipliers are zero or greater than the tolerance `1e-7`, and let the steps over the facets be right (`FacetToFacet`).  If the program has feasible points at `0`, then
each parameter where it has feasible points satisfies the inequalities of a region of the result, which is found to contain it.  Missing with respect to C122: steps that are not right and a
start that is not feasible (false, see `C122_narrow_false`, `C122_false`). -/
theorem C122_many_partial (L : Lib) (hL : LibSpec L) (nu nx : ℕ) (q : MpQP) (hm : q.Made) (hs : q.data.Shape nu nx) (hnu : 0 < nu) (hpos : 0 < q.Au.nr) (step : ℝ)
    (fuel : ℕ) (sol : ExplicitSolution) (h : explicit_solve L q fuel step = .ok (some sol))
    (hans : ∀ xa, Reached L q step xa → (∃ u, q.data.Feas nu nx u xa.1.e) →
      ∃ (s : Sol) (lam : Vec ℝ) (act : List ℕ), q.solve L xa.1 = .ok s ∧ s.multiplier_inequality = some lam ∧ s.active_set = some act ∧
        q.data.Licq nu act ∧ ∀ i < q.Au.nr, 1e-7 < lam.e i ∨ lam.e i = 0)
    (hff : FacetToFacet L q nu nx step) (h0 : ∃ u, q.data.Feas nu nx u fun _ => 0) (x : Vec ℝ) (hxn : x.n = nx) (hx : ∃ u, q.data.Feas nu nx u x.e) :
    ∃ cr ∈ sol, cr.polyhedron.Mem x.e ∧ cr.contains x = .ok true := by
  obtain ⟨cr00, hcr00, -⟩ := reached_covered hL hm hs hnu hpos (sol := sol) (xa := (Vec.zeros q.fx.n, [])) hs.fx
    ((C43 L nu nx q hm hs step fuel _ sol h).1 _ (by simp)) (hans _ .start h0)
  have hlen : 0 < sol.length := List.length_pos_of_mem hcr00
  -- the list of facets of each region
  have hsel : ∀ k : ℕ, ∃ mf : List ℕ, ∀ hk : k < sol.length, (∃ w, ∀ i ∈ mf, Spec.rowVal sol[k].polyhedron.A i w < sol[k].polyhedron.b.e i) ∧
      (∀ y, (∀ i ∈ mf, Spec.rowVal sol[k].polyhedron.A i y ≤ sol[k].polyhedron.b.e i) ↔ sol[k].polyhedron.Mem y) ∧
      (∀ i ∈ mf, ∀ j ∈ mf, i ≠ j → ∃ z, Spec.rowVal sol[k].polyhedron.A i z ≤ sol[k].polyhedron.b.e i ∧ sol[k].polyhedron.b.e j < Spec.rowVal sol[k].polyhedron.A j z) ∧
      ∀ i ∈ mf, Spec.rowVal sol[k].polyhedron.A i x.e ≤ sol[k].polyhedron.b.e i ∨ ∃ l, ∃ hl : l < sol.length,
        (∀ y, sol[k].polyhedron.Mem y → Spec.rowVal sol[k].polyhedron.A i y = sol[k].polyhedron.b.e i → sol[l].polyhedron.Mem y) ∧
        ∃ p, sol[l].polyhedron.Mem p ∧ sol[k].polyhedron.b.e i < Spec.rowVal sol[k].polyhedron.A i p := by
    intro k
    by_cases hk : k < sol.length
    · obtain ⟨r1, r2, -, xa, cr0, l, mf, r3, r4, r5, r6, r7, r8, r9⟩ := region_facets hL hm hs h (List.getElem_mem hk)
      obtain ⟨f1, f2, f3⟩ := hff xa r3 cr0 _ l mf r4 r5 r6
      refine ⟨mf, fun _ => ⟨f1, fun y => ⟨f2 y, fun hy i hi => hy.1 i (r7 i hi)⟩, r8, fun i hi => ?_⟩⟩
      obtain ⟨ya, y1, y2, y3, y4⟩ := r9 i hi
      obtain ⟨g1, g2⟩ := f3 i hi ya y1
      by_cases hfe : ∃ u, q.data.Feas nu nx u ya.1.e
      · obtain ⟨c, hc, hcon⟩ := reached_covered hL hm hs hnu hpos y2 y4 (hans ya y3 hfe)
        obtain ⟨-, -, ⟨a, c0, c1, c2⟩, -⟩ := region_facets hL hm hs h hc
        obtain ⟨n, hn, rfl⟩ := List.getElem_of_mem hc
        obtain ⟨g3, p, g4, g5⟩ := g2 a c0 c1 (by rw [← c2.contains]; exact hcon)
        have hmem : ∀ y, sol[n].polyhedron.Mem y ↔ c0.polyhedron.Mem y := by
          obtain ⟨P, ⟨e1, e2, e3, e4⟩, e⟩ := c2
          intro y
          rw [e]
          show Spec.InPoly P.A P.b P.C P.d y ↔ _
          rw [e1, e2, e3, e4]
          rfl
        exact .inr ⟨n, hn, fun y h1 h2 => (hmem y).2 (g3 y h1 h2), p, (hmem p).2 g4, g5⟩
      · exact .inl (g1 hfe x.e hx)
    · exact ⟨[], fun h => absurd h hk⟩
  choose mf hmf using hsel
  have hInv : ∀ k (hk : k < sol.length), sol[k].polyhedron.Inv nx ∧ sol[k].polyhedron.C.nr = 0 := fun k hk =>
    ⟨(region_facets hL hm hs h (List.getElem_mem hk)).1, (region_facets hL hm hs h (List.getElem_mem hk)).2.1⟩
  set A : ℕ → ℕ → ℕ → ℝ := fun k i j => if hk : k < sol.length then sol[k].polyhedron.A.e i j else 0 with hA
  set B : ℕ → ℕ → ℝ := fun k i => if hk : k < sol.length then sol[k].polyhedron.b.e i else 0 with hB
  have hd : ∀ k (hk : k < sol.length) i (y : ℕ → ℝ), FacetCover.dot nx (A k i) y = Spec.rowVal sol[k].polyhedron.A i y := by
    intro k hk i y
    unfold FacetCover.dot Spec.rowVal
    rw [(hInv k hk).1.1]
    exact Finset.sum_congr rfl fun j _ => by rw [hA]; simp only [hk, dif_pos]
  have hb : ∀ k (hk : k < sol.length) i, B k i = sol[k].polyhedron.b.e i := fun k hk i => dif_pos hk
  obtain ⟨k, hk, hkx⟩ := FacetCover.cover (n := nx) (m := sol.length) (fun k => (mf k).toFinset) A B x.e hlen
    (by
      intro k hk
      obtain ⟨⟨w, hw⟩, -⟩ := hmf k hk
      refine ⟨w, fun i hi => ?_⟩
      rw [hd k hk, hb k hk]
      exact hw i (List.mem_toFinset.1 hi))
    (by
      intro k hk i hi j hj hij
      obtain ⟨-, -, h3, -⟩ := hmf k hk
      rw [hb k hk, hb k hk]
      simp only [hd k hk]
      exact h3 i (List.mem_toFinset.1 hi) j (List.mem_toFinset.1 hj) hij)
    (by
      intro k hk i hi
      obtain ⟨-, h2, -, h4⟩ := hmf k hk
      rw [hb k hk, hd k hk]
      refine (h4 i (List.mem_toFinset.1 hi)).imp_right ?_
      rintro ⟨l, hl, l1, p, l2, l3⟩
      obtain ⟨-, hl2, -, -⟩ := hmf l hl
      refine ⟨l, hl, fun y y1 y2 j hj => ?_, p, fun j hj => ?_, by rw [hd k hk]; exact l3⟩
      · rw [hd k hk] at y2
        have hy : sol[k].polyhedron.Mem y := (h2 y).1 fun j hj => by
          have := y1 j (List.mem_toFinset.2 hj)
          rwa [hd k hk, hb k hk] at this
        rw [hd l hl, hb l hl]
        exact (hl2 y).2 (l1 y hy y2) j (List.mem_toFinset.1 hj)
      · rw [hd l hl, hb l hl]
        exact (hl2 p).2 l2 j (List.mem_toFinset.1 hj))
  have hmem : sol[k].polyhedron.Mem x.e := ((hmf k hk).2.1 x.e).1 fun i hi => by
    have := hkx i (List.mem_toFinset.2 hi)
    rwa [hd k hk, hb k hk] at this
  refine ⟨sol[k], List.getElem_mem hk, hmem, ?_⟩
  obtain ⟨i1, i2⟩ := hInv k hk
  obtain ⟨-, -, ⟨a, c0, c1, c2⟩, -⟩ := region_facets hL hm hs h (List.getElem_mem hk)
  obtain ⟨ha, hla, rfl⟩ := explicit_cases hm hs c1
  have hnr : sol[k].polyhedron.A.nr = q.Au.nr := by
    obtain ⟨P, ⟨e1, -⟩, e⟩ := c2
    rw [e]
    show P.A.nr = _
    rw [e1, show (q.fCr a).polyhedron.A.nr = a.length + (q.inactive a).length from (C07 nx _ (fPoly_inv (a := a) hs) 1e-7 (by norm_num)).2.1]
    exact length_inactive hs ha (licq_nodup hla)
  obtain ⟨b, b1, b2⟩ := contains_iff i1 (by omega) x hxn 1e-7
  have : b = true := b2.2 ⟨fun i hi => by
    have := hmem.1 i hi
    unfold Spec.rowVal at this
    rw [i1.1] at this
    linarith [show (0 : ℝ) < 1e-7 by norm_num], fun hi => by omega⟩
  rw [this] at b1
  exact b1

/-- the point beyond a bounded facet is a step away from the center of a largest ball of the facet -/
theorem beyondFacet_center {L : Lib} (hL : LibSpec L) {cr : CritReg} {n : ℕ} (hp : cr.polyhedron.Inv n) (h0 : cr.polyhedron.C.nr = 0) (hn : 1 < n) {i : ℕ} {M : ℝ}
    {f z : ℕ → ℝ} (hM : ∀ w, cr.polyhedron.Mem w → Spec.rowVal cr.polyhedron.A i w = cr.polyhedron.b.e i → ∀ j < n, |w j| ≤ M) (hf : cr.polyhedron.Mem f)
    (hfi : Spec.rowVal cr.polyhedron.A i f = cr.polyhedron.b.e i) (hz : Spec.rowVal cr.polyhedron.A i z ≠ cr.polyhedron.b.e i) {step : ℝ} {ya : Vec ℝ × List ℕ}
    (h : beyondFacet L step cr i = .ok ya) : ∃ (c : ℕ → ℝ) (r : ℝ), 0 ≤ r ∧ (∀ j < n, ya.1.e j = c j + step * cr.polyhedron.A.e i j) ∧
      (∀ v : ℕ → ℝ, Spec.rowVal cr.polyhedron.A i v = 0 → Real.sqrt (∑ j ∈ range n, v j ^ 2) ≤ r →
        cr.polyhedron.Mem (fun j => c j + v j) ∧ Spec.rowVal cr.polyhedron.A i (fun j => c j + v j) = cr.polyhedron.b.e i) ∧
      ∀ (c' : ℕ → ℝ) (r' : ℝ), 0 ≤ r' → (∀ v : ℕ → ℝ, Spec.rowVal cr.polyhedron.A i v = 0 → Real.sqrt (∑ j ∈ range n, v j ^ 2) ≤ r' →
        cr.polyhedron.Mem (fun j => c' j + v j) ∧ Spec.rowVal cr.polyhedron.A i (fun j => c' j + v j) = cr.polyhedron.b.e i) → r' ≤ r := by
  obtain ⟨F, F1, F2, F3, F4, F5, F6, F7, F8⟩ := facet_run hp h0 i
  have hrank : Poly.EqRank n F := Poly.eqRank_iff.2 (facet_indep F2 F5 hn F7 hfi hz)
  have hFf : F.Mem f := (F8 f).2 ⟨hf, hfi⟩
  obtain ⟨r, c, g1, g2, g3, g4, g5, g6⟩ := Poly.chebyshev_ok hL F2 (Or.inr hrank) (constantRows_of_mem hFf)
    (Poly.balls_bounded hL F2 (by rw [F5]; exact one_pos) hrank (M := M) fun v hv => hM v ((F8 v).1 hv).1 ((F8 v).1 hv).2)
  have hr : 0 ≤ r := by
    by_contra hneg
    exact g6.1 (not_le.1 hneg) f hFf
  have hadd : ∀ (A : Mat ℝ) (k : ℕ) (x y : ℕ → ℝ), Spec.rowVal A k (fun j => x j + y j) = Spec.rowVal A k x + Spec.rowVal A k y := by
    intro A k x y
    unfold Spec.rowVal
    rw [← Finset.sum_add_distrib]
    exact Finset.sum_congr rfl fun j _ => by ring
  -- directions along the facet
  have hdir : ∀ v : ℕ → ℝ, (∀ k < F.C.nr, Spec.rowVal F.C k v = 0) ↔ Spec.rowVal cr.polyhedron.A i v = 0 := by
    intro v
    have e1 := (F7 f).2 hfi 0 (by omega)
    constructor
    · intro hv
      have := (F7 fun j => f j + v j).1 fun k hk => by
        obtain rfl : k = 0 := by omega
        rw [hadd, e1, hv 0 hk, add_zero]
      rw [hadd, hfi] at this
      linarith
    · intro hv k hk
      obtain rfl : k = 0 := by omega
      have := (F7 fun j => f j + v j).2 (by rw [hadd, hfi, hv, add_zero]) 0 hk
      rw [hadd, e1] at this
      linarith
  unfold beyondFacet CritReg.facet_center at h
  rw [if_neg (by rw [hp.1]; omega)] at h
  simp only [F1, Py.ok_bind] at h
  rw [center_run L F6, g1] at h
  have hA : np.addV c ((cr.polyhedron.A.row i).smul step) = .ok _ := if_pos (g2.trans hp.1.symm)
  simp only [Option.map_some, Py.ok_bind, hA] at h
  cases h
  refine ⟨c.e, r, hr, fun j _ => rfl, fun v h1 h2 => (F8 _).1 (g4 hr v ((hdir v).2 h1) h2), fun c' r' h1 h2 => g5 c' r' h1 fun v v1 v2 => ?_⟩
  exact (F8 _).2 (h2 v ((hdir v).1 v1) v2)

end Verif.Props
