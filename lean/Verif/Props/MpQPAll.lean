import Verif.Props.MpQPCoverage
import Verif.Props.MpQPLoop

/-
Which parameters the regions of `explicit_solve` of `/repo/pympc/optimization/parametric_programs.py` cover (C122).
-/
namespace Verif.Props
open Finset Verif.MpQP

variable {nu nx : ℕ} {q : MpQP}

/-- For the parameters strictly between `y` and `z` the program has a solution, at which the constraints in `a` are the tight ones and have positive multipliers. -/
def StrictBetween (P : Spec.ParamQP) (nu : ℕ) (a : List ℕ) (y z : ℝ) : Prop :=
  ∀ t, y < t → t < z → ∃ u p : ℕ → ℝ, P.KKT nu 1 u p (fun _ => t) ∧ (∀ i ∈ a, 0 < p i) ∧
    ∀ i < P.Au.nr, i ∉ a → P.lhs nu 1 i u (fun _ => t) < P.b.e i

/-- the inequalities of a region of the result, for one parameter -/
theorem region_mem {L : Lib} (hm : q.Made) (hs : q.data.Shape nu 1) {step : ℝ} {fuel : ℕ} {sol : ExplicitSolution}
    (h : explicit_solve L q fuel step = .ok (some sol)) {cr : CritReg} (hcr : cr ∈ sol) (v : ℕ → ℝ) :
    cr.polyhedron.Mem v ↔ ∀ i < q.Au.nr, cr.polyhedron.A.e i 0 * v 0 ≤ cr.polyhedron.b.e i := by
  obtain ⟨k, hk⟩ := List.getElem?_of_mem hcr
  obtain ⟨-, h2⟩ := C43 L nu 1 q hm hs step fuel _ sol h
  obtain ⟨⟨x0, g0, cr0, l, k1, k2, hlike, -⟩, -⟩ := h2 k cr hk
  obtain ⟨a, hrun⟩ := point_from k1
  obtain ⟨ha, hla, rfl⟩ := explicit_cases hm hs hrun
  obtain ⟨P, ⟨e1, e2, e3, e4⟩, rfl⟩ := hlike
  have hnr : P.A.nr = q.Au.nr := by
    rw [e1, show (q.fCr a).polyhedron.A.nr = a.length + (q.inactive a).length from
      (C07 1 _ (fPoly_inv (a := a) hs) 1e-7 (by norm_num)).2.1]
    exact length_inactive hs ha (licq_nodup hla)
  have hC : P.C.nr = 0 := by
    rw [e3]
    exact (C07 1 _ (fPoly_inv (a := a) hs) 1e-7 (by norm_num)).2.2.1
  have hnc : P.A.nc = 1 := by rw [e1]; exact (fCr_inv (a := a) hs).1
  show Spec.InPoly P.A P.b P.C P.d v ↔ _
  unfold Spec.InPoly
  simp only [hC, hnc, hnr, Finset.sum_range_one]
  simp

/-- a region of the result that meets the interior of such an interval contains the whole interval -/
theorem region_whole {L : Lib} (hm : q.Made) (hs : q.data.Shape nu 1) {step : ℝ} {fuel : ℕ} {sol : ExplicitSolution}
    (h : explicit_solve L q fuel step = .ok (some sol)) {cr : CritReg} (hcr : cr ∈ sol) {a : List ℕ} (ha : ∀ i ∈ a, i < q.Au.nr) (hl : q.data.Licq nu a)
    {y z : ℝ} (hI : StrictBetween q.data nu a y z) {t : ℝ} (h1 : y < t) (h2 : t < z) (ht : cr.polyhedron.Mem fun _ => t)
    {x : ℝ} (hx1 : y ≤ x) (hx2 : x ≤ z) : cr.polyhedron.Mem fun _ => x := by
  obtain ⟨k, hk⟩ := List.getElem?_of_mem hcr
  obtain ⟨-, hact, -, hiff⟩ := (C43 L nu 1 q hm hs step fuel _ sol h).2 k cr hk
  have hmem : ∀ s : ℝ, (cr.polyhedron.Mem fun _ => s) ↔ ∃ u' p' : ℕ → ℝ, q.data.KKT nu 1 u' p' (fun _ => s) ∧
      (∀ i < q.Au.nr, i ∉ cr.active_set → p' i = 0) ∧ ∀ i ∈ cr.active_set, q.data.lhs nu 1 i u' (fun _ => s) = q.b.e i := by
    intro s
    obtain ⟨-, -, -, -, -, -, -, -, g⟩ := hiff ⟨1, fun _ => s⟩ rfl
    exact g
  obtain ⟨u', p', k1, k2, k3⟩ := (hmem t).1 ht
  obtain ⟨u, p, g1, g2, g3⟩ := hI t h1 h2
  have hu : ∀ j < nu, u' j = u j := by
    obtain ⟨o1, o2⟩ := opt_of_kkt hs g1
    exact o2 u' k1.feas ((opt_of_kkt hs k1).1.2 _ g1.feas)
  have hlhs : ∀ i, q.data.lhs nu 1 i u' (fun _ => t) = q.data.lhs nu 1 i u fun _ => t := by
    intro i
    unfold Spec.ParamQP.lhs
    congr 1
    exact Finset.sum_congr rfl fun j hj => by rw [hu j (mem_range.1 hj)]
  have hsub : ∀ i ∈ cr.active_set, i ∈ a := by
    intro i hi
    by_contra hia
    have e1 := g3 i (hact i hi) hia
    have e2 := k3 i hi
    rw [hlhs] at e2
    exact absurd e2 e1.ne
  have htight : ∀ i ∈ a, q.data.lhs nu 1 i u (fun _ => t) = q.b.e i := by
    intro i hi
    rcases mul_eq_zero.1 (g1.compl i (ha i hi)) with h0 | h0
    · exact absurd h0 (g2 i hi).ne'
    · exact (sub_eq_zero.1 h0).symm
  have hoff : ∀ i < q.Au.nr, i ∉ a → p i = 0 := by
    intro i hi hia
    rcases mul_eq_zero.1 (g1.compl i hi) with h0 | h0
    · exact h0
    · exact absurd (sub_eq_zero.1 h0).symm (g3 i hi hia).ne
  have hsup : ∀ i ∈ a, i ∈ cr.active_set := by
    intro i hi
    by_contra hia
    obtain ⟨-, -, huniq⟩ := fCr_kkt hm hs ha hl (fun _ => t)
    have e1 := (huniq u p g1.stat htight hoff).2 i (ha i hi)
    have e2 := (huniq u' p' k1.stat (fun i hi => by rw [hlhs]; exact htight i hi)
      (fun i hi hia => k2 i hi fun h => hia (hsub i h))).2 i (ha i hi)
    have := g2 i hi
    rw [e1, ← e2, k2 i (ha i hi) hia] at this
    exact lt_irrefl _ this
  have hopen : ∀ s, y < s → s < z → cr.polyhedron.Mem fun _ => s := by
    intro s s1 s2
    obtain ⟨u, p, g1, g2, g3⟩ := hI s s1 s2
    refine (hmem s).2 ⟨u, p, g1, fun i hi hia => ?_, fun i hi => ?_⟩
    · rcases mul_eq_zero.1 (g1.compl i hi) with h0 | h0
      · exact h0
      · exact absurd (sub_eq_zero.1 h0).symm (g3 i hi fun h => hia (hsup i h)).ne
    · rcases mul_eq_zero.1 (g1.compl i (hact i hi)) with h0 | h0
      · exact absurd h0 (g2 i (hsub i hi)).ne'
      · exact (sub_eq_zero.1 h0).symm
  rw [region_mem hm hs h hcr]
  intro i hi
  have hc : IsClosed {s : ℝ | cr.polyhedron.A.e i 0 * s ≤ cr.polyhedron.b.e i} :=
    isClosed_le (continuous_const.mul continuous_id) continuous_const
  have hsub : Set.Ioo y z ⊆ {s : ℝ | cr.polyhedron.A.e i 0 * s ≤ cr.polyhedron.b.e i} := fun s hs' =>
    (region_mem hm hs h hcr fun _ => s).1 (hopen s hs'.1 hs'.2) i hi
  have := closure_minimal hsub hc
  rw [closure_Ioo (by linarith : y < z).ne] at this
  exact this ⟨hx1, hx2⟩

/-- C122, what holds, for programs with one parameter: under the conditions of C119, let the feasible parameters be made of intervals, longer than the distance of C119 and `2e-7`, inside
each of which the tight constraints are the same, independent, and with positive multipliers.  Then each feasible parameter satisfies the inequalities of a region of the result, and is
found in it.  Missing with respect to C122: shorter intervals, a start at `0` that is not feasible (false, see `C122_false`, `C122_narrow_false`); for more parameters
see `C122_many_partial`. -/
theorem C122_partial (L : Lib) (hL : LibSpec L) (nu : ℕ) (q : MpQP) (hm : q.Made) (hs : q.data.Shape nu 1) (hnu : 0 < nu) (hpos : 0 < q.Au.nr) (step : ℝ) (hstep : 1e-7 < step)
    (fuel : ℕ) (sol : ExplicitSolution) (h : explicit_solve L q fuel step = .ok (some sol))
    (hrow : ∀ cr ∈ sol, ∀ i < cr.polyhedron.A.nr, cr.polyhedron.A.e i 0 = 0 ∨ |cr.polyhedron.A.e i 0| = 1)
    (hans : ∀ xa, Reached L q step xa → (∃ u, q.data.Feas nu 1 u xa.1.e) →
      ∃ (s : Sol) (lam : Vec ℝ) (act : List ℕ), q.solve L xa.1 = .ok s ∧ s.multiplier_inequality = some lam ∧ s.active_set = some act ∧
        q.data.Licq nu act ∧ ∀ i < q.Au.nr, 1e-7 < lam.e i ∨ lam.e i = 0)
    (h0 : ∃ u, q.data.Feas nu 1 u fun _ => 0)
    (hwide : ∀ x : ℝ, (∃ u, q.data.Feas nu 1 u fun _ => x) → ∃ (a : List ℕ) (y z : ℝ), (∀ i ∈ a, i < q.Au.nr) ∧ q.data.Licq nu a ∧ y ≤ x ∧ x ≤ z ∧
      step + q.Au.nr * 1e-7 + 2e-7 < z - y ∧ StrictBetween q.data nu a y z)
    (x : Vec ℝ) (hxn : x.n = 1) (hx : ∃ u, q.data.Feas nu 1 u x.e) :
    ∃ cr ∈ sol, cr.polyhedron.Mem x.e ∧ cr.contains x = .ok true := by
  have hx' : ∃ u, q.data.Feas nu 1 u fun _ => x.e 0 := by
    obtain ⟨u, hu⟩ := hx
    refine ⟨u, fun i hi => ?_⟩
    have := hu i hi
    unfold Spec.ParamQP.lhs at this ⊢
    rwa [Finset.sum_range_one] at this ⊢
  obtain ⟨a, y, z, ha, hl, hy, hz, hwz, hI⟩ := hwide (x.e 0) hx'
  have hcov : ∀ c, y < c → c < z → ∃ cr ∈ sol, ∃ (t : ℝ) (v : Vec ℝ), 0 ≤ t ∧ t ≤ 1 ∧ v.n = 1 ∧ v.e 0 = t * c ∧ cr.contains v = .ok true ∧
      |c - v.e 0| ≤ step + q.Au.nr * 1e-7 := by
    intro c c1 c2
    obtain ⟨u, p, g, -⟩ := hI c c1 c2
    exact C119 L hL nu q hm hs hnu hpos step hstep fuel sol h hrow hans h0 c ⟨u, g.feas⟩
  have hm0 : (0 : ℝ) ≤ step + q.Au.nr * 1e-7 := by positivity
  set β := step + q.Au.nr * 1e-7 with hβ
  -- a point well inside the interval, that a region is found to contain
  obtain ⟨cr, hcr, v, hvn, hc, hv1, hv2⟩ : ∃ cr ∈ sol, ∃ v : Vec ℝ, v.n = 1 ∧ cr.contains v = .ok true ∧ y + 1e-7 < v.e 0 ∧ v.e 0 < z - 1e-7 := by
    set ε := (z - y - (β + 2e-7)) / 2 with hε
    have hε0 : 0 < ε := by rw [hε]; linarith
    have hsum : y + 1e-7 + ε + β = z - 1e-7 - ε := by rw [hε]; ring
    norm_num at hsum
    rcases le_total 0 (z - 1e-7 - ε) with hc | hc
    · obtain ⟨cr, hcr, t, v, t1, t2, vn, v1, v2, v3⟩ := hcov (z - 1e-7 - ε) (by norm_num; linarith) (by norm_num; linarith)
      refine ⟨cr, hcr, v, vn, v2, ?_, ?_⟩
      · have := (abs_le.1 v3).2
        norm_num at this ⊢
        linarith
      · have : v.e 0 ≤ z - 1e-7 - ε := by rw [v1]; nlinarith
        linarith
    · obtain ⟨cr, hcr, t, v, t1, t2, vn, v1, v2, v3⟩ := hcov (y + 1e-7 + ε) (by norm_num; linarith) (by norm_num; linarith)
      refine ⟨cr, hcr, v, vn, v2, ?_, ?_⟩
      · have hc' : y + 1e-7 + ε ≤ 0 := by norm_num at hc ⊢; linarith
        have : y + 1e-7 + ε ≤ v.e 0 := by rw [v1]; nlinarith
        linarith
      · have := (abs_le.1 v3).1
        norm_num at this ⊢
        linarith
  -- a point of the region inside the interval
  obtain ⟨hnr, hcon, w, -, hw, -⟩ := region_steps hL hm hs h hcr
  obtain ⟨b, b1, b2⟩ := hcon v hvn hpos
  rw [hc] at b1
  cases b1
  have hrows := b2.1 rfl
  have hrow' : ∀ i < q.Au.nr, cr.polyhedron.A.e i 0 = 0 ∨ cr.polyhedron.A.e i 0 = 1 ∨ cr.polyhedron.A.e i 0 = -1 := by
    intro i hi
    rcases hrow cr hcr i (by omega) with h | h
    · exact .inl h
    · exact .inr ((abs_eq zero_le_one).1 h)
  obtain ⟨t, ht1, ht2, ht⟩ : ∃ t, y < t ∧ t < z ∧ cr.polyhedron.Mem fun _ => t := by
    simp only [region_mem hm hs h hcr]
    by_cases hwv : |w - v.e 0| ≤ 1e-7
    · obtain ⟨e1, e2⟩ := abs_le.1 hwv
      exact ⟨w, by linarith, by linarith, hw⟩
    · push Not at hwv
      rcases le_total w (v.e 0) with hle | hle
      · rw [abs_of_nonpos (by linarith)] at hwv
        refine ⟨v.e 0 - 1e-7, by linarith, by linarith, fun i hi => ?_⟩
        have e1 := hw i hi
        have e2 := hrows i hi
        rcases hrow' i hi with h | h | h <;> rw [h] at e1 e2 ⊢ <;> linarith
      · rw [abs_of_nonneg (by linarith)] at hwv
        refine ⟨v.e 0 + 1e-7, by linarith, by linarith, fun i hi => ?_⟩
        have e1 := hw i hi
        have e2 := hrows i hi
        rcases hrow' i hi with h | h | h <;> rw [h] at e1 e2 ⊢ <;> linarith
  have hmem := region_whole hm hs h hcr ha hl hI ht1 ht2 ht hy hz
  have hmem' : ∀ i < q.Au.nr, cr.polyhedron.A.e i 0 * x.e 0 ≤ cr.polyhedron.b.e i := (region_mem hm hs h hcr fun _ => x.e 0).1 hmem
  refine ⟨cr, hcr, (region_mem hm hs h hcr _).2 hmem', ?_⟩
  obtain ⟨b, b1, b2⟩ := hcon x hxn hpos
  rw [b1]
  congr 1
  rw [b2]
  intro i hi
  have := hmem' i hi
  norm_num
  linarith

end Verif.Props
