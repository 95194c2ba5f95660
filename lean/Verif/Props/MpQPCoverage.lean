import Verif.Props.MpQPNeighbours

/-
What the regions of `explicit_solve` of `/repo/pympc/optimization/parametric_programs.py` cover, for programs with one parameter (C119).
-/
namespace Verif.Props
open Finset Verif.MpQP

variable {nu nx : ℕ} {q : MpQP}

/-- the regions in the result are found at points that the search reaches -/
theorem explore_reached {L : Lib} {step : ℝ} (fuel : ℕ) (buffer : List (Vec ℝ × List ℕ)) (hb : ∀ xa ∈ buffer, Reached L q step xa)
    (found sol : List CritReg) (h : explore L q step fuel buffer found = .ok (some sol)) :
    ∀ cr ∈ sol, cr ∈ found ∨ ∃ xa cr0 l, Reached L q step xa ∧ q.explicit_solve_given_point L xa.1 (some xa.2) = .ok (some cr0) ∧
      neighbours L step cr0 = .ok (l, cr) := by
  induction fuel generalizing buffer found with
  | zero => cases h
  | succ fuel ih =>
    unfold explore at h
    obtain ⟨r, hu, h⟩ := Py.bind_eq_ok h
    obtain ⟨u1, -, -⟩ := uncovered_cases hu
    cases r with
    | nil =>
      cases h
      exact fun cr hcr => .inl hcr
    | cons ya rest =>
      simp only at h
      obtain ⟨o, hp, h⟩ := Py.bind_eq_ok h
      cases o with
      | none => exact ih rest (fun xa hxa => hb xa (u1.subset (List.mem_cons_of_mem _ hxa))) found h
      | some cr0 =>
        simp only at h
        obtain ⟨⟨new, cr'⟩, hn, h⟩ := Py.bind_eq_ok h
        have hya := hb ya (u1.subset (List.mem_cons_self ..))
        intro cr hcr
        have hb' : ∀ xa ∈ rest ++ new, Reached L q step xa := by
          intro xa hxa
          rcases List.mem_append.1 hxa with k | k
          · exact hb xa (u1.subset (List.mem_cons_of_mem _ k))
          · exact .next hya hp hn k
        rcases ih (rest ++ new) hb' (found ++ [cr']) h cr hcr with k | k
        · rcases List.mem_append.1 k with k | k
          · exact .inl k
          · rw [List.mem_singleton] at k
            subst k
            exact .inr ⟨ya, cr0, new, hya, hp, hn⟩
        · exact .inr k

/-- the active and the other constraints -/
theorem length_inactive (hs : q.data.Shape nu nx) {a : List ℕ} (ha : ∀ i ∈ a, i < q.Au.nr) (hn : a.Nodup) : a.length + (q.inactive a).length = q.Au.nr := by
  have h1 : (a ++ q.inactive a).Perm (List.range q.Au.nr) := by
    refine (List.perm_ext_iff_of_nodup ?_ List.nodup_range).2 fun i => ?_
    · refine hn.append (List.nodup_range.filter _) fun i h1 h2 => ?_
      unfold MpQP.inactive at h2
      simp only [List.mem_filter, decide_eq_true_eq] at h2
      exact h2.2 h1
    · unfold MpQP.inactive
      rw [show q.Ax.nr = q.Au.nr from hs.rows]
      simp only [List.mem_append, List.mem_filter, List.mem_range, decide_eq_true_eq]
      constructor
      · rintro (h | h)
        · exact ha i h
        · exact h.1
      · intro h
        by_cases k : i ∈ a
        · exact .inl k
        · exact .inr ⟨h, k⟩
  have := h1.length_eq
  rwa [List.length_append, List.length_range] at this

/-- inequalities `± x ≤ b`: one of the kept ones bounds `σ x` almost as well as all of them, if each removed one is implied up to `tol` by the kept ones and those after it -/
theorem kept_bound {m : ℕ} {A b : ℕ → ℝ} {r : List ℕ} {tol σ w : ℝ} (htol : 0 ≤ tol) (hσ : σ * σ = 1)
    (hA : ∀ i < m, A i = 0 ∨ A i = σ ∨ A i = -σ) (hr : ∀ i ∈ r, i < m) (hw : ∀ i < m, A i * w ≤ b i)
    (hrem : ∀ i < m, i ∉ r → ∀ x, (∀ j ∈ r, A j * x ≤ b j) → (∀ j < m, i < j → A j * x ≤ b j) → A i * x < b i + tol)
    {i0 : ℕ} (hi0 : i0 < m) (hAi : A i0 = σ) :
    ∃ i ∈ r, A i = σ ∧ ∀ j < m, A j = σ → b i ≤ b j + m * tol := by
  have key : ∀ ρ, (∀ k ∈ r, A k = σ → ρ ≤ b k) → ∀ j ≤ m, ∀ k < m, m - j ≤ k → A k = σ → ρ ≤ b k + j * tol := by
    intro ρ hρ j
    induction j with
    | zero => intro _ k hk hk' _; omega
    | succ j ih =>
      intro hj k hk hk' hAk
      push_cast
      by_cases hkr : k ∈ r
      · have := hρ k hkr hAk
        nlinarith [(Nat.cast_nonneg j : (0 : ℝ) ≤ j)]
      · have hx : ∀ l, l < m → (A l = σ → max (ρ - j * tol) (σ * w) ≤ b l) → A l * (σ * max (ρ - j * tol) (σ * w)) ≤ b l := by
          intro l hl h
          have h1 := hw l hl
          have h2 := le_max_right (ρ - j * tol) (σ * w)
          rcases hA l hl with e | e | e
          · rw [e] at h1 ⊢; linarith
          · rw [e, ← mul_assoc, hσ, one_mul]; exact h e
          · rw [e, ← mul_assoc]
            rw [e] at h1
            rw [show -σ * σ = -1 by linarith]
            linarith
        have := hrem k hk hkr (σ * max (ρ - j * tol) (σ * w))
          (fun l hl => hx l (hr l hl) fun e => max_le (by have := hρ l hl e; nlinarith [(Nat.cast_nonneg j : (0 : ℝ) ≤ j)])
            (by have := hw l (hr l hl); rwa [e] at this))
          (fun l hl hkl => hx l hl fun e => max_le (by have := ih (by omega) l hl (by omega) e; linarith)
            (by have := hw l hl; rwa [e] at this))
        rw [hAk, ← mul_assoc, hσ, one_mul] at this
        have h2 := le_max_left (ρ - j * tol) (σ * w)
        linarith
  have hex : ∃ i ∈ r, A i = σ := by
    by_contra hcon
    push Not at hcon
    have := key (b i0 + m * tol + 1) (fun k hk e => absurd e (hcon k hk)) m le_rfl i0 hi0 (by omega) hAi
    linarith
  have hfin : ((r.toFinset.filter fun i => A i = σ) : Finset ℕ).Nonempty := by
    obtain ⟨i, h1, h2⟩ := hex
    exact ⟨i, by simp [h1, h2]⟩
  obtain ⟨i, hi, hmin⟩ := Finset.exists_min_image _ b hfin
  rw [Finset.mem_filter, List.mem_toFinset] at hi
  refine ⟨i, hi.1, hi.2, fun j hj e => key (b i) (fun k hk e => hmin k (by simp [hk, e])) m le_rfl j hj (by omega) e⟩

/-- the inequalities of a region with one parameter and the points that the search puts into the buffer for it -/
theorem region_steps {L : Lib} (hL : LibSpec L) (hm : q.Made) (hs : q.data.Shape nu 1) {step : ℝ} {fuel : ℕ} {sol : ExplicitSolution}
    (h : explicit_solve L q fuel step = .ok (some sol)) {cr : CritReg} (hcr : cr ∈ sol) :
    cr.polyhedron.A.nr = q.Au.nr ∧ (∀ x : Vec ℝ, x.n = 1 → 0 < q.Au.nr →
      ∃ r, cr.contains x = .ok r ∧ (r = true ↔ ∀ i < q.Au.nr, cr.polyhedron.A.e i 0 * x.e 0 - cr.polyhedron.b.e i ≤ 1e-7)) ∧
    ∃ (w : ℝ) (r : List ℕ), (∀ i < q.Au.nr, cr.polyhedron.A.e i 0 * w ≤ cr.polyhedron.b.e i) ∧ (∀ i ∈ r, i < q.Au.nr) ∧
      (∀ i < q.Au.nr, i ∉ r → ∀ x : ℝ, (∀ j ∈ r, cr.polyhedron.A.e j 0 * x ≤ cr.polyhedron.b.e j) →
        (∀ j < q.Au.nr, i < j → cr.polyhedron.A.e j 0 * x ≤ cr.polyhedron.b.e j) → cr.polyhedron.A.e i 0 * x < cr.polyhedron.b.e i + 1e-7) ∧
      ∀ i ∈ r, ∃ (x : Vec ℝ) (guess : List ℕ), x.n = 1 ∧ x.e 0 = cr.polyhedron.b.e i / cr.polyhedron.A.e i 0 + step * cr.polyhedron.A.e i 0 ∧
        Reached L q step (x, guess) ∧ Through L q sol (x, guess) := by
  obtain ⟨k, hk⟩ := List.getElem?_of_mem hcr
  obtain ⟨-, h2⟩ := C43 L nu 1 q hm hs step fuel _ sol h
  obtain ⟨⟨x0, g0, cr0, l, k1, k2, hlike, -, k4⟩, hact, hlicq, -⟩ := h2 k cr hk
  obtain ⟨a, hrun⟩ := point_from k1
  obtain ⟨ha, hla, hcr0⟩ := explicit_cases hm hs hrun
  obtain ⟨xa, cr1, l', j1, j2, j3⟩ := (explore_reached fuel [(Vec.zeros q.fx.n, [])]
    (fun xa hxa => by rw [List.mem_singleton] at hxa; subst hxa; exact .start) [] sol h cr hcr).resolve_left (by simp)
  obtain ⟨a', hrun'⟩ := point_from j2
  obtain ⟨-, -, hcr1⟩ := explicit_cases hm hs hrun'
  have e01 : cr0 = cr1 := by
    obtain ⟨P, -, e⟩ := hlike
    obtain ⟨P', -, e'⟩ := neighbours_like j3
    have h1 : cr.active_set = a := by rw [e, hcr0]; rfl
    have h2 : cr.active_set = a' := by rw [e', hcr1]; rfl
    rw [hcr0, hcr1, ← h1, ← h2]
  subst e01
  have hll : l = l' := by
    rw [k2] at j3
    exact (Prod.mk.inj (Except.ok.inj j3)).1
  subst hll
  have hp0 : cr0.polyhedron.Inv 1 := by rw [hcr0]; exact fCr_inv hs
  have hC0 : cr0.polyhedron.C.nr = 0 := by
    rw [hcr0]
    exact (C07 1 _ (fPoly_inv (a := a) hs) 1e-7 (by norm_num)).2.2.1
  have hE0 : cr0.polyhedron.EmptyOk L := by
    rw [hcr0]
    intro e he
    cases he
  have hnr0 : cr0.polyhedron.A.nr = q.Au.nr := by
    rw [hcr0, show (q.fCr a).polyhedron.A.nr = a.length + (q.inactive a).length from
      (C07 1 _ (fPoly_inv (a := a) hs) 1e-7 (by norm_num)).2.1]
    exact length_inactive hs ha (licq_nodup hla)
  obtain ⟨mf, m1, m2⟩ := neighbours_mem k2
  obtain ⟨P, ⟨e1, e2, e3, e4⟩, rfl⟩ := hlike
  simp only
  have hp : P.Inv 1 := by
    obtain ⟨s1, s2, s3, s4⟩ := hp0
    exact ⟨by rw [e1]; exact s1, by rw [e1, e2]; exact s2, by rw [e3]; exact s3, by rw [e3, e4]; exact s4⟩
  have hC : P.C.nr = 0 := by rw [e3]; exact hC0
  have hrows0 : cr0.polyhedron.HasRows := by
    by_contra h0
    rw [((C09_errors L hL 1 _ hp0 hE0 1e-7).1 h0).1] at m1
    cases m1
  have hne : Spec.NearPoint 1 cr0.polyhedron.A cr0.polyhedron.b cr0.polyhedron.C cr0.polyhedron.d := by
    by_contra hne
    rw [((C09_errors L hL 1 _ hp0 hE0 1e-7).2.1 hrows0 (Or.inr hne)).1] at m1
    cases m1
  obtain ⟨r, r1, -, -, r2, -, r3⟩ := redundancy_run hL hp0 hrows0 hE0 hne (Or.inl hC0) (tol := 1e-7) (by norm_num)
  rw [r1] at m1
  obtain rfl : r = mf := Option.some.inj (Except.ok.inj m1)
  obtain ⟨w, hw, -⟩ := hne
  have hrow : ∀ (i : ℕ) (v : ℕ → ℝ), Spec.rowVal P.A i v = P.A.e i 0 * v 0 := fun i v => by
    unfold Spec.rowVal
    rw [hp.1, Finset.sum_range_one]
  have hnr : P.A.nr = q.Au.nr := by rw [e1]; exact hnr0
  rw [← e1] at hnr0
  refine ⟨hnr, fun x hx hpos => ?_, w 0, r, fun i hi => ?_, fun i hi => ?_, fun i hi hir x hx1 hx2 => ?_, fun i hir => ?_⟩
  · obtain ⟨b, b1, b2⟩ := contains_iff hp (by omega) x hx 1e-7
    refine ⟨b, b1, b2.trans ?_⟩
    rw [hC, hnr]
    simp
  · rw [← hrow, e1, e2]
    exact hw.1 i (by rw [← e1]; omega)
  · rw [← hnr0, e1]
    exact r2 i hi
  · have := r3 i (by rw [← e1]; omega) hir (fun _ => x) (fun j hj => by omega)
      (fun j hj => by rw [← e1, ← e2, hrow]; exact hx1 j hj)
      (fun j hj hij => by rw [← e1, ← e2, hrow]; exact hx2 j (by rw [← e1] at hj; omega) hij)
    rwa [← e1, ← e2, hrow] at this
  · obtain ⟨l1, l2⟩ := mapM_ok_iff m2
    obtain ⟨n, hn, hni⟩ := List.getElem_of_mem hir
    have hb := l2 n hn (by rw [l1]; exact hn)
    rw [hni] at hb
    have hl := k4 l[n] (List.getElem_mem _)
    have hl' : Reached L q step l[n] := .next j1 j2 j3 (List.getElem_mem _)
    generalize l[n]'(by rw [l1]; exact hn) = ya at hb hl hl'
    have hsize := beyondFacet_size hb
    unfold beyondFacet CritReg.facet_center at hb
    simp only [show P.A.nc = 1 from hp.1, if_true, Py.ok_bind] at hb
    obtain ⟨x, c2, hb⟩ := Py.bind_eq_ok hb
    cases hb
    refine ⟨x, _, hsize.trans hp.1, ?_, hl', hl⟩
    have : np.addV (Vec.single (P.b.e i / P.A.e i 0)) ((P.A.row i).smul step) = .ok _ := if_pos hp.1.symm
    rw [this] at c2
    cases c2
    rfl

/-- a region of the result contains each point with a solution that the search reaches, if the active constraints found there are independent and their multipliers are clear -/
theorem reached_covered {L : Lib} (hL : LibSpec L) (hm : q.Made) (hs : q.data.Shape nu nx) (hnu : 0 < nu) (hpos : 0 < q.Au.nr) {sol : List CritReg} {xa : Vec ℝ × List ℕ}
    (hx : xa.1.n = nx) (ht : Through L q sol xa)
    (hans : ∃ (s : Sol) (lam : Vec ℝ) (act : List ℕ), q.solve L xa.1 = .ok s ∧ s.multiplier_inequality = some lam ∧ s.active_set = some act ∧
      q.data.Licq nu act ∧ ∀ i < q.Au.nr, 1e-7 < lam.e i ∨ lam.e i = 0) :
    ∃ cr ∈ sol, cr.contains xa.1 = .ok true := by
  obtain ⟨s, lam, act, a1, a2, a3, a4, a5⟩ := hans
  obtain ⟨g1, g2, g3, -⟩ := C44_partial L hL nu nx q hm hs hnu hpos xa.1 hx
  have hfound : ∃ cr0 : CritReg, cr0.contains xa.1 = .ok true ∧ ∀ r, q.explicit_solve_given_point L xa.1 (some xa.2) = .ok r → r = some cr0 := by
    by_cases hg : ∃ c : CritReg, q.explicit_solve_given_active_set xa.2 = .ok (some c) ∧ c.contains xa.1 = .ok true
    · obtain ⟨c, c1, c2⟩ := hg
      refine ⟨c, c2, fun r hr => ?_⟩
      rw [g1 _ c c1 c2] at hr
      exact (Except.ok.inj hr).symm
    · rcases g3 with ⟨s', h1, h2, h3⟩ | ⟨u, lam', s', act', h1, h2, hlam, h3, h4, h5, -, h6, h7, h8⟩
      · rw [a1] at h1
        cases h1
        exfalso
        rcases solve_run hL hs hpos hx with ⟨s1, -⟩ | ⟨u, lam', mu, s1, -⟩
        · rw [s1] at a1
          cases a1
          cases a2
        · rw [s1] at a1
          cases a1
          cases h2
      · rw [a1] at h1
        cases h1
        rw [a2] at hlam
        cases hlam
        rw [a3] at h5
        cases h5
        obtain ⟨c, c1, c2, c3, c4⟩ := h8 a4
        refine ⟨c, (c4 a5).2.1, fun r hr => ?_⟩
        by_cases hin : ∀ i ∈ xa.2, i < q.Au.nr
        · rw [g2 xa.2 hin fun c c1 c2 => hg ⟨c, c1, c2⟩, c1] at hr
          exact (Except.ok.inj hr).symm
        · exfalso
          have : np.rows q.Au xa.2 = .error .indexError := if_neg hin
          unfold explicit_solve_given_point explicit_solve_given_active_set at hr
          simp only [this] at hr
          cases hr
  obtain ⟨cr0, k1, k2⟩ := hfound
  rcases ht with h | h | ⟨cr, hcr, c, h, hl⟩
  · exact h
  · cases k2 _ h
  · cases k2 _ h
    exact ⟨cr, hcr, by rw [Like.contains hl]; exact k1⟩

/-- C119: for programs with one parameter, the regions that `explicit_solve` returns leave no gap wider than the step.  Let the rows of the regions have norm one or zero, and let the
solver find, at each point of the search where the program has feasible points, a solution whose active constraints are independent and whose multipliers are zero or greater than the
tolerance `1e-7`.  If the program has feasible points at `0`, where the search starts, and at `x`, then between `0` and `x` there is a point that a region of the result contains and
whose distance from `x` is at most `step` and `1e-7` for each constraint. -/
theorem C119 (L : Lib) (hL : LibSpec L) (nu : ℕ) (q : MpQP) (hm : q.Made) (hs : q.data.Shape nu 1) (hnu : 0 < nu) (hpos : 0 < q.Au.nr) (step : ℝ) (hstep : 1e-7 < step)
    (fuel : ℕ) (sol : ExplicitSolution) (h : explicit_solve L q fuel step = .ok (some sol))
    (hrow : ∀ cr ∈ sol, ∀ i < cr.polyhedron.A.nr, cr.polyhedron.A.e i 0 = 0 ∨ |cr.polyhedron.A.e i 0| = 1)
    (hans : ∀ xa, Reached L q step xa → (∃ u, q.data.Feas nu 1 u xa.1.e) →
      ∃ (s : Sol) (lam : Vec ℝ) (act : List ℕ), q.solve L xa.1 = .ok s ∧ s.multiplier_inequality = some lam ∧ s.active_set = some act ∧
        q.data.Licq nu act ∧ ∀ i < q.Au.nr, 1e-7 < lam.e i ∨ lam.e i = 0)
    (h0 : ∃ u, q.data.Feas nu 1 u fun _ => 0) (x : ℝ) (hx : ∃ u, q.data.Feas nu 1 u fun _ => x) :
    ∃ cr ∈ sol, ∃ (t : ℝ) (y : Vec ℝ), 0 ≤ t ∧ t ≤ 1 ∧ y.n = 1 ∧ y.e 0 = t * x ∧ cr.contains y = .ok true ∧ |x - y.e 0| ≤ step + q.Au.nr * 1e-7 := by
  obtain ⟨σ, hσ, hσx⟩ : ∃ σ : ℝ, (σ = 1 ∨ σ = -1) ∧ σ * x = |x| := by
    rcases le_total 0 x with hx0 | hx0
    · exact ⟨1, .inl rfl, by rw [abs_of_nonneg hx0, one_mul]⟩
    · exact ⟨-1, .inr rfl, by rw [abs_of_nonpos hx0]; ring⟩
  have hσσ : σ * σ = 1 := by rcases hσ with rfl | rfl <;> norm_num
  have hxx : x = σ * |x| := by rw [← hσx, ← mul_assoc, hσσ, one_mul]
  have hdiv : ∀ t, 0 ≤ t → t ≤ |x| → σ * t = t / |x| * x := by
    intro t h1 h2
    by_cases hz : |x| = 0
    · have : t = 0 := by linarith
      rw [this]; simp
    · have : t / |x| * x = σ * (t / |x| * |x|) := by
        conv_lhs => rhs; rw [hxx]
        ring
      rw [this, div_mul_cancel₀ _ hz]
  have hfx : q.fx.n = 1 := hs.fx
  have hfeas : ∀ t, 0 ≤ t → t ≤ |x| → ∀ v : ℕ → ℝ, v 0 = σ * t → ∃ u, q.data.Feas nu 1 u v := by
    intro t h1 h2 v hv
    obtain ⟨u0, k0⟩ := h0
    obtain ⟨u1, k1⟩ := hx
    have hx0 : ∃ τ, 0 ≤ τ ∧ τ ≤ 1 ∧ v 0 = τ * x := by
      refine ⟨t / |x|, div_nonneg h1 (abs_nonneg x), div_le_one_of_le₀ h2 (abs_nonneg x), ?_⟩
      rw [hv]
      exact hdiv t h1 h2
    obtain ⟨τ, t1, t2, t3⟩ := hx0
    refine ⟨fun j => (1 - τ) * u0 j + τ * u1 j, fun i hi => ?_⟩
    have g0 := k0 i hi
    have g1 := k1 i hi
    unfold Spec.ParamQP.lhs at g0 g1 ⊢
    rw [Finset.sum_range_one] at g0 g1 ⊢
    have : ∑ j ∈ range nu, q.data.Au.e i j * ((1 - τ) * u0 j + τ * u1 j) =
        (1 - τ) * ∑ j ∈ range nu, q.data.Au.e i j * u0 j + τ * ∑ j ∈ range nu, q.data.Au.e i j * u1 j := by
      rw [Finset.mul_sum, Finset.mul_sum, ← Finset.sum_add_distrib]
      exact Finset.sum_congr rfl fun j _ => by ring
    rw [this, t3]
    nlinarith
  have hstart : ∃ cr ∈ sol, cr.contains (Vec.zeros 1) = .ok true := by
    have := reached_covered hL hm hs hnu hpos (sol := sol) (xa := (Vec.zeros q.fx.n, [])) hfx
      ((C43 L nu 1 q hm hs step fuel _ sol h).1 _ (by simp)) (hans _ .start h0)
    simpa only [hfx] using this
  set T : Set ℝ := ⋃ cr ∈ {cr | cr ∈ sol}, {t | 0 ≤ t ∧ t ≤ |x| ∧ ∀ i < q.Au.nr, cr.polyhedron.A.e i 0 * (σ * t) - cr.polyhedron.b.e i ≤ 1e-7} with hT
  have hTmem : ∀ t, 0 ≤ t → t ≤ |x| → ∀ y : Vec ℝ, y.n = 1 → y.e 0 = σ * t → (∃ cr ∈ sol, cr.contains y = .ok true) → t ∈ T := by
    rintro t h1 h2 y hy hy0 ⟨cr, hcr, hc⟩
    obtain ⟨b, b1, b2⟩ := (region_steps hL hm hs h hcr).2.1 y hy hpos
    rw [hc] at b1
    cases b1
    rw [hT, Set.mem_iUnion₂]
    refine ⟨cr, hcr, h1, h2, fun i hi => ?_⟩
    rw [← hy0]
    exact b2.1 rfl i hi
  have hcomp : IsCompact T := by
    refine isCompact_Icc.of_isClosed_subset (s := Set.Icc 0 |x|) ?_ ?_
    · refine Set.Finite.isClosed_biUnion (List.finite_toSet sol) fun cr _ => ?_
      have : {t : ℝ | 0 ≤ t ∧ t ≤ |x| ∧ ∀ i < q.Au.nr, cr.polyhedron.A.e i 0 * (σ * t) - cr.polyhedron.b.e i ≤ 1e-7} =
          {t | 0 ≤ t} ∩ ({t | t ≤ |x|} ∩ ⋂ i ∈ {i | i < q.Au.nr}, {t | cr.polyhedron.A.e i 0 * (σ * t) - cr.polyhedron.b.e i ≤ 1e-7}) := by
        ext t
        simp
      rw [this]
      refine (isClosed_le continuous_const continuous_id).inter ((isClosed_le continuous_id continuous_const).inter
        (isClosed_biInter fun i _ => isClosed_le (by fun_prop) continuous_const))
    · intro t ht
      rw [hT, Set.mem_iUnion₂] at ht
      obtain ⟨cr, -, h1, h2, -⟩ := ht
      exact ⟨h1, h2⟩
  obtain ⟨t, ht, hmax⟩ := hcomp.exists_isGreatest ⟨0, hTmem 0 le_rfl (abs_nonneg x) _ rfl (by simp [Vec.zeros]) hstart⟩
  rw [hT, Set.mem_iUnion₂] at ht
  obtain ⟨cr, hcr, ht0, ht1, htc⟩ := ht
  have hcr : cr ∈ sol := hcr
  obtain ⟨hnr, hcont, w, r, hw, hr, hrem, hnext⟩ := region_steps hL hm hs h hcr
  have hgap : |x| - t ≤ step + q.Au.nr * 1e-7 := by
    by_contra hcon
    push Not at hcon
    have hlt : t < |x| := by nlinarith [(Nat.cast_nonneg q.Au.nr : (0 : ℝ) ≤ q.Au.nr), show (0 : ℝ) < 1e-7 by norm_num]
    have hA : ∀ i < q.Au.nr, cr.polyhedron.A.e i 0 = 0 ∨ cr.polyhedron.A.e i 0 = σ ∨ cr.polyhedron.A.e i 0 = -σ := by
      intro i hi
      rcases hrow cr hcr i (by omega) with e | e
      · exact .inl e
      · right
        rcases abs_eq_abs.1 (e.trans (abs_one (α := ℝ)).symm) with e | e <;> rcases hσ with rfl | rfl <;> simp [e]
    -- an inequality of the region stops the points beyond `t`
    have hstop : ∃ j < q.Au.nr, cr.polyhedron.A.e j 0 = σ ∧ cr.polyhedron.b.e j + 1e-7 ≤ t := by
      by_contra hno
      push Not at hno
      have : ∀ m ≤ q.Au.nr, ∃ t' > t, t' ≤ |x| ∧ ∀ i < m, cr.polyhedron.A.e i 0 * (σ * t') - cr.polyhedron.b.e i ≤ 1e-7 := by
        intro m
        induction m with
        | zero => exact fun _ => ⟨|x|, hlt, le_rfl, fun i hi => by omega⟩
        | succ m ih =>
          intro hm'
          obtain ⟨t', k1, k2, k3⟩ := ih (by omega)
          have hmono : ∀ t'' > t, t'' ≤ t' → ∀ i < m, cr.polyhedron.A.e i 0 * (σ * t'') - cr.polyhedron.b.e i ≤ 1e-7 := by
            intro t'' l1 l2 i hi
            have g1 := k3 i hi
            have g2 := htc i (by omega)
            rcases hA i (by omega) with e | e | e
            · rw [e] at g1 ⊢; linarith
            · rw [e, ← mul_assoc, hσσ] at g1 ⊢; linarith
            · rw [e, ← mul_assoc, show -σ * σ = -1 by linarith] at g2 ⊢; linarith
          have g2 := htc m (by omega)
          rcases hA m (by omega) with e | e | e
          · refine ⟨t', k1, k2, fun i hi => ?_⟩
            rcases Nat.lt_succ_iff_lt_or_eq.1 hi with hi | rfl
            · exact k3 i hi
            · rw [e] at g2 ⊢; linarith
          · have g3 := hno m (by omega) e
            refine ⟨min t' (cr.polyhedron.b.e m + 1e-7), lt_min k1 g3, (min_le_left _ _).trans k2, fun i hi => ?_⟩
            rcases Nat.lt_succ_iff_lt_or_eq.1 hi with hi | rfl
            · exact hmono _ (lt_min k1 g3) (min_le_left _ _) i hi
            · rw [e, ← mul_assoc, hσσ]
              linarith [min_le_right t' (cr.polyhedron.b.e i + 1e-7)]
          · refine ⟨t', k1, k2, fun i hi => ?_⟩
            rcases Nat.lt_succ_iff_lt_or_eq.1 hi with hi | rfl
            · exact k3 i hi
            · rw [e, ← mul_assoc, show -σ * σ = -1 by linarith] at g2 ⊢; linarith
      obtain ⟨t', k1, k2, k3⟩ := this _ le_rfl
      have : t' ∈ T := by
        rw [hT, Set.mem_iUnion₂]
        exact ⟨cr, hcr, by linarith, k2, k3⟩
      exact absurd (hmax this) (not_le.2 k1)
    obtain ⟨j, hj, hjA, hjb⟩ := hstop
    obtain ⟨i, hir, hiA, hib⟩ := kept_bound (m := q.Au.nr) (A := fun i => cr.polyhedron.A.e i 0) (b := cr.polyhedron.b.e) (tol := 1e-7) (by norm_num) hσσ hA hr hw hrem hj hjA
    have hib := hib j hj hjA
    obtain ⟨x', g, n1, n2, n3, n4⟩ := hnext i hir
    have hx' : x'.e 0 = σ * (cr.polyhedron.b.e i + step) := by
      rw [n2, show cr.polyhedron.A.e i 0 = σ from hiA]
      rcases hσ with rfl | rfl <;> ring
    have hti := htc i (hr i hir)
    rw [show cr.polyhedron.A.e i 0 = σ from hiA, ← mul_assoc, hσσ, one_mul] at hti
    have hle : cr.polyhedron.b.e i + step ≤ |x| := by linarith
    have hge : t < cr.polyhedron.b.e i + step := by linarith
    have hcov := reached_covered hL hm hs hnu hpos n1 n4 (hans _ n3 (hfeas _ (by linarith) hle _ hx'))
    exact absurd (hmax (hTmem _ (by linarith) hle x' n1 hx' hcov)) (not_le.2 hge)
  obtain ⟨b, b1, b2⟩ := hcont (Vec.single (σ * t)) rfl hpos
  have hbt : b = true := b2.2 htc
  rw [hbt] at b1
  refine ⟨cr, hcr, t / |x|, Vec.single (σ * t), div_nonneg ht0 (abs_nonneg x), div_le_one_of_le₀ ht1 (abs_nonneg x), rfl, ?_, b1, ?_⟩
  · show σ * t = t / |x| * x
    exact hdiv t ht0 ht1
  · show |x - σ * t| ≤ _
    have : x - σ * t = σ * (|x| - t) := by rw [mul_sub, ← hxx]
    rw [this, abs_mul, show |σ| = 1 by rcases hσ with rfl | rfl <;> simp, one_mul, abs_of_nonneg (by linarith)]
    exact hgap

end Verif.Props
