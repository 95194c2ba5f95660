import Verif.Proofs.MpQPRegion

/-
Properties of the explicit solution of
`/repo/pympc/optimization/parametric_programs.py` (C42, C44).
-/
namespace Verif.Props
open Finset Verif.MpQP

variable {nu nx : ℕ} {q : MpQP}

theorem get_region_cases {x : Vec ℝ} (sol : ExplicitSolution)
    (h : ∀ cr ∈ sol, ∃ r, cr.contains x = .ok r) :
    ((∀ cr ∈ sol, cr.contains x = .ok false) ∧ sol.get_critical_region x = .ok none) ∨
    ∃ (i : ℕ) (cr : CritReg), sol[i]? = some cr ∧ cr.contains x = .ok true ∧
      (∀ j < i, ∀ c : CritReg, sol[j]? = some c → c.contains x = .ok false) ∧
      sol.get_critical_region x = .ok (some cr) := by
  induction sol with
  | nil => left; exact ⟨by simp, rfl⟩
  | cons c l ih =>
    obtain ⟨r, hr⟩ := h c (List.mem_cons_self ..)
    have e : ExplicitSolution.get_critical_region x (c :: l) = if r then .ok (some c)
        else ExplicitSolution.get_critical_region x l := by
      show (c.contains x >>= fun b => _) = _
      rw [hr, Py.ok_bind]
      rfl
    cases r with
    | true =>
      right
      exact ⟨0, c, rfl, hr, fun j hj => absurd hj (Nat.not_lt_zero j), by rw [e]; rfl⟩
    | false =>
      rcases ih fun cr hcr => h cr (List.mem_cons_of_mem _ hcr) with ⟨h1, h2⟩ | ⟨i, cr, h1, h2, h3, h4⟩
      · left
        refine ⟨fun cr hcr => ?_, by rw [e]; exact h2⟩
        rcases List.mem_cons.1 hcr with rfl | hcr
        · exact hr
        · exact h1 cr hcr
      · right
        refine ⟨i + 1, cr, h1, h2, fun j hj c' hc' => ?_, by rw [e]; exact h4⟩
        cases j with
        | zero => simp at hc'; rw [← hc']; exact hr
        | succ j => exact h3 j (by omega) c' hc'

theorem slackTol_eq {n : ℕ} {v : Vec ℝ} (hv : v.n = n) {w : ℕ → ℝ} (h : ∀ j < n, v.e j ^ 2 = w j ^ 2) :
    slackTol v = Spec.gradTol n w := by
  unfold slackTol Spec.gradTol vnorm
  rw [hv, Finset.sum_congr rfl fun j hj => h j (mem_range.1 hj)]

/-- what it means that the code finds `x` in a critical region -/
theorem approx_region (hm : q.Made) (hs : q.data.Shape nu nx) {a : List ℕ}
    (ha : ∀ i ∈ a, i < q.Au.nr) (hl : q.data.Licq nu a) (hpos : 0 < q.Au.nr) {x : Vec ℝ}
    (hx : x.n = nx) (hc : (q.fCr a).contains x = .ok true) :
    (∀ i < q.Au.nr, i ∉ a → q.data.lhs nu nx i (q.fu' a nx x.e) x.e ≤ q.b.e i
      + Spec.gradTol nx fun j => ∑ k ∈ range nu, q.Au.e i k * (q.fCr a).ux.e k j + q.Ax.e i j) ∧
    ∀ i ∈ a, -Spec.gradTol nx (fun j => (q.fCr a).px.e i j) ≤ q.fp' a nx x.e i := by
  obtain ⟨r, h1, h2⟩ := contains_fCr hm hs hl hpos hx
  rw [hc] at h1
  cases h1
  obtain ⟨h3, h4⟩ := h2.1 rfl
  have hnc : q.Ax.nc = nx := hs.Ax
  have hr : q.Ax.nr = q.Au.nr := hs.rows
  have s7 : q.Au.nc = nu := hs.Au
  refine ⟨fun i hi hia => ?_, fun i hi => ?_⟩
  · obtain ⟨k, hk, rfl⟩ := exists_inactive (q := q) (hr ▸ hi) hia
    have := h4 k hk
    rw [slackTol_eq (n := nx) (w := fun j => ∑ l ∈ range nu,
      q.Au.e ((q.inactive a).getD k 0) l * (q.fCr a).ux.e l j + q.Ax.e ((q.inactive a).getD k 0) j)
      hnc fun j _ => ?_] at this
    · linarith
    · rw [← s7]
      congr 1
      exact Mat.vapp_e_add (q.fPax a).neg _ k j
  · obtain ⟨k, hk, rfl⟩ := List.getElem_of_mem hi
    have := h3 k hk
    rw [List.getD_eq_getElem _ _ hk] at this
    rw [slackTol_eq (n := nx) (w := fun j => (q.fCr a).px.e a[k] j) hnc fun j _ => ?_] at this
    · linarith
    · have e1 : (q.fAcr a).e k j = -(q.fPax a).e k j := Mat.vapp_e_lt _ _ _ hk
      have e2 : (q.fCr a).px.e a[k] j = (q.fPax a).e k j := by
        show (if a[k] ∈ a then (q.fPax a).e (a.idxOf a[k]) j else 0) = _
        rw [if_pos hi, (licq_nodup hl).idxOf_getElem]
      show (q.fAcr a).e k j ^ 2 = _
      rw [e1, e2]
      ring

/-- C42, what holds.  `sol` is a list of regions of the program, up to cached attributes of the
polyhedra.  `u`, `p`, `V` refer to the first region found to contain `x`, and are `None` exactly when no
region is.  If `x` satisfies the inequalities of that region exactly, then `u(x)`, `V(x)` are the
`argmin` and `min` of `solve(x)` whenever the latter answers.  Otherwise `u(x)` violates the constraints
by at most the tolerance with which the code tests inequalities, and `V(x)` exceeds the cost of any
feasible `u'` by at most that tolerance times the slacks of the active constraints at `u'`.  Missing
with respect to C42: the equality for `x` that is only within tolerance of the region (false, see
`C42_false`). -/
theorem C42_partial (L : Lib) (hL : LibSpec L) (nu nx : ℕ) (q : MpQP) (hm : q.Made)
    (hs : q.data.Shape nu nx) (hpos : 0 < q.Au.nr) (sol : ExplicitSolution)
    (hsol : ∀ cr ∈ sol, ∃ (a : List ℕ) (cr0 : CritReg), q.explicit_solve_given_active_set a = .ok (some cr0) ∧ Like cr cr0)
    (x : Vec ℝ) (hx : x.n = nx) :
    ((∀ cr ∈ sol, cr.contains x = .ok false) ∧ sol.u x = .ok none ∧ sol.p x = .ok none ∧
      sol.V x = .ok none) ∨
    ∃ (i : ℕ) (cr : CritReg), sol[i]? = some cr ∧ cr.contains x = .ok true ∧
      (∀ j < i, ∀ c : CritReg, sol[j]? = some c → c.contains x = .ok false) ∧
      ∃ (u p : Vec ℝ) (v : ℝ), cr.u x = .ok u ∧ cr.p x = .ok p ∧ cr.V x = .ok v ∧
        sol.u x = .ok (some u) ∧ sol.p x = .ok (some p) ∧ sol.V x = .ok (some v) ∧
        v = q.data.cost nu nx u.e x.e ∧
        (cr.polyhedron.Mem x.e → q.data.Opt nu nx u.e x.e ∧ q.data.KKT nu nx u.e p.e x.e ∧
          ∃ s, q.solve L x = .ok s ∧ ∀ m, s.min = some m → m = v ∧
            ∃ u', s.argmin = some u' ∧ u'.n = u.n ∧ ∀ j < nu, u'.e j = u.e j) ∧
        (∀ i < q.Au.nr, q.data.lhs nu nx i u.e x.e ≤ q.b.e i + if i ∈ cr.active_set then 0 else
          Spec.gradTol nx fun j => ∑ k ∈ range nu, q.Au.e i k * cr.ux.e k j + q.Ax.e i j) ∧
        ∀ u', q.data.Feas nu nx u' x.e → v ≤ q.data.cost nu nx u' x.e +
          ∑ i ∈ range q.Au.nr, (if i ∈ cr.active_set then Spec.gradTol nx (fun j => cr.px.e i j) else 0)
            * (q.b.e i - q.data.lhs nu nx i u' x.e) := by
  have hc : ∀ cr ∈ sol, ∃ r, cr.contains x = .ok r := by
    intro cr hcr
    obtain ⟨a, cr0, h1, h2⟩ := hsol cr hcr
    obtain ⟨ha, hl, rfl⟩ := explicit_cases hm hs h1
    obtain ⟨r, h3, -⟩ := contains_fCr hm hs hl hpos hx
    exact ⟨r, by rw [h2.contains, h3]⟩
  rcases get_region_cases sol hc with ⟨h1, h2⟩ | ⟨i, cr, h1, h2, h3, h4⟩
  · left
    refine ⟨h1, ?_, ?_, ?_⟩ <;>
    · simp only [ExplicitSolution.u, ExplicitSolution.p, ExplicitSolution.V, ExplicitSolution.withRegion]
      rw [h2]
      rfl
  · right
    refine ⟨i, cr, h1, h2, h3, ?_⟩
    obtain ⟨a, cr0, hrun, hlike⟩ := hsol cr (List.mem_of_getElem? h1)
    obtain ⟨u, p, hu, hp, hun, hpn, hopt, -⟩ := C40 nu nx q hm hs a cr0 hrun x hx
    obtain ⟨u1, v, hu1, hv, hval, -⟩ := C41 nu nx q hm hs a cr0 hrun x hx
    rw [hu] at hu1
    cases hu1
    obtain ⟨ha, hl, rfl⟩ := explicit_cases hm hs hrun
    obtain ⟨u2, hu2, -, hue⟩ := fCr_u (a := a) hm hs hx
    rw [hu] at hu2
    cases hu2
    have eu : q.fu' a nx x.e = u.e := by funext j; exact (hue j).symm
    have hcont : (q.fCr a).contains x = .ok true := by rw [← hlike.contains, h2]
    obtain ⟨b1, b2⟩ := approx_region hm hs ha hl hpos hx hcont
    obtain ⟨k1, k2, -⟩ := fCr_kkt hm hs ha hl x.e
    rw [eu] at b1 k1 k2
    have hact : cr.active_set = a := by obtain ⟨P, -, rfl⟩ := hlike; rfl
    have hux : cr.ux = (q.fCr a).ux := by obtain ⟨P, -, rfl⟩ := hlike; rfl
    have hpx : cr.px = (q.fCr a).px := by obtain ⟨P, -, rfl⟩ := hlike; rfl
    refine ⟨u, p, v, (hlike.u x).trans hu, (hlike.p x).trans hp, (hlike.V x).trans hv, ?_, ?_, ?_,
      hval, ?_, ?_, ?_⟩
    · unfold ExplicitSolution.u ExplicitSolution.withRegion
      rw [h4, Py.ok_bind]
      simp only [hlike.u x, hu]
      rfl
    · unfold ExplicitSolution.p ExplicitSolution.withRegion
      rw [h4, Py.ok_bind]
      simp only [hlike.p x, hp]
      rfl
    · unfold ExplicitSolution.V ExplicitSolution.withRegion
      rw [h4, Py.ok_bind]
      simp only [hlike.V x, hv]
      rfl
    · intro hmem
      obtain ⟨o1, o2, o3⟩ := hopt ((hlike.mem _).1 hmem)
      refine ⟨o2, o1, ?_⟩
      rcases solve_run hL hs hpos hx with ⟨s1, -⟩ | ⟨u', lam, mu, s1, s2, s3, s4, -⟩
      · exact ⟨_, s1, fun m hmin => by simp [Sol.none] at hmin⟩
      · have he := o3 _ (opt_of_kkt hs s4).1
        refine ⟨_, s1, fun m hmin => ⟨?_, u', rfl, s2.trans hun.symm, he⟩⟩
        have hcost : q.data.cost nu nx u'.e x.e = q.data.cost nu nx u.e x.e :=
          le_antisymm ((opt_of_kkt hs s4).1.2 _ o2.1) (o2.2 _ (opt_of_kkt hs s4).1.1)
        rw [hval, ← hcost]
        simpa using hmin.symm
    · intro i hi
      rw [hact, hux]
      by_cases hia : i ∈ a
      · rw [if_pos hia, k2 i hia, add_zero]
      · rw [if_neg hia]
        exact b1 i hi hia
    · intro u' hu'
      rw [hact, hpx, hval]
      have := lagrangian_le hs k1 u'
      refine this.trans (add_le_add_right (Finset.sum_le_sum fun i hi => ?_) _)
      by_cases hia : i ∈ a
      · rw [if_pos hia, k2 i hia]
        have h5 : 0 ≤ q.b.e i - q.data.lhs nu nx i u' x.e := by
          have := hu' i (mem_range.1 hi)
          have hb : q.data.b.e i = q.b.e i := rfl
          linarith
        have h6 := mul_le_mul_of_nonneg_right (b2 i hia) h5
        linarith
      · rw [if_neg hia, fp'_off q nx x.e hia, zero_mul, zero_mul]

/-! ### the regions of a program with one constraint -/

theorem clip_kkt {a : List ℕ} (ha : a = [] ∨ a = [0]) (x : ℝ) {u p : ℝ}
    (h1 : 100 * u - 100 * x + p = 0) (h2 : 0 ∈ a → u = 0) (h3 : 0 ∉ a → p = 0) {q : MpQP} (hm : q.Made)
    (hd : IsClip q.data) :
    q.fu' a 1 (fun _ => x) 0 = u ∧ q.fp' a 1 (fun _ => x) 0 = p := by
  have hs : q.data.Shape 1 1 := hd.shape
  have hA : q.Au.nr = 1 := hd.nr
  have hl : q.data.Licq 1 a := hd.licq _ ha
  have har : ∀ i ∈ a, i < q.Au.nr := by
    rw [hA]; rcases ha with rfl | rfl <;> simp
  have h0 : ∀ i ∈ a, i = 0 := by rcases ha with rfl | rfl <;> simp
  obtain ⟨-, -, k⟩ := fCr_kkt hm hs har hl (fun _ => x)
  obtain ⟨k1, k2⟩ := k (fun _ => u) (fun _ => p) (by
      intro j hj
      have : j = 0 := by omega
      subst this
      rw [hd.lag]
      linarith) (by
      intro i hi
      have := h0 i hi
      subst this
      rw [hd.lhs, show q.b.e 0 = 0 from hd.b]
      exact h2 hi) (by
      intro i hi hia
      have : i = 0 := by omega
      subst this
      exact h3 hia)
  exact ⟨(k1 0 (by norm_num)).symm, (k2 0 (by omega)).symm⟩

theorem clip_run {q : MpQP} (hm : q.Made) (hd : IsClip q.data) (a : List ℕ) (ha : a = [] ∨ a = [0]) :
    q.explicit_solve_given_active_set a = .ok (some (q.fCr a)) := by
  refine explicit_some hm hd.shape ?_ (hd.licq _ ha)
  rw [show q.Au.nr = 1 from hd.nr]; rcases ha with rfl | rfl <;> simp

theorem clip_made : ∃ q : MpQP, q.Made ∧ q.data = clip ∧ q.data.Shape 1 1 ∧ q.Au.nr = 1 ∧
    ∀ a : List ℕ, a = [] ∨ a = [0] → q.explicit_solve_given_active_set a = .ok (some (q.fCr a)) := by
  obtain ⟨q, -, hm, hd⟩ := init_made clip_shape
  have hc : IsClip q.data := hd ▸ clip_is
  exact ⟨q, hm, hd, hc.shape, hc.nr, clip_run hm hc⟩

/-- the region without active constraints is found to contain `5e-8` -/
theorem clip_near {q : MpQP} (hm : q.Made) (hd : IsClip q.data) :
    (q.fCr []).contains ⟨1, fun _ => 5e-8⟩ = .ok true ∧
      ∃ u, (q.fCr []).u ⟨1, fun _ => 5e-8⟩ = .ok u ∧ u.e 0 = 5e-8 := by
  have hs : q.data.Shape 1 1 := hd.shape
  have hA : q.Au.nr = 1 := hd.nr
  have hl : q.data.Licq 1 [] := hd.licq _ (Or.inl rfl)
  have hk : ∀ x : ℝ, q.fu' [] 1 (fun _ => x) 0 = x := fun x =>
    (clip_kkt (Or.inl rfl) x (u := x) (p := 0) (by ring) (by simp) (by simp) hm hd).1
  constructor
  · obtain ⟨r, h1, h2⟩ := contains_fCr hm hs hl (by omega) (x := ⟨1, fun _ => 5e-8⟩) rfl
    rw [h1]
    congr 1
    rw [h2]
    refine ⟨fun k hk => by simp at hk, fun k hk' => ?_⟩
    have hi : q.inactive [] = [0] := by
      have : q.Ax.nr = 1 := hd.Ax_nr
      simp [inactive, this]
    rw [hi] at hk' ⊢
    have hk0 : k = 0 := by simpa using hk'
    subst hk0
    have hb : q.b.e 0 = 0 := hd.b
    have hlhs : ∀ u x, q.data.lhs 1 1 0 u x = u 0 := hd.lhs
    have h3 : q.data.lhs 1 1 ([0].getD 0 0) (q.fu' [] 1 fun _ => 5e-8) (fun _ => 5e-8) = 5e-8 := by
      rw [show ([0] : List ℕ).getD 0 0 = 0 from rfl, hlhs, hk]
    have h4 : q.b.e (([0] : List ℕ).getD 0 0) = 0 := hb
    rw [h3, h4]
    -- the row of the region is `1`
    have h5 := fAcr_con (a := []) hm hs (fun _ => 1) 0
    have h6 := fAcr_con (a := []) hm hs (fun _ => 0) 0
    rw [hi, show ([0] : List ℕ).getD 0 0 = 0 from rfl, hlhs, hk, hb] at h5 h6
    simp only [Finset.sum_range_one, List.length_nil, Nat.add_zero] at h5 h6
    have h7 : (q.fAcr []).e 0 0 = 1 := by linarith
    have h8 : slackTol ((q.fAcr []).row (([] : List ℕ).length + 0)) = 1e-7 := by
      unfold slackTol
      have : vnorm ((q.fAcr []).row (([] : List ℕ).length + 0)) = 1 := by
        unfold vnorm
        have hn : ((q.fAcr []).row (([] : List ℕ).length + 0)).n = 1 :=
          hd.shape.Ax
        rw [hn, Finset.sum_range_one]
        show Real.sqrt ((q.fAcr []).e 0 0 ^ 2) = 1
        rw [h7]; simp
      rw [this]
      norm_num
    rw [h8]
    norm_num
  · obtain ⟨u, h1, -, h2⟩ := fCr_u (a := []) hm hs (x := ⟨1, fun _ => 5e-8⟩) rfl
    exact ⟨u, h1, by rw [h2]; exact hk _⟩

theorem clip_opt {q : MpQP} (hd : IsClip q.data) {x : ℝ} (hx : 0 ≤ x) :
    q.data.Opt 1 1 (fun _ => 0) (fun _ => x) ∧
      ∀ u', q.data.Opt 1 1 u' (fun _ => x) → u' 0 = 0 := by
  have hs : q.data.Shape 1 1 := hd.shape
  have hk : q.data.KKT 1 1 (fun _ => 0) (fun _ => 100 * x) (fun _ => x) := by
    have h0 : ∀ i < q.data.Au.nr, i = 0 := fun i hi => by have := hd.nr; omega
    refine ⟨fun i hi => ?_, fun j hj => ?_, fun i hi => ?_, fun i hi => ?_⟩
    · rw [h0 i hi, hd.lhs, hd.b]
    · have : j = 0 := by omega
      rw [this, hd.lag]
      ring
    · positivity
    · rw [h0 i hi, hd.lhs, hd.b]
      ring
  obtain ⟨h1, h2⟩ := opt_of_kkt hs hk
  exact ⟨h1, fun u' h => h2 u' h.1 (h.2 _ h1.1) 0 (by norm_num)⟩

/-- C42 is false: a region is found to contain `x`, but `u(x)` is not the optimizer that `solve(x)`
returns (it is not even feasible). -/
theorem C42_false (L : Lib) (hL : LibSpec L) : ∃ (q : MpQP) (cr : CritReg) (x u u' : Vec ℝ) (s : Sol),
    q.Made ∧ q.data.Shape 1 1 ∧ x.n = 1 ∧ q.explicit_solve_given_active_set [] = .ok (some cr) ∧
    cr.contains x = .ok true ∧ ExplicitSolution.u [cr] x = .ok (some u) ∧
    q.solve L x = .ok s ∧ s.argmin = some u' ∧ q.data.Opt 1 1 u'.e x.e ∧ u.e 0 ≠ u'.e 0 ∧
    ¬ q.data.Feas 1 1 u.e x.e := by
  obtain ⟨q, hm, hd, hs, hA, hrun⟩ := clip_made
  obtain ⟨hc, u, hu, hu0⟩ := clip_near hm (hd ▸ clip_is)
  obtain ⟨o1, o2⟩ := clip_opt (q := q) (hd ▸ clip_is) (x := 5e-8) (by norm_num)
  obtain ⟨s, h1, h2, h3, -⟩ := (C45_partial L hL 1 1 q hs ⟨1, fun _ => 5e-8⟩ rfl (fun _ => 5e-8) (by
    intro j hj; rw [hd]; simp [Spec.ParamQP.lagrangian, clip])).1 (by omega)
  have hsol : ExplicitSolution.u [q.fCr []] ⟨1, fun _ => 5e-8⟩ = .ok (some u) := by
    unfold ExplicitSolution.u ExplicitSolution.withRegion
    have : ExplicitSolution.get_critical_region ⟨1, fun _ => 5e-8⟩ [q.fCr []]
        = .ok (some (q.fCr [])) := by
      show ((q.fCr []).contains _ >>= fun b => _) = _
      rw [hc]
      rfl
    rw [this, Py.ok_bind]
    simp only [hu]
    rfl
  have hH : q.Huu.e 0 0 = 100 := congrArg (fun P : Spec.ParamQP => P.Huu.e 0 0) hd
  cases hmin : s.min with
  | none =>
    exfalso
    rcases h3.1 hmin with h | ⟨v, h4, h5⟩
    · exact h _ o1.1
    · rw [Finset.sum_range_one, Finset.sum_range_one, hH, o2 v h4] at h5
      norm_num at h5
  | some m =>
    obtain ⟨u', lam, h4, -, h5, -⟩ := h2 m hmin
    refine ⟨q, _, _, u, u', s, hm, hs, rfl, hrun _ (Or.inl rfl), hc, hsol, h1, h4, h5, ?_, ?_⟩
    · rw [hu0, o2 _ h5]; norm_num
    · intro h
      have h6 := h 0 (by rw [show q.data.Au.nr = 1 from hA]; norm_num)
      rw [hd] at h6
      simp [Spec.ParamQP.lhs, clip, hu0] at h6
      norm_num at h6

/-- the hypotheses of `C42_partial` are met by the two regions of the program, which cover the line -/
example : ∃ (q : MpQP) (sol : ExplicitSolution), q.Made ∧ q.data.Shape 1 1 ∧ 0 < q.Au.nr ∧
    sol.length = 2 ∧
    ∀ cr ∈ sol, ∃ (a : List ℕ) (cr0 : CritReg),
      q.explicit_solve_given_active_set a = .ok (some cr0) ∧ Like cr cr0 := by
  obtain ⟨q, hm, hd, hs, hA, hrun⟩ := clip_made
  refine ⟨q, [q.fCr [], q.fCr [0]], hm, hs, by omega, rfl, fun cr hcr => ?_⟩
  rcases List.mem_cons.1 hcr with rfl | hcr
  · exact ⟨[], _, hrun _ (Or.inl rfl), Like.refl _⟩
  · rw [List.mem_singleton] at hcr
    subst hcr
    exact ⟨[0], _, hrun _ (Or.inr rfl), Like.refl _⟩

/-! ### the region of a point -/

/-- the outcome without a guess -/
theorem solveThenExplicit_run {L : Lib} (hL : LibSpec L) (hm : q.Made) (hs : q.data.Shape nu nx) (hpos : 0 < q.Au.nr)
    {x : Vec ℝ} (hx : x.n = nx) :
    (q.solve L x = .ok Sol.none ∧ q.solveThenExplicit L x = .ok none) ∨
    ∃ (u lam : Vec ℝ) (s : Sol), q.solve L x = .ok s ∧ s.argmin = some u ∧
      s.multiplier_inequality = some lam ∧ s.active_set = some (whereGt lam 1e-7) ∧ u.n = nu ∧ lam.n = q.Au.nr ∧
      q.data.KKT nu nx u.e lam.e x.e ∧ (∀ i ∈ whereGt lam 1e-7, i < q.Au.nr) ∧
      q.solveThenExplicit L x = q.explicit_solve_given_active_set (whereGt lam 1e-7) := by
  rcases solve_run hL hs hpos hx with ⟨s1, -⟩ | ⟨u, lam, mu, s1, s2, s3, s4, -⟩
  · left
    refine ⟨s1, ?_⟩
    unfold solveThenExplicit
    rw [s1]; rfl
  · right
    refine ⟨u, lam, _, s1, rfl, rfl, rfl, s2, s3, s4, fun i hi => ?_, ?_⟩
    · rw [← s3]; simp [whereGt] at hi; exact hi.1
    · unfold solveThenExplicit
      rw [s1]; rfl

/-- C44, what holds.  (1) A guess whose region is found to contain `x` is returned.  (2) Any other
admissible guess leads to the same result as no guess.  (3) Without guess nothing is raised; `None` is
returned exactly when the program at `x` has no answer or the constraints with multiplier greater than
`1e-7` are dependent; otherwise the region is the one of these constraints and, if the other multipliers
are zero, it contains `x` and `u(x)` is the optimizer.  (4) If `x` satisfies the inequalities of the
returned region, whatever the guess, then `u(x)` is the optimizer.  Missing with respect to C44: wrong
guesses whose region contains `x` only within tolerance, multipliers between `0` and `1e-7` (false, see
`C44_false`). -/
theorem C44_partial (L : Lib) (hL : LibSpec L) (nu nx : ℕ) (q : MpQP) (hm : q.Made)
    (hs : q.data.Shape nu nx) (hnu : 0 < nu) (hpos : 0 < q.Au.nr) (x : Vec ℝ) (hx : x.n = nx) :
    (∀ (a : List ℕ) (cr : CritReg), q.explicit_solve_given_active_set a = .ok (some cr) →
      cr.contains x = .ok true → q.explicit_solve_given_point L x (some a) = .ok (some cr)) ∧
    (∀ a : List ℕ, (∀ i ∈ a, i < q.Au.nr) →
      (∀ cr : CritReg, q.explicit_solve_given_active_set a = .ok (some cr) → cr.contains x ≠ .ok true) →
      q.explicit_solve_given_point L x (some a) = q.explicit_solve_given_point L x none) ∧
    ((∃ s, q.solve L x = .ok s ∧ s.min = none ∧ q.explicit_solve_given_point L x none = .ok none) ∨
      ∃ (u lam : Vec ℝ) (s : Sol) (act : List ℕ), q.solve L x = .ok s ∧ s.argmin = some u ∧
        s.multiplier_inequality = some lam ∧ q.data.Opt nu nx u.e x.e ∧ q.data.KKT nu nx u.e lam.e x.e ∧ s.active_set = some act ∧
        act.Pairwise (· < ·) ∧ (∀ i, i ∈ act ↔ i < q.Au.nr ∧ 1e-7 < lam.e i) ∧
        (¬ q.data.Licq nu act → q.explicit_solve_given_point L x none = .ok none) ∧
        (q.data.Licq nu act → ∃ cr : CritReg, q.explicit_solve_given_point L x none = .ok (some cr) ∧
          q.explicit_solve_given_active_set act = .ok (some cr) ∧ cr.active_set = act ∧
          ((∀ i < q.Au.nr, 1e-7 < lam.e i ∨ lam.e i = 0) → cr.polyhedron.Mem x.e ∧
            cr.contains x = .ok true ∧
            ∃ u', cr.u x = .ok u' ∧ u'.n = u.n ∧ ∀ j < nu, u'.e j = u.e j))) ∧
    ∀ (guess : Option (List ℕ)) (cr : CritReg),
      q.explicit_solve_given_point L x guess = .ok (some cr) → cr.polyhedron.Mem x.e →
        ∃ u p v, cr.u x = .ok u ∧ cr.p x = .ok p ∧ cr.V x = .ok v ∧ q.data.KKT nu nx u.e p.e x.e ∧
          q.data.Opt nu nx u.e x.e ∧ v = q.data.cost nu nx u.e x.e := by
  have hguess : ∀ (a : List ℕ) (cr : CritReg), q.explicit_solve_given_active_set a = .ok (some cr) →
      ∃ r, cr.contains x = .ok r ∧ q.explicit_solve_given_point L x (some a) =
        if r then .ok (some cr) else q.solveThenExplicit L x := by
    intro a cr h
    obtain ⟨ha, hl, rfl⟩ := explicit_cases hm hs h
    obtain ⟨r, h3, -⟩ := contains_fCr hm hs hl hpos hx
    refine ⟨r, h3, ?_⟩
    unfold explicit_solve_given_point
    simp only [h, Py.ok_bind, h3]
    rfl
  have hnone : ∀ a : List ℕ, q.explicit_solve_given_active_set a = .ok none →
      q.explicit_solve_given_point L x (some a) = q.solveThenExplicit L x := by
    intro a h
    unfold explicit_solve_given_point
    simp only [h, Py.ok_bind]
  refine ⟨fun a cr h1 h2 => ?_, fun a ha h => ?_, ?_, fun guess cr h hmem => ?_⟩
  · obtain ⟨r, h3, h4⟩ := hguess a cr h1
    rw [h2] at h3
    cases h3
    exact h4
  · by_cases hl : q.data.Licq nu a
    · have h1 := explicit_some hm hs ha hl
      obtain ⟨r, h3, h4⟩ := hguess a _ h1
      cases r with
      | true => exact absurd h3 (h _ h1)
      | false => exact h4
    · exact hnone a (explicit_none hs hnu ha hl)
  · rcases solveThenExplicit_run hL hm hs hpos hx with ⟨s1, s2⟩ | ⟨u, lam, s, s1, s2, smul, s3, s4, s5, s6, s7, s8⟩
    · left
      exact ⟨_, s1, rfl, s2⟩
    · right
      obtain ⟨o1, o2⟩ := opt_of_kkt hs s6
      have hact : ∀ i, i ∈ whereGt lam 1e-7 ↔ i < q.Au.nr ∧ 1e-7 < lam.e i := by
        intro i; simp [whereGt, s5]
      refine ⟨u, lam, s, _, s1, s2, smul, o1, s6, s3, whereGt_sorted _ _, hact, fun hl => ?_, fun hl => ?_⟩
      · exact s8.trans (explicit_none hs hnu s7 hl)
      · have hrun := explicit_some hm hs s7 hl
        refine ⟨_, s8.trans hrun, hrun, rfl, fun hmul => ?_⟩
        have hmem : (q.fCr (whereGt lam 1e-7)).polyhedron.Mem x.e := by
          obtain ⟨-, -, -, -, -, -, -, hiff⟩ := C40 nu nx q hm hs _ _ hrun x hx
          refine hiff.2 ⟨u.e, lam.e, s6, fun i hi hia => ?_, fun i hi => ?_⟩
          · rcases hmul i hi with h | h
            · exact absurd ((hact i).2 ⟨hi, h⟩) hia
            · exact h
          · obtain ⟨i1, i2⟩ := (hact i).1 hi
            have h0 : lam.e i ≠ 0 := by
              have : (0 : ℝ) < lam.e i := lt_trans (by norm_num) i2
              exact this.ne'
            have := (mul_eq_zero.1 (s6.compl i i1)).resolve_left h0
            have hb : q.data.b.e i = q.b.e i := rfl
            linarith
        obtain ⟨u', p', k1, -, k2, -, k3, -⟩ := C40 nu nx q hm hs _ _ hrun x hx
        refine ⟨hmem, contains_of_mem hm hs s7 hl hpos hx hmem, u', k1, k2.trans s4.symm, fun j hj => ?_⟩
        exact ((k3 hmem).2.2 u.e o1 j hj).symm
  · have hfrom : ∃ a, q.explicit_solve_given_active_set a = .ok (some cr) := by
      have hthen : q.solveThenExplicit L x = .ok (some cr) →
          ∃ a, q.explicit_solve_given_active_set a = .ok (some cr) := by
        intro h
        rcases solveThenExplicit_run hL hm hs hpos hx with ⟨s1, s2⟩ |
          ⟨u, lam, s, s1, s2, smul, s3, s4, s5, s6, s7, s8⟩
        · rw [s2] at h; cases h
        · exact ⟨_, s8 ▸ h⟩
      cases guess with
      | none => exact hthen h
      | some a =>
        cases ha : q.explicit_solve_given_active_set a with
        | error e =>
          unfold explicit_solve_given_point at h
          simp only [ha] at h
          cases h
        | ok o =>
          cases o with
          | none => exact hthen (hnone a ha ▸ h)
          | some cr' =>
            obtain ⟨r, h3, h4⟩ := hguess a cr' ha
            rw [h4] at h
            cases r with
            | true => cases h; exact ⟨a, ha⟩
            | false => exact hthen h
    obtain ⟨a, hrun⟩ := hfrom
    obtain ⟨u, p, hu, hp, -, -, hopt, -⟩ := C40 nu nx q hm hs a cr hrun x hx
    obtain ⟨u1, v, hu1, hv, hval, -⟩ := C41 nu nx q hm hs a cr hrun x hx
    rw [hu] at hu1
    cases hu1
    exact ⟨u, p, v, hu, hp, hv, (hopt hmem).1, (hopt hmem).2.1, hval⟩

/-- C44 is false: the guess `[]` is wrong at `x = 5e-8`, and it changes the optimizer.  Without guess the
region returned gives the optimizer. -/
theorem C44_false (L : Lib) (hL : LibSpec L) : ∃ (q : MpQP) (x : Vec ℝ) (cr : CritReg) (u : Vec ℝ),
    q.Made ∧ q.data.Shape 1 1 ∧ x.n = 1 ∧
    q.explicit_solve_given_point L x (some []) = .ok (some cr) ∧ cr.u x = .ok u ∧
    ¬ q.data.Opt 1 1 u.e x.e ∧
    ∃ cr' u', q.explicit_solve_given_point L x none = .ok (some cr') ∧ cr'.u x = .ok u' ∧
      q.data.Opt 1 1 u'.e x.e := by
  obtain ⟨q, hm, hd, hs, hA, hrun⟩ := clip_made
  obtain ⟨hc, u, hu, hu0⟩ := clip_near hm (hd ▸ clip_is)
  obtain ⟨o1, o2⟩ := clip_opt (q := q) (hd ▸ clip_is) (x := 5e-8) (by norm_num)
  obtain ⟨g1, -, g3, -⟩ := C44_partial L hL 1 1 q hm hs one_pos (by omega) ⟨1, fun _ => 5e-8⟩ rfl
  refine ⟨q, _, _, u, hm, hs, rfl, g1 [] _ (hrun _ (Or.inl rfl)) hc, hu, fun h => ?_, ?_⟩
  · have := o2 _ h
    rw [hu0] at this
    norm_num at this
  · rcases g3 with ⟨s, h1, h2, -⟩ | ⟨u', lam, s, act, h1, h2, -, h3, h4, h5, hsort, h6, h7, h8⟩
    · exfalso
      obtain ⟨s', h1', -, h3, -⟩ := (C45_partial L hL 1 1 q hs ⟨1, fun _ => 5e-8⟩ rfl (fun _ => 5e-8) (by
        intro j hj; rw [hd]; simp [Spec.ParamQP.lagrangian, clip])).1 (by omega)
      rw [h1] at h1'
      cases h1'
      have hH : q.Huu.e 0 0 = 100 := congrArg (fun P : Spec.ParamQP => P.Huu.e 0 0) hd
      rcases h3.1 h2 with h | ⟨v, h4, h5⟩
      · exact h _ o1.1
      · rw [Finset.sum_range_one, Finset.sum_range_one, hH, o2 v h4] at h5
        norm_num at h5
    · have hlam : lam.e 0 = 5e-6 := by
        have := h4.stat 0 (by norm_num)
        have hu' := o2 _ h3
        rw [hd] at this
        simp [Spec.ParamQP.lagrangian, clip, hu'] at this
        norm_num at this ⊢
        linarith
      have h01 : ∀ i, i ∈ act ↔ i = 0 := by
        intro i
        rw [h6, hA]
        constructor
        · rintro ⟨hi, -⟩; omega
        · rintro rfl; rw [hlam]; norm_num
      have hl : q.data.Licq 1 act := by
        have hsorted : act = [0] := by
          match act, h01, hsort with
          | [], h, _ => exact absurd ((h 0).2 rfl) (by simp)
          | [i], h, _ => rw [(h i).1 (by simp)]
          | i :: j :: l, h, hp =>
            have e1 := (h i).1 (by simp)
            have e2 := (h j).1 (by simp)
            have := List.rel_of_pairwise_cons hp (List.mem_cons_self (a := j) (l := l))
            omega
        rw [hsorted, hd]
        exact clip_licq _ (Or.inr rfl)
      obtain ⟨cr, k1, -, -, k2⟩ := h8 hl
      obtain ⟨-, -, v, k3, -, k4⟩ := k2 fun i hi => by
        left
        have : i = 0 := by omega
        rw [this, hlam]; norm_num
      refine ⟨cr, v, k1, k3, ?_⟩
      have e : q.data.Opt 1 1 (fun _ => 0) (fun _ => 5e-8) := o1
      have hv0 : v.e 0 = 0 := by rw [k4 0 (by norm_num), o2 _ h3]
      refine (opt_of_kkt hs (KKT_congr (u' := v.e) (fun j hj => (k4 j hj).symm) (fun i _ => rfl) h4)).1

end Verif.Props
