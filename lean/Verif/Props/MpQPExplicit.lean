import Verif.Proofs.MpQPSolve

/-
Properties of the critical regions and of the point solutions of
`/repo/pympc/optimization/parametric_programs.py` (C40, C41, C42, C44, C45).

`q.data` are the data of the program, `Made` says that the object comes from the constructor, and
`cr.polyhedron.Mem x` that `x` satisfies the inequalities of the region exactly.
-/
namespace Verif.Props
open Finset Verif.MpQP

variable {nu nx : ℕ} {q : MpQP}

/-- a region is computed only for independent active constraints -/
theorem explicit_cases (hm : q.Made) (hs : q.data.Shape nu nx) {a : List ℕ} {cr : CritReg}
    (h : q.explicit_solve_given_active_set a = .ok (some cr)) :
    (∀ i ∈ a, i < q.Au.nr) ∧ q.data.Licq nu a ∧ cr = q.fCr a := by
  by_cases ha : ∀ i ∈ a, i < q.Au.nr
  · by_cases hl : q.data.Licq nu a
    · rw [explicit_some hm hs ha hl] at h
      cases h
      exact ⟨ha, hl, rfl⟩
    · exfalso
      rcases Nat.eq_zero_or_pos nu with h0 | h0
      · subst h0
        have hne : a ≠ [] := by
          rintro rfl
          exact hl fun w _ k hk => absurd hk (by simp)
        rw [explicit_no_inputs hs ha hne] at h
        cases h
      · rw [explicit_none hs h0 ha hl] at h
        cases h
  · have : np.rows q.Au a = .error .indexError := if_neg ha
    unfold MpQP.explicit_solve_given_active_set at h
    rw [this] at h
    cases h

/-- in the region the KKT conditions hold at `u(x)`, `p(x)` -/
theorem fCr_kkt_of_mem (hm : q.Made) (hs : q.data.Shape nu nx) {a : List ℕ}
    (ha : ∀ i ∈ a, i < q.Au.nr) (hl : q.data.Licq nu a) {x : ℕ → ℝ} (hx : (q.fCr a).polyhedron.Mem x) :
    q.data.KKT nu nx (q.fu' a nx x) (q.fp' a nx x) x := by
  obtain ⟨k1, k2, -⟩ := fCr_kkt hm hs ha hl x
  obtain ⟨m1, m2⟩ := (fCr_mem hm hs hl x).1 hx
  refine ⟨fun i hi => ?_, k1, fun i hi => ?_, fun i hi => ?_⟩
  · by_cases hia : i ∈ a
    · exact (k2 i hia).le
    · exact m2 i hi hia
  · by_cases hia : i ∈ a
    · exact m1 i hia
    · rw [fp'_off q nx x hia]
  · by_cases hia : i ∈ a
    · rw [k2 i hia]
      show _ * (q.b.e i - q.b.e i) = 0
      ring
    · rw [fp'_off q nx x hia, zero_mul]

theorem KKT_congr {P : Spec.ParamQP} {u u' p p' x : ℕ → ℝ} (hu : ∀ j < nu, u j = u' j)
    (hp : ∀ i < P.Au.nr, p i = p' i) (h : P.KKT nu nx u p x) : P.KKT nu nx u' p' x := by
  have e1 : ∀ i, P.lhs nu nx i u' x = P.lhs nu nx i u x := by
    intro i
    unfold Spec.ParamQP.lhs
    congr 1
    exact Finset.sum_congr rfl fun j hj => by rw [hu j (mem_range.1 hj)]
  refine ⟨fun i hi => ?_, fun j hj => ?_, fun i hi => ?_, fun i hi => ?_⟩
  · rw [e1]; exact h.feas i hi
  · rw [← h.stat j hj]
    unfold Spec.ParamQP.lagrangian
    congr 1
    · congr 2
      exact Finset.sum_congr rfl fun j hj => by rw [hu j (mem_range.1 hj)]
    · exact Finset.sum_congr rfl fun j hj => by rw [hp j (mem_range.1 hj)]
  · rw [← hp i hi]; exact h.nonneg i hi
  · rw [e1, ← hp i hi]; exact h.compl i hi

/-- C40: in the critical region of an active set `a`, `u(x)` is the only optimizer and `p(x)` are
multipliers; and the region consists exactly of the parameters at which the constraints in `a` are an
optimal active set. -/
theorem C40 (nu nx : ℕ) (q : MpQP) (hm : q.Made) (hs : q.data.Shape nu nx) (a : List ℕ)
    (cr : CritReg) (hrun : q.explicit_solve_given_active_set a = .ok (some cr)) (x : Vec ℝ)
    (hx : x.n = nx) :
    ∃ u p : Vec ℝ, cr.u x = .ok u ∧ cr.p x = .ok p ∧ u.n = nu ∧ p.n = q.Au.nr ∧
      (cr.polyhedron.Mem x.e → q.data.KKT nu nx u.e p.e x.e ∧ q.data.Opt nu nx u.e x.e ∧
        ∀ u', q.data.Opt nu nx u' x.e → ∀ j < nu, u' j = u.e j) ∧
      (cr.polyhedron.Mem x.e ↔ ∃ u' p' : ℕ → ℝ, q.data.KKT nu nx u' p' x.e ∧
        (∀ i < q.Au.nr, i ∉ a → p' i = 0) ∧ ∀ i ∈ a, q.data.lhs nu nx i u' x.e = q.b.e i) := by
  obtain ⟨ha, hl, rfl⟩ := explicit_cases hm hs hrun
  obtain ⟨u, hu, hun, hue⟩ := fCr_u (a := a) hm hs hx
  obtain ⟨p, hp, hpn, hpe⟩ := fCr_p (a := a) hs hx
  have key : (q.fCr a).polyhedron.Mem x.e → q.data.KKT nu nx u.e p.e x.e := fun h =>
    KKT_congr (fun j _ => (hue j).symm) (fun i _ => (hpe i).symm) (fCr_kkt_of_mem hm hs ha hl h)
  obtain ⟨k1, k2, k3⟩ := fCr_kkt hm hs ha hl x.e
  refine ⟨u, p, hu, hp, hun, hpn, fun h => ⟨key h, ?_⟩, ?_⟩
  · obtain ⟨o1, o2⟩ := opt_of_kkt hs (key h)
    exact ⟨o1, fun u' h' => o2 u' h'.1 (h'.2 _ o1.1)⟩
  · constructor
    · intro h
      refine ⟨_, _, fCr_kkt_of_mem hm hs ha hl h, fun i _ hia => fp'_off q nx x.e hia, k2⟩
    · rintro ⟨u', p', h1, h2, h3⟩
      obtain ⟨r1, r2⟩ := k3 u' p' h1.stat h3 h2
      rw [fCr_mem hm hs hl]
      have h4 := KKT_congr r1 r2 h1
      exact ⟨fun i hi => h4.nonneg i (ha i hi), fun i hi _ => h4.feas i hi⟩

/-- C41: `V(x)` is the cost at `u(x)` for every `x`, hence the optimal value in the region. -/
theorem C41 (nu nx : ℕ) (q : MpQP) (hm : q.Made) (hs : q.data.Shape nu nx) (a : List ℕ)
    (cr : CritReg) (hrun : q.explicit_solve_given_active_set a = .ok (some cr)) (x : Vec ℝ)
    (hx : x.n = nx) :
    ∃ (u : Vec ℝ) (v : ℝ), cr.u x = .ok u ∧ cr.V x = .ok v ∧ v = q.data.cost nu nx u.e x.e ∧
      (cr.polyhedron.Mem x.e → q.data.Feas nu nx u.e x.e ∧
        ∀ u', q.data.Feas nu nx u' x.e → v ≤ q.data.cost nu nx u' x.e) := by
  obtain ⟨u, p, hu, hp, hun, hpn, h1, -⟩ := C40 nu nx q hm hs a cr hrun x hx
  obtain ⟨ha, hl, rfl⟩ := explicit_cases hm hs hrun
  obtain ⟨u', hu', hun', hue⟩ := fCr_u (a := a) hm hs hx
  rw [hu] at hu'
  cases hu'
  have e : q.fu' a nx x.e = u.e := by funext j; exact (hue j).symm
  refine ⟨u, _, hu, fCr_V hm hs hx, by rw [e], fun h => ?_⟩
  rw [e]
  exact (h1 h).2.1

/-- min 50 (u - x)² s.t. u ≤ 0 -/
def clip : Spec.ParamQP := ⟨⟨1, 1, fun _ _ => 100⟩, ⟨1, 1, fun _ _ => -100⟩, ⟨1, 1, fun _ _ => 100⟩,
  ⟨1, fun _ => 0⟩, ⟨1, fun _ => 0⟩, 0, ⟨1, 1, fun _ _ => 1⟩, ⟨1, 1, fun _ _ => 0⟩, ⟨1, fun _ => 0⟩⟩

theorem clip_shape : clip.Shape 1 1 := by
  refine ⟨⟨rfl, rfl, fun _ _ _ _ => rfl, ?_⟩, rfl, rfl, rfl, rfl, rfl, rfl, rfl, rfl, rfl, rfl⟩
  rintro x ⟨i, hi, hx⟩
  have : i = 0 := by omega
  subst this
  have := mul_self_pos.2 hx
  simp [clip]
  nlinarith

theorem clip_licq (a : List ℕ) (ha : a = [] ∨ a = [0]) : clip.Licq 1 a := by
  rcases ha with rfl | rfl
  · intro w _ k hk
    simp at hk
  · intro w hw k hk
    have := hw 0 (by norm_num)
    simp [clip] at this
    have hk0 : k = 0 := by simpa using hk
    rw [hk0, this]

/-- the program above, up to entries beyond the sizes and terms of the cost that depend on `x` only -/
structure IsClip (P : Spec.ParamQP) : Prop where
  shape : P.Shape 1 1
  nr : P.Au.nr = 1
  lhs : ∀ u x, P.lhs 1 1 0 u x = u 0
  lag : ∀ u x p, P.lagrangian 1 1 u x p 0 = 100 * u 0 - 100 * x 0 + p 0
  b : P.b.e 0 = 0

theorem clip_is : IsClip clip := by
  refine ⟨clip_shape, rfl, fun u x => ?_, fun u x p => ?_, rfl⟩
  · simp [Spec.ParamQP.lhs, clip]
  · simp [Spec.ParamQP.lagrangian, clip]; ring

theorem IsClip.licq {P : Spec.ParamQP} (h : IsClip P) (a : List ℕ) (ha : a = [] ∨ a = [0]) : P.Licq 1 a := by
  have h1 : P.Au.e 0 0 = 1 := by
    have := h.lhs (fun _ => 1) (fun _ => 0)
    simpa [Spec.ParamQP.lhs] using this
  rcases ha with rfl | rfl
  · intro w _ k hk
    simp at hk
  · intro w hw k hk
    have := hw 0 (by norm_num)
    simp [h1] at this
    have hk0 : k = 0 := by simpa using hk
    rw [hk0, this]

theorem IsClip.Ax_nr {P : Spec.ParamQP} (h : IsClip P) : P.Ax.nr = 1 := h.shape.rows.trans h.nr

/-- both sides of `x = 0` are covered by a critical region, the hypotheses of C40 and C41 are met -/
example : ∃ q : MpQP, q.Made ∧ q.data.Shape 1 1 ∧
    ∃ cr, q.explicit_solve_given_active_set [0] = .ok (some cr) ∧ cr.polyhedron.Mem (fun _ => 1) := by
  obtain ⟨q, -, hm, hd⟩ := init_made clip_shape
  have hs : q.data.Shape 1 1 := by rw [hd]; exact clip_shape
  have hA : q.Au.nr = 1 := congrArg (fun P : Spec.ParamQP => P.Au.nr) hd
  have ha : ∀ i ∈ [0], i < q.Au.nr := by intro i hi; rw [hA]; simpa using hi
  have hl : q.data.Licq 1 [0] := by rw [hd]; exact clip_licq _ (Or.inr rfl)
  have hrun := explicit_some hm hs ha hl
  refine ⟨q, hm, hs, _, hrun, ?_⟩
  obtain ⟨u, p, -, -, -, -, -, h⟩ := C40 1 1 q hm hs [0] _ hrun ⟨1, fun _ => 1⟩ rfl
  refine h.2 ⟨fun _ => 0, fun _ => 100, ?_, ?_, ?_⟩
  · rw [hd]
    refine ⟨fun i hi => ?_, fun j hj => ?_, fun i hi => ?_, fun i hi => ?_⟩
    · simp [Spec.ParamQP.lhs, clip]
    · simp [Spec.ParamQP.lagrangian, clip]
    · norm_num
    · simp [Spec.ParamQP.lhs, clip]
  · intro i hi hia
    rw [hA] at hi
    simp at hia
    omega
  · intro i hi
    have hb : q.b.e i = 0 := by
      have := congrArg (fun P : Spec.ParamQP => P.b.e i) hd
      exact this
    rw [hd, hb]
    simp [Spec.ParamQP.lhs, clip]

/-! ### the solution at a point -/

theorem whereGt_sorted (v : Vec ℝ) (t : ℝ) : (whereGt v t).Pairwise (· < ·) :=
  List.Pairwise.filter _ List.pairwise_lt_range

/-- C45, what holds: `solve(x)` of a program with inequalities never raises (without any it raises `RuntimeError`); if it answers, the answer is the unique optimizer, its
value and multipliers; and it answers `None` exactly when there is no feasible `u` or the optimizer
is at least `sqrt (1 / tol ^ 2 - 1)` away, in the norm of `Huu`, from the unconstrained minimizer `u0`
(`tol = 1e-7`).  Missing with respect to C45: answers for far optimizers (false, see `C45_false`). -/
theorem C45_partial (L : Lib) (hL : LibSpec L) (nu nx : ℕ) (q : MpQP) (hs : q.data.Shape nu nx)
    (x : Vec ℝ) (hx : x.n = nx) (u0 : ℕ → ℝ)
    (hu0 : ∀ j < nu, q.data.lagrangian nu nx u0 x.e (fun _ => 0) j = 0) :
    (0 < q.Au.nr → ∃ s, q.solve L x = .ok s ∧
      (∀ m, s.min = some m → ∃ u lam : Vec ℝ, s.argmin = some u ∧ u.n = nu ∧
        q.data.Opt nu nx u.e x.e ∧ (∀ u', q.data.Opt nu nx u' x.e → ∀ j < nu, u' j = u.e j) ∧
        m = q.data.cost nu nx u.e x.e ∧ s.multiplier_inequality = some lam ∧ lam.n = q.Au.nr ∧
        q.data.KKT nu nx u.e lam.e x.e ∧
        ∃ act, s.active_set = some act ∧ act.Pairwise (· < ·) ∧ ∀ i, i ∈ act ↔ i < q.Au.nr ∧ 1e-7 < lam.e i) ∧
      (s.min = none ↔ (∀ u, ¬ q.data.Feas nu nx u x.e) ∨ ∃ u, q.data.Opt nu nx u x.e ∧
        1 / (1e-7 : ℝ) ^ 2 - 1
          ≤ ∑ i ∈ range nu, ∑ j ∈ range nu, (u i - u0 i) * q.Huu.e i j * (u j - u0 j)) ∧
      (s.min = none → s = Sol.none)) ∧
    (q.Au.nr = 0 → q.solve L x = .error .runtimeError) := by
  refine ⟨fun hrows => ?_, fun hrows => solve_no_rows hL hs hrows hx⟩
  have hiff := qp_none_iff hL hs.Huu (f := linAt q.data nu nx x.e) rfl (shapeAt hs x.e) (.inl hrows) (tol := 1e-7)
    (by norm_num) (x0 := u0) (fun j hj => by
      rw [← hu0 j hj]
      unfold Spec.ParamQP.lagrangian linAt
      simp
      ring)
  have hiff2 : ((∀ u, ¬ Spec.Feasible q.data.Au (rhsAt q.data nx x.e) none none u) ∨
      ∃ u, Spec.IsQpOpt q.data.Huu (linAt q.data nu nx x.e) q.data.Au (rhsAt q.data nx x.e) none none u ∧
        1 / (1e-7 : ℝ) ^ 2 - 1 ≤ ∑ i ∈ range nu, ∑ j ∈ range nu,
          (u.e i - u0 i) * q.data.Huu.e i j * (u.e j - u0 j)) ↔
      ((∀ u, ¬ q.data.Feas nu nx u x.e) ∨ ∃ u, q.data.Opt nu nx u x.e ∧
        1 / (1e-7 : ℝ) ^ 2 - 1
          ≤ ∑ i ∈ range nu, ∑ j ∈ range nu, (u i - u0 i) * q.Huu.e i j * (u j - u0 j)) := by
    refine or_congr ⟨fun h u => ?_, fun h u => ?_⟩ ⟨?_, ?_⟩
    · have := h ⟨nu, u⟩
      rwa [← feas_iff hs] at this
    · rw [← feas_iff hs]; exact h _
    · rintro ⟨u, h1, h2⟩
      exact ⟨u.e, (opt_iff hs u x.e).2 h1, h2⟩
    · rintro ⟨u, h1, h2⟩
      exact ⟨⟨nu, u⟩, (opt_iff hs ⟨nu, u⟩ x.e).1 h1, h2⟩
  rw [hiff2] at hiff
  rcases solve_run hL hs hrows hx with ⟨h1, h2⟩ | ⟨u, lam, mu, h1, h2, h3, h4, h5⟩
  · refine ⟨_, h1, fun m hmin => by simp [Sol.none] at hmin, ?_, fun _ => rfl⟩
    exact ⟨fun _ => hiff.1 h2, fun _ => rfl⟩
  · obtain ⟨o1, o2⟩ := opt_of_kkt hs h4
    refine ⟨_, h1, fun m hmin => ?_, ?_, fun hmin => by simp at hmin⟩
    · refine ⟨u, lam, rfl, h2, o1, fun u' h' => o2 u' h'.1 (h'.2 _ o1.1), ?_, rfl, h3, h4, _, rfl, whereGt_sorted _ _, ?_⟩
      · simpa using hmin.symm
      · intro i; simp [whereGt, h3]
    · exact ⟨fun h => by simp at h, fun h => absurd (hiff.2 h) h5⟩

/-- min u² / 2 s.t. u ≥ 2e7 -/
def farQP : Spec.ParamQP := ⟨⟨1, 1, fun _ _ => 1⟩, ⟨1, 1, fun _ _ => 0⟩, ⟨1, 1, fun _ _ => 1⟩,
  ⟨1, fun _ => 0⟩, ⟨1, fun _ => 0⟩, 0, ⟨1, 1, fun _ _ => -1⟩, ⟨1, 1, fun _ _ => 0⟩, ⟨1, fun _ => -2e7⟩⟩

theorem farQP_shape : farQP.Shape 1 1 := by
  refine ⟨⟨rfl, rfl, fun _ _ _ _ => rfl, ?_⟩, rfl, rfl, rfl, rfl, rfl, rfl, rfl, rfl, rfl, rfl⟩
  rintro x ⟨i, hi, hx⟩
  have : i = 0 := by omega
  subst this
  have := mul_self_pos.2 hx
  simp [farQP]
  nlinarith

/-- C45 is false: a program with an optimizer for which `solve` answers `None`. -/
theorem C45_false (L : Lib) (hL : LibSpec L) : ∃ (q : MpQP) (x : Vec ℝ) (u : ℕ → ℝ), q.Made ∧
    q.data.Shape 1 1 ∧ x.n = 1 ∧ q.data.Opt 1 1 u x.e ∧ q.solve L x = .ok Sol.none := by
  obtain ⟨q, -, hm, hd⟩ := init_made farQP_shape
  have hs : q.data.Shape 1 1 := by rw [hd]; exact farQP_shape
  have hopt : q.data.Opt 1 1 (fun _ => 2e7) (fun _ => 0) := by
    rw [hd]
    refine (opt_of_kkt farQP_shape (p := fun _ => 2e7) ⟨fun i hi => ?_, fun j hj => ?_, fun i hi => ?_,
      fun i hi => ?_⟩).1
    · simp [Spec.ParamQP.lhs, farQP]
    · simp [Spec.ParamQP.lagrangian, farQP]
    · norm_num
    · simp [Spec.ParamQP.lhs, farQP]
  have hA : q.Au.nr = 1 := congrArg (fun P : Spec.ParamQP => P.Au.nr) hd
  obtain ⟨s, h1, -, h2, h3⟩ := (C45_partial L hL 1 1 q hs ⟨1, fun _ => 0⟩ rfl (fun _ => 0) (by
    intro j hj; rw [hd]; simp [Spec.ParamQP.lagrangian, farQP])).1 (by rw [hA]; norm_num)
  refine ⟨q, ⟨1, fun _ => 0⟩, _, hm, hs, rfl, hopt, ?_⟩
  have hH : q.Huu.e 0 0 = 1 := congrArg (fun P : Spec.ParamQP => P.Huu.e 0 0) hd
  rw [h1, h3 (h2.2 (Or.inr ⟨_, hopt, ?_⟩))]
  simp only [Finset.sum_range_one, hH]
  norm_num

/-- a program that `solve` answers -/
example (L : Lib) (hL : LibSpec L) : ∃ (q : MpQP) (m : ℝ) (s : Sol), q.data.Shape 1 1 ∧
    q.solve L ⟨1, fun _ => 1⟩ = .ok s ∧ s.min = some m ∧ m = 50 := by
  obtain ⟨q, -, hm, hd⟩ := init_made clip_shape
  have hs : q.data.Shape 1 1 := by rw [hd]; exact clip_shape
  have hopt : q.data.Opt 1 1 (fun _ => 0) (fun _ => 1) := by
    rw [hd]
    refine (opt_of_kkt clip_shape (p := fun _ => 100) ⟨fun i hi => ?_, fun j hj => ?_, fun i hi => ?_,
      fun i hi => ?_⟩).1
    · simp [Spec.ParamQP.lhs, clip]
    · simp [Spec.ParamQP.lagrangian, clip]
    · norm_num
    · simp [Spec.ParamQP.lhs, clip]
  have hH : q.Huu.e 0 0 = 100 := congrArg (fun P : Spec.ParamQP => P.Huu.e 0 0) hd
  have hA : q.Au.nr = 1 := congrArg (fun P : Spec.ParamQP => P.Au.nr) hd
  obtain ⟨s, h1, h2, h3, -⟩ := (C45_partial L hL 1 1 q hs ⟨1, fun _ => 1⟩ rfl (fun _ => 1) (by
    intro j hj; rw [hd]; simp [Spec.ParamQP.lagrangian, clip])).1 (by rw [hA]; norm_num)
  cases hmin : s.min with
  | none =>
    exfalso
    rcases h3.1 hmin with h | ⟨u, h4, h5⟩
    · exact h _ hopt.1
    · have hu : u 0 = 0 := by
        have := (opt_of_kkt hs (u := fun _ => 0) (p := fun _ => 100) (x := fun _ => 1) (by
          rw [hd]
          refine ⟨fun i hi => ?_, fun j hj => ?_, fun i hi => ?_, fun i hi => ?_⟩
          · simp [Spec.ParamQP.lhs, clip]
          · simp [Spec.ParamQP.lagrangian, clip]
          · norm_num
          · simp [Spec.ParamQP.lhs, clip])).2 u h4.1 (h4.2 _ hopt.1)
        exact this 0 (by norm_num)
      simp only [Finset.sum_range_one, hH, hu] at h5
      norm_num at h5
  | some m =>
    refine ⟨q, m, s, hs, h1, hmin, ?_⟩
    obtain ⟨u, lam, -, -, -, h4, h5, -⟩ := h2 m hmin
    have := h4 _ hopt 0 (by norm_num)
    rw [h5, hd]
    simp [Spec.ParamQP.cost, clip, ← this]
    norm_num

end Verif.Props
