import Verif.Props.Programs
import Verif.Props.ExplicitTest
import Verif.Props.ParametricTest
import Verif.Model.TestPrograms

/-
The test of the calls of the solvers (C195).
-/
namespace Verif.Props
open Finset TestSuite

/-- the answer of a solver without the active set -/
structure SolIs (s : Sol) (m : ℝ) (x lam : Vec ℝ) (mu : Option (Vec ℝ)) : Prop where
  min : s.min = some m
  argmin : ∃ x', s.argmin = some x' ∧ x'.n = x.n ∧ ∀ i < x.n, x'.e i = x.e i
  lam : ∃ l, s.multiplier_inequality = some l ∧ l.n = lam.n ∧ ∀ i < lam.n, l.e i = lam.e i
  mu : match mu with
    | none => s.multiplier_equality = none
    | some mu => ∃ l, s.multiplier_equality = some l ∧ l.n = mu.n ∧ ∀ i < mu.n, l.e i = mu.e i

theorem SolIs.asserts {s : Sol} {m : ℝ} {x lam : Vec ℝ} {mu : Option (Vec ℝ)} (h : SolIs s m x lam mu) (act : List ℕ) :
    Asserts (checkSol s m x act lam mu) (s.active_set = some act) := by
  obtain ⟨x', e1, n1, v1⟩ := h.argmin
  obtain ⟨l, e2, n2, v2⟩ := h.lam
  have hmu : checkEqMul s.multiplier_equality mu = .ok () := by
    have := h.mu
    cases mu with
    | none =>
      simp only at this
      rw [this]
      rfl
    | some mu =>
      obtain ⟨l, e3, n3, v3⟩ := this
      rw [e3]
      exact almost_same n3 fun i hi => v3 i (n3 ▸ hi)
  unfold checkSol
  rw [h.min, e1, e2, hmu]
  have a1 : assertAlmostEqualO (some m) m = .ok () := almost_self m
  rw [a1, Py.ok_bind, almost_same n1 fun i hi => v1 i (n1 ▸ hi), Py.ok_bind, almost_same n2 fun i hi => v2 i (n2 ▸ hi), Py.ok_bind]
  refine ⟨fun p => ?_, fun p => ?_⟩
  · rw [decide_eq_true p]
    rfl
  · rw [decide_eq_false p]
    rfl

/-- the answer of `linear_program` of either solver, as proved in C30 and C79 -/
def LpAns (f : Vec ℝ) (A : Mat ℝ) (b : Vec ℝ) (C : Option (Mat ℝ)) (d : Option (Vec ℝ)) (s : Sol) : Prop :=
  ∃ x lam, s.argmin = some x ∧ x.n = f.n ∧ Spec.Feasible A b C d x ∧ s.min = some (Spec.lpCost f x) ∧ s.multiplier_inequality = some lam ∧
    Spec.KKT f.e A b C x lam s.multiplier_equality ∧ (C = none → s.multiplier_equality = none)

/-- the answer of `quadratic_program` of either solver, as proved in C34 and C79 -/
def QpAns (H : Mat ℝ) (f : Vec ℝ) (A : Mat ℝ) (b : Vec ℝ) (C : Option (Mat ℝ)) (d : Option (Vec ℝ)) (tol : ℝ) (s : Sol) : Prop :=
  ∃ x lam act, s.argmin = some x ∧ x.n = f.n ∧ Spec.Feasible A b C d x ∧ s.min = some (Spec.qpCost H f x) ∧ s.multiplier_inequality = some lam ∧
    Spec.KKT (Spec.qpGrad H f x) A b C x lam s.multiplier_equality ∧ (C = none → s.multiplier_equality = none) ∧
    s.active_set = some act ∧ act = (List.range A.nr).filter fun i => decide (tol < lam.e i)

theorem lp1_is {s : Sol} (h : LpAns (Vec.ones 2) negEye (Vec.zeros 2) none none s) :
    SolIs s 0 (Vec.zeros 2) (Vec.ones 2) none ∧ ∀ l, s.multiplier_inequality = some l → l.n = 2 ∧ l.e 0 = 1 ∧ l.e 1 = 1 := by
  obtain ⟨x, lam, h1, h2, h3, h4, h5, h6, h7⟩ := h
  have s0 := h6.stat 0 (by norm_num [negEye])
  have s1 := h6.stat 1 (by norm_num [negEye])
  have c0 := h6.compl 0 (by norm_num [negEye])
  have c1 := h6.compl 1 (by norm_num [negEye])
  simp [negEye, sum_range_succ, Spec.eqGrad] at s0 s1 c0 c1
  have l0 : lam.e 0 = 1 := by linarith
  have l1 : lam.e 1 = 1 := by linarith
  have x0 : x.e 0 = 0 := by simpa [l0] using c0
  have x1 : x.e 1 = 0 := by simpa [l1] using c1
  have hl : lam.n = 2 := h6.size
  refine ⟨⟨?_, ⟨x, h1, h2, fun i hi => ?_⟩, ⟨lam, h5, hl, fun i hi => ?_⟩, h7 rfl⟩, fun l hl' => ?_⟩
  · rw [h4]
    simp [Spec.lpCost, sum_range_succ, x0, x1]
  · have hi' : i < 2 := hi
    interval_cases i <;> simp [x0, x1]
  · have hi' : i < 2 := hi
    interval_cases i <;> simp [l0, l1]
  · rw [h5] at hl'
    cases hl'
    exact ⟨hl, l0, l1⟩

theorem lp2_is {s : Sol} (h : LpAns (Vec.ones 2) negEye (Vec.zeros 2) (some lpC) (some (at1 2)) s) :
    SolIs s 1 (vec2 1 0) (vec2 0 0.5) (some (at1 (-0.5))) ∧ ∀ l, s.multiplier_inequality = some l → l.n = 2 ∧ l.e 0 = 0 ∧ l.e 1 = 0.5 := by
  obtain ⟨x, lam, h1, h2, h3, h4, h5, h6, -⟩ := h
  obtain ⟨mu, m1, m2⟩ := h6.sizeEq lpC rfl (by norm_num [lpC])
  have s0 := h6.stat 0 (by norm_num [negEye])
  have s1 := h6.stat 1 (by norm_num [negEye])
  have c0 := h6.compl 0 (by norm_num [negEye])
  have c1 := h6.compl 1 (by norm_num [negEye])
  have p0 := h6.nonneg 0 (by norm_num [negEye])
  have f0 := h3.1 0 (by norm_num [negEye])
  have f1 := h3.1 1 (by norm_num [negEye])
  have f2 := h3.2 0 (by norm_num [lpC])
  rw [m1] at s0 s1
  simp [negEye, lpC, at1, sum_range_succ, Spec.eqGrad] at s0 s1 c0 c1 f0 f1 f2
  have hx : x.e 0 ≠ 0 := by
    intro h0
    have hx1 : x.e 1 = 2 := by rw [h0] at f2; linarith
    have l1 : lam.e 1 = 0 := by
      rcases c1 with h | h
      · exact h
      · rw [hx1] at h; norm_num at h
    linarith
  have l0 : lam.e 0 = 0 := c0.resolve_right hx
  have hm : mu.e 0 = -0.5 := by norm_num; linarith
  have l1 : lam.e 1 = 0.5 := by norm_num at hm ⊢; linarith
  have x1 : x.e 1 = 0 := by
    rcases c1 with h | h
    · rw [h] at l1; norm_num at l1
    · exact h
  have x0 : x.e 0 = 1 := by rw [x1] at f2; linarith
  have hl : lam.n = 2 := h6.size
  refine ⟨⟨?_, ⟨x, h1, h2, fun i hi => ?_⟩, ⟨lam, h5, hl, fun i hi => ?_⟩, ⟨mu, m1, m2, fun i hi => ?_⟩⟩, fun l hl' => ?_⟩
  · rw [h4]
    simp [Spec.lpCost, sum_range_succ, x0, x1]
  · have hi' : i < 2 := hi
    interval_cases i <;> simp [x0, x1, vec2]
  · have hi' : i < 2 := hi
    interval_cases i <;> simp [l0, l1, vec2]
  · have hi' : i < 1 := hi
    interval_cases i
    exact hm
  · rw [h5] at hl'
    cases hl'
    exact ⟨hl, l0, l1⟩

theorem qp1_is {tol : ℝ} (ht : tol < 2) {s : Sol} (h : QpAns (Mat.eye 2) (Vec.ones 2) negEye (vec2 (-1) (-1)) none none tol s) :
    SolIs s 3 (vec2 1 1) (vec2 2 2) none ∧ s.active_set = some [0, 1] := by
  obtain ⟨x, lam, act, h1, h2, h3, h4, h5, h6, h7, h8, h9⟩ := h
  have s0 := h6.stat 0 (by norm_num [negEye])
  have s1 := h6.stat 1 (by norm_num [negEye])
  have c0 := h6.compl 0 (by norm_num [negEye])
  have c1 := h6.compl 1 (by norm_num [negEye])
  have f0 := h3.1 0 (by norm_num [negEye])
  have f1 := h3.1 1 (by norm_num [negEye])
  simp [negEye, sum_range_succ, Spec.eqGrad, Spec.qpGrad, Mat.eye, vec2] at s0 s1 c0 c1 f0 f1
  have x0 : x.e 0 = 1 := by
    rcases c0 with h | h <;> linarith
  have x1 : x.e 1 = 1 := by
    rcases c1 with h | h <;> linarith
  have l0 : lam.e 0 = 2 := by linarith
  have l1 : lam.e 1 = 2 := by linarith
  have hl : lam.n = 2 := h6.size
  refine ⟨⟨?_, ⟨x, h1, h2, fun i hi => ?_⟩, ⟨lam, h5, hl, fun i hi => ?_⟩, h7 rfl⟩, ?_⟩
  · rw [h4]
    simp [Spec.qpCost, sum_range_succ, x0, x1, Mat.eye]
    norm_num
  · have hi' : i < 2 := hi
    interval_cases i <;> simp [x0, x1, vec2]
  · have hi' : i < 2 := hi
    interval_cases i <;> simp [l0, l1, vec2]
  · rw [h8, h9]
    have : List.range negEye.nr = [0, 1] := rfl
    rw [this]
    simp [l0, l1, ht]

theorem qp2_is {tol : ℝ} (ht : tol < 2) (ht0 : 0 ≤ tol) {s : Sol}
    (h : QpAns (Mat.eye 2) (Vec.ones 2) negEye (vec2 (-1) (-1)) (some qpC) (some (at1 2)) tol s) :
    SolIs s 5.5 (vec2 1 2) (vec2 2 0) (some (at1 (-3))) ∧ s.active_set = some [0] := by
  obtain ⟨x, lam, act, h1, h2, h3, h4, h5, h6, -, h8, h9⟩ := h
  obtain ⟨mu, m1, m2⟩ := h6.sizeEq qpC rfl (by norm_num [qpC])
  have s0 := h6.stat 0 (by norm_num [negEye])
  have s1 := h6.stat 1 (by norm_num [negEye])
  have c0 := h6.compl 0 (by norm_num [negEye])
  have c1 := h6.compl 1 (by norm_num [negEye])
  have f0 := h3.1 0 (by norm_num [negEye])
  have f2 := h3.2 0 (by norm_num [qpC])
  rw [m1] at s0 s1
  simp [negEye, qpC, at1, sum_range_succ, Spec.eqGrad, Spec.qpGrad, Mat.eye, vec2] at s0 s1 c0 c1 f0 f2
  have x0 : x.e 0 = 1 := by
    rcases c0 with h | h <;> linarith
  have l0 : lam.e 0 = 2 := by linarith
  have l1 : lam.e 1 = 0 := by
    rcases c1 with h | h
    · exact h
    · rw [f2] at h; norm_num at h
  have hm : mu.e 0 = -3 := by linarith
  have hl : lam.n = 2 := h6.size
  refine ⟨⟨?_, ⟨x, h1, h2, fun i hi => ?_⟩, ⟨lam, h5, hl, fun i hi => ?_⟩, ⟨mu, m1, m2, fun i hi => ?_⟩⟩, ?_⟩
  · rw [h4]
    simp [Spec.qpCost, sum_range_succ, x0, f2, Mat.eye]
    norm_num
  · have hi' : i < 2 := hi
    interval_cases i <;> simp [x0, f2, vec2]
  · have hi' : i < 2 := hi
    interval_cases i <;> simp [l0, l1, vec2]
  · have hi' : i < 1 := hi
    interval_cases i
    exact hm
  · rw [h8, h9]
    have : List.range negEye.nr = [0, 1] := rfl
    rw [this]
    simp [l0, l1, ht, ht0]

theorem lp_meq_none {L : Lib} (hL : LibSpec L) {n : ℕ} {f : Vec ℝ} {A : Mat ℝ} {b : Vec ℝ} (hf : f.n = n) (hs : Spec.ConstrShape n A b none none) {tol : ℝ}
    {s : Sol} (h : Pnnls.linear_program L f A b none none tol = .ok s) : s.multiplier_equality = none := by
  obtain ⟨q, AC, bd, ys, x, r, hS, -, -, -, -, -, -, h7, h8⟩ := lp_run hL hf hs tol
  have hq : ¬ q > 0 := by
    intro hq
    obtain ⟨C', hC'⟩ := hS.qpos hq
    cases hC'
  by_cases hc : Spec.HasConstr A none
  · rw [h7 hc] at h
    cases h
    split_ifs
    · exact if_neg hq
    · rfl
  · rw [h8 hc] at h
    cases h

theorem qp_meq_none {L : Lib} (hL : LibSpec L) {n : ℕ} {H : Mat ℝ} {f : Vec ℝ} {A : Mat ℝ} {b : Vec ℝ} (hH : Spec.SymPosDef n H) (hf : f.n = n)
    (hs : Spec.ConstrShape n A b none none) {tol : ℝ} {s : Sol} (h : Pnnls.quadratic_program L H f A b none none tol = .ok s) :
    s.multiplier_equality = none := by
  obtain ⟨q, AC, bd, lam, x, t, r, hS, -, -, -, -, -, -, h7, h8⟩ := qp_run hL hH hf hs tol
  have hq : ¬ q > 0 := by
    intro hq
    obtain ⟨C', hC'⟩ := hS.qpos hq
    cases hC'
  by_cases hc : Spec.HasConstr A none
  · rw [h7 hc] at h
    cases h
    split_ifs
    · exact if_neg hq
    · rfl
  · rw [h8 hc] at h
    cases h

theorem reorganize_meq_none {G : Gurobi} {M : GModel} {A : Mat ℝ} {s : Sol} (h : Grb.reorganize G M A none = .ok s) : s.multiplier_equality = none := by
  unfold Grb.reorganize at h
  split at h
  · cases h
    rfl
  · split at h
    · cases h
    · simp only [Grb.eqMultipliers, Py.ok_bind] at h
      cases h
      rfl

theorem grb_lp_meq_none {G : Gurobi} {f : Vec ℝ} {A : Mat ℝ} {b : Vec ℝ} {d : Option (Vec ℝ)} {s : Sol} (h : Grb.linear_program G f A b none d = .ok s) :
    s.multiplier_equality = none := by
  unfold Grb.linear_program at h
  obtain ⟨M, -, h⟩ := Py.bind_eq_ok h
  obtain ⟨s', h', h⟩ := Py.bind_eq_ok h
  have := reorganize_meq_none h'
  split at h <;> cases h <;> exact this

theorem grb_qp_meq_none {G : Gurobi} {H : Mat ℝ} {f : Vec ℝ} {A : Mat ℝ} {b : Vec ℝ} {d : Option (Vec ℝ)} {tol : ℝ} {s : Sol}
    (h : Grb.quadratic_program G H f A b none d tol = .ok s) : s.multiplier_equality = none := by
  unfold Grb.quadratic_program at h
  obtain ⟨M, -, h⟩ := Py.bind_eq_ok h
  obtain ⟨s', h', h⟩ := Py.bind_eq_ok h
  have := reorganize_meq_none h'
  split at h <;> cases h <;> exact this

theorem grb_qp_active {G : Gurobi} {H : Mat ℝ} {f : Vec ℝ} {A : Mat ℝ} {b : Vec ℝ} {C : Option (Mat ℝ)} {d : Option (Vec ℝ)} {tol : ℝ} {s : Sol}
    (h : Grb.quadratic_program G H f A b C d tol = .ok s) {lam : Vec ℝ} (hl : s.multiplier_inequality = some lam) :
    s.active_set = some (whereGt lam tol) := by
  unfold Grb.quadratic_program at h
  obtain ⟨M, -, h⟩ := Py.bind_eq_ok h
  obtain ⟨s', h', h⟩ := Py.bind_eq_ok h
  split at h
  · rename_i lam' _ e
    cases h
    rw [e] at hl
    cases hl
    rfl
  · rename_i hno
    cases h
    unfold Grb.reorganize at h'
    split at h'
    · cases h'
      cases hl
    · rename_i r hr
      exact absurd hl (hno r _ hr)

/-- what either solver answers on linear programs without tiny entries that have an optimal solution -/
theorem lp_ans {L : Lib} (hL : LibSpec L) {G : Gurobi} (hG : GurobiSpec G) {n : ℕ} {f : Vec ℝ} {A : Mat ℝ} {b : Vec ℝ} {C : Option (Mat ℝ)}
    {d : Option (Vec ℝ)} (hf : f.n = n) (hs : Spec.ConstrShape n A b C d) (hr : 0 < A.nr) (ht : NoTiny f A b C d)
    (hopt : ∃ x, Spec.IsLpOpt f A b C d x) :
    (∃ s, Pnnls.linear_program L f A b C d 1e-7 = .ok s ∧ LpAns f A b C d s ∧
      ∀ l, s.multiplier_inequality = some l → s.active_set = some (whereGt l 1e-7)) ∧
    ∃ s, Grb.linear_program G f A b C d = .ok s ∧ LpAns f A b C d s := by
  constructor
  · obtain ⟨x, lam, mu, h1, h2, h3, h4⟩ := lp_finds hL hf hs (.inl hr) (tol := 1e-7) (by norm_num) hopt
    refine ⟨_, h1, ⟨x, lam, rfl, h2.trans hf.symm, h3.1, rfl, rfl, h4, ?_⟩, fun l hl => by cases hl; rfl⟩
    rintro rfl
    cases d with
    | none => exact lp_meq_none hL hf hs h1
    | some d => exact absurd hs (by simp [Spec.ConstrShape])
  · obtain ⟨-, s, h1, h2, h3, h4⟩ := C79 G hG n ⟨n, n, fun _ _ => 0⟩ f A b C d rfl rfl (fun _ _ _ _ => rfl) hf hs (fun _ _ _ _ => .inl rfl) ht 1e-5
    have hm : s.min ≠ none := fun h => h2.1 h hopt
    obtain ⟨m, hm⟩ := Option.ne_none_iff_exists'.1 hm
    obtain ⟨x, lam, k1, k2, k3, k4, k5, k6⟩ := h4 m hm
    exact ⟨s, h1, x, lam, k1, k2.trans hf.symm, k3.1, by rw [hm, k4], k5, k6, fun h => by subst h; exact grb_lp_meq_none h1⟩

/-- what either solver answers on quadratic programs without tiny entries that have an optimal solution near the unconstrained optimum `x0` -/
theorem qp_ans {L : Lib} (hL : LibSpec L) {G : Gurobi} (hG : GurobiSpec G) {n : ℕ} {H : Mat ℝ} {f : Vec ℝ} {A : Mat ℝ} {b : Vec ℝ} {C : Option (Mat ℝ)}
    {d : Option (Vec ℝ)} (hH : Spec.SymPosDef n H) (hf : f.n = n) (hs : Spec.ConstrShape n A b C d) (hr : 0 < A.nr) (hHt : Spec.NoTinyM 1e-9 H)
    (ht : NoTiny f A b C d) (hopt : ∃ x, Spec.IsQpOpt H f A b C d x) (x0 : ℕ → ℝ) (hx0 : ∀ j < n, ∑ k ∈ range n, H.e j k * x0 k + f.e j = 0)
    (hnear : ∀ x, Spec.IsQpOpt H f A b C d x → ∑ i ∈ range n, ∑ j ∈ range n, (x.e i - x0 i) * H.e i j * (x.e j - x0 j) < 1e13) :
    (∃ s, Pnnls.quadratic_program L H f A b C d 1e-7 = .ok s ∧ QpAns H f A b C d 1e-7 s) ∧
    ∃ s, Grb.quadratic_program G H f A b C d 1e-5 = .ok s ∧ QpAns H f A b C d 1e-5 s := by
  have hmeq : ∀ s : Sol, (∀ (_ : Spec.ConstrShape n A b none none), Pnnls.quadratic_program L H f A b none none 1e-7 = .ok s → s.multiplier_equality = none) :=
    fun s hs' h => qp_meq_none hL hH hf hs' h
  constructor
  · obtain ⟨s, h1, h2, -⟩ := (C35 L hL n H f A b C d hH hf hs 1e-7 (by norm_num) x0 hx0).1 (.inl hr)
    have hm : s.min ≠ none := by
      intro h
      rcases h2.1 h with hno | ⟨x, hx, hfar⟩
      · obtain ⟨x, hx⟩ := hopt
        exact hno x hx.1
      · have := hnear x hx
        norm_num at hfar this
        linarith
    obtain ⟨m, hm⟩ := Option.ne_none_iff_exists'.1 hm
    obtain ⟨x, lam, act, k1, k2, k3, -, k5, k6, k7, k8, k9, k10⟩ := C34 L hL n H f A b C d hH hf hs 1e-7 (by norm_num) s h1 m hm
    refine ⟨s, h1, x, lam, act, k1, k2.trans hf.symm, k3.1, by rw [hm, k5], k6, k7, ?_, k8, ?_⟩
    · rintro rfl
      cases d with
      | none => exact hmeq s hs h1
      | some d => exact absurd hs (by simp [Spec.ConstrShape])
    · refine List.Perm.eq_of_pairwise (le := (· < ·)) (fun a b _ _ h h' => absurd h (by omega)) k9 (List.pairwise_lt_range.filter _) ?_
      refine (List.perm_ext_iff_of_nodup (k9.imp fun h => ne_of_lt h) (List.nodup_range.filter _)).2 fun i => ?_
      rw [k10]
      simp
  · obtain ⟨⟨s, h1, h2, h3, h4⟩, -⟩ := C79 G hG n H f A b C d hH.nr hH.nc hH.symm hf hs hHt ht 1e-5
    have hm : s.min ≠ none := fun h => h2.1 h hopt
    obtain ⟨m, hm⟩ := Option.ne_none_iff_exists'.1 hm
    obtain ⟨x, lam, k1, k2, k3, k4, k5, k6, -⟩ := h4 m hm
    refine ⟨s, h1, x, lam, _, k1, k2.trans hf.symm, k3.1, by rw [hm, k4], k5, k6, fun h => by subst h; exact grb_qp_meq_none h1, grb_qp_active h1 k5, ?_⟩
    unfold whereGt
    rw [k6.size]

theorem noTiny_vec2 {a b : ℝ} (ha : a = 0 ∨ 1e-9 < |a|) (hb : b = 0 ∨ 1e-9 < |b|) : Spec.NoTinyV 1e-9 (vec2 a b) := by
  intro i hi
  have hi' : i < 2 := hi
  interval_cases i
  · exact ha
  · exact hb

theorem noTiny_negEye : Spec.NoTinyM 1e-9 negEye := by
  intro i _ j _
  by_cases h : i = j
  · right
    simp [negEye, h]
    norm_num
  · left
    simp [negEye, h]

theorem noTiny_eye (n : ℕ) : Spec.NoTinyM 1e-9 (Mat.eye n : Mat ℝ) := by
  intro i _ j _
  by_cases h : i = j
  · right
    simp [Mat.eye, h]
    norm_num
  · left
    simp [Mat.eye, h]

theorem eye_posDef : Spec.SymPosDef 2 (Mat.eye 2 : Mat ℝ) := by
  refine ⟨rfl, rfl, fun i _ j _ => by simp [Mat.eye, eq_comm], ?_⟩
  rintro x ⟨i, hi, hx⟩
  have hp := mul_self_pos.2 hx
  have h0 := mul_self_nonneg (x 0)
  have h1 := mul_self_nonneg (x 1)
  simp [sum_range_succ, Mat.eye]
  interval_cases i <;> linarith

theorem lpData1 : NoTiny (Vec.ones 2) negEye (Vec.zeros 2) none none ∧ ∃ x, Spec.IsLpOpt (Vec.ones 2) negEye (Vec.zeros 2) none none x := by
  refine ⟨⟨fun i _ => .inr (by simp; norm_num), noTiny_negEye, fun i _ => .inl rfl, nofun, nofun⟩, vec2 0 0, ⟨?_, trivial⟩, ?_⟩
  · intro i hi
    have hi' : i < 2 := hi
    interval_cases i <;> simp [negEye, vec2, sum_range_succ]
  · intro x hx
    have h0 := hx.1 0 (by norm_num [negEye])
    have h1 := hx.1 1 (by norm_num [negEye])
    simp [negEye, sum_range_succ] at h0 h1
    simp [Spec.lpCost, vec2, sum_range_succ]
    linarith

theorem lpData2 : NoTiny (Vec.ones 2) negEye (Vec.zeros 2) (some lpC) (some (at1 2)) ∧
    ∃ x, Spec.IsLpOpt (Vec.ones 2) negEye (Vec.zeros 2) (some lpC) (some (at1 2)) x := by
  refine ⟨⟨fun i _ => .inr (by simp; norm_num), noTiny_negEye, fun i _ => .inl rfl, fun _ h => ?_, fun _ h => ?_⟩, vec2 1 0, ⟨?_, ?_⟩, ?_⟩
  · cases h
    intro i _ j _
    right
    by_cases hj : j = 0 <;> simp [lpC, hj] <;> norm_num
  · cases h
    exact fun i _ => .inr (by simp [at1]; norm_num)
  · intro i hi
    have hi' : i < 2 := hi
    interval_cases i <;> simp [negEye, vec2, sum_range_succ]
  · intro i hi
    simp [lpC, vec2, sum_range_succ, at1]
  · intro x hx
    have h0 := hx.1 0 (by norm_num [negEye])
    have h1 := hx.1 1 (by norm_num [negEye])
    have h2 := hx.2 0 (by norm_num [lpC])
    simp [negEye, lpC, at1, sum_range_succ] at h0 h1 h2
    simp [Spec.lpCost, vec2, sum_range_succ]
    linarith

/-- what the two programs of the quadratic test share -/
theorem qpData {C : Option (Mat ℝ)} {d : Option (Vec ℝ)} (y : ℝ) (hy : 1 ≤ y) (hy' : y ≤ 2) (hE : Spec.Eqs C d (vec2 1 y)) (hx : ∀ x, Spec.Eqs C d x → 1 ≤ x.e 1 → y ≤ x.e 1) :
    (∃ x, Spec.IsQpOpt (Mat.eye 2) (Vec.ones 2) negEye (vec2 (-1) (-1)) C d x) ∧
    ∀ x, Spec.IsQpOpt (Mat.eye 2) (Vec.ones 2) negEye (vec2 (-1) (-1)) C d x →
      ∑ i ∈ range 2, ∑ j ∈ range 2, (x.e i - -1) * (Mat.eye 2 : Mat ℝ).e i j * (x.e j - -1) < 1e13 := by
  have hF : Spec.Feasible negEye (vec2 (-1) (-1)) C d (vec2 1 y) := by
    refine ⟨?_, hE⟩
    intro i hi
    have hi' : i < 2 := hi
    interval_cases i <;> simp [negEye, vec2, sum_range_succ]
    linarith
  have hmin : ∀ x, Spec.Feasible negEye (vec2 (-1) (-1)) C d x →
      Spec.qpCost (Mat.eye 2) (Vec.ones 2) (vec2 1 y) ≤ Spec.qpCost (Mat.eye 2) (Vec.ones 2) x := by
    intro x hx'
    have h0 := hx'.1 0 (by norm_num [negEye])
    have h1 := hx'.1 1 (by norm_num [negEye])
    simp [negEye, vec2, sum_range_succ] at h0 h1
    have h2 := hx x hx'.2 h1
    simp [Spec.qpCost, vec2, sum_range_succ, Mat.eye]
    nlinarith
  refine ⟨⟨_, hF, hmin⟩, fun x hx' => ?_⟩
  have hc := hx'.2 _ hF
  simp [Spec.qpCost, vec2, sum_range_succ, Mat.eye] at hc
  simp [sum_range_succ, Mat.eye]
  norm_num at hc ⊢
  nlinarith

/-- the mixed-integer programs of the test -/
theorem test_miqp_ok {G : Gurobi} (hG : GurobiSpec G) : test_miqp G = .ok () := by
  have tf : Spec.NoTinyV 1e-9 (vec2 0 (-0.6)) := noTiny_vec2 (.inl rfl) (.inr (by norm_num))
  have tb : Spec.NoTinyV 1e-9 (vec2 2 2) := noTiny_vec2 (.inr (by norm_num)) (.inr (by norm_num))
  obtain ⟨s1, a1, a2, a3, a4⟩ := C80 G hG 1 2 (Mat.eye 2) (vec2 0 (-0.6)) (Mat.eye 2) (vec2 2 2) none none rfl rfl rfl ⟨rfl, rfl⟩ (noTiny_eye 2)
    ⟨tf, noTiny_eye 2, tb, nofun, nofun⟩
  obtain ⟨s2, b1, b2, b3, b4⟩ := C80 G hG 1 2 (Mat.eye 2) (vec2 0 (-0.6)) (Mat.eye 2) (vec2 2 2) (some ⟨1, 2, fun _ j => if j = 0 then 1 else -1⟩)
    (some (at1 0)) rfl rfl rfl ⟨rfl, rfl, rfl, rfl⟩ (noTiny_eye 2)
    ⟨tf, noTiny_eye 2, tb, fun _ h => by
      cases h
      intro i _ j _
      right
      by_cases hj : j = 0 <;> simp [hj] <;> norm_num, fun _ h => by
      cases h
      exact fun i _ => .inl rfl⟩
  obtain ⟨s3, c1, c2, c3, -⟩ := C80 G hG 1 2 (Mat.eye 2) (vec2 0 (-0.6)) (Mat.eye 2) (vec2 2 2) (some ⟨1, 2, fun _ _ => 1⟩)
    (some (at1 5)) rfl rfl rfl ⟨rfl, rfl, rfl, rfl⟩ (noTiny_eye 2)
    ⟨tf, noTiny_eye 2, tb, fun _ h => by
      cases h
      intro i _ j _
      right
      norm_num, fun _ h => by
      cases h
      exact fun i _ => .inr (by simp [at1]; norm_num)⟩
  have cost : ∀ x : Vec ℝ, Spec.qpCost (Mat.eye 2) (vec2 0 (-0.6)) x = 1 / 2 * (x.e 0 * x.e 0 + x.e 1 * x.e 1) - 0.6 * x.e 1 := by
    intro x
    simp [Spec.qpCost, vec2, sum_range_succ, Mat.eye]
    ring
  have hbin : ∀ x : Vec ℝ, Spec.BinaryFrom 1 2 x ↔ (x.e 1 = 0 ∨ x.e 1 = 1) := by
    intro x
    refine ⟨fun h => h 1 (by norm_num) le_rfl, fun h j hj hj' => ?_⟩
    obtain rfl : j = 1 := by omega
    exact h
  have hin : ∀ a b : ℝ, a ≤ 2 → b ≤ 2 → Spec.Ineqs (Mat.eye 2) (vec2 2 2) (vec2 a b) := by
    intro a b ha hb i hi
    have hi' : i < 2 := hi
    interval_cases i <;> simp [Mat.eye, vec2, sum_range_succ, ha, hb]
  -- without equalities
  have o1 : ∀ x : Vec ℝ, Spec.BinaryFrom 1 2 x → Spec.qpCost (Mat.eye 2) (vec2 0 (-0.6)) (vec2 0 1) ≤ Spec.qpCost (Mat.eye 2) (vec2 0 (-0.6)) x := by
    intro x hx
    have hsq := mul_self_nonneg (x.e 0)
    rw [cost, cost]
    rcases (hbin x).1 hx with h | h <;> rw [h] <;> simp [vec2] <;> norm_num <;> linarith
  have f1 : Spec.Feasible (Mat.eye 2) (vec2 2 2) none none (vec2 0 1) := ⟨hin 0 1 (by norm_num) (by norm_num), trivial⟩
  have g1 : Spec.BinaryFrom 1 2 (vec2 0 1) := (hbin _).2 (.inr (by simp [vec2]))
  have m1 : s1.min ≠ none := fun h => a2.1 h ⟨_, ⟨f1, g1⟩, fun x _ hx => o1 x hx⟩
  obtain ⟨v1, m1⟩ := Option.ne_none_iff_exists'.1 m1
  obtain ⟨x1, k1, k2, -, k3, k4, k5⟩ := a4 v1 m1
  have r1 : x1.e 0 = 0 ∧ x1.e 1 = 1 := by
    have := k5 _ f1 g1
    rw [cost, cost] at this
    simp [vec2] at this
    norm_num at this
    rcases (hbin x1).1 k3 with h | h
    · rw [h] at this
      nlinarith [mul_self_nonneg (x1.e 0)]
    · rw [h] at this
      exact ⟨mul_self_eq_zero.1 (le_antisymm (by linarith) (mul_self_nonneg _)), h⟩
  -- with the equality
  have f2 : Spec.Feasible (Mat.eye 2) (vec2 2 2) (some ⟨1, 2, fun _ j => if j = 0 then 1 else -1⟩) (some (at1 0)) (vec2 0 0) := by
    refine ⟨hin 0 0 (by norm_num) (by norm_num), fun i _ => ?_⟩
    simp [vec2, at1, sum_range_succ]
  have g2 : Spec.BinaryFrom 1 2 (vec2 0 0) := (hbin _).2 (.inl (by simp [vec2]))
  have e2 : ∀ x, Spec.Feasible (Mat.eye 2) (vec2 2 2) (some ⟨1, 2, fun _ j => if j = 0 then 1 else -1⟩) (some (at1 0)) x → x.e 0 = x.e 1 := by
    intro x hx
    have := hx.2 0 (by norm_num)
    simp [at1, sum_range_succ] at this
    linarith
  have o2 : ∀ x, Spec.Feasible (Mat.eye 2) (vec2 2 2) (some ⟨1, 2, fun _ j => if j = 0 then 1 else -1⟩) (some (at1 0)) x → Spec.BinaryFrom 1 2 x →
      Spec.qpCost (Mat.eye 2) (vec2 0 (-0.6)) (vec2 0 0) ≤ Spec.qpCost (Mat.eye 2) (vec2 0 (-0.6)) x := by
    intro x hx hx'
    rw [cost, cost, e2 x hx]
    rcases (hbin x).1 hx' with h | h <;> rw [h] <;> simp [vec2] <;> norm_num
  have m2 : s2.min ≠ none := fun h => b2.1 h ⟨_, ⟨f2, g2⟩, o2⟩
  obtain ⟨v2, m2⟩ := Option.ne_none_iff_exists'.1 m2
  obtain ⟨x2, l1, l2, l3, l4, l5, l6⟩ := b4 v2 m2
  have r2 : x2.e 0 = 0 ∧ x2.e 1 = 0 := by
    have he := e2 x2 l3
    have := l6 _ f2 g2
    rw [cost, cost, he] at this
    simp [vec2] at this
    rcases (hbin x2).1 l4 with h | h
    · exact ⟨he.trans h, h⟩
    · rw [h] at this
      norm_num at this
  -- infeasible
  have m3 : s3.min = none := by
    refine c2.2 ?_
    rintro ⟨x, ⟨hx, hx'⟩, -⟩
    have h0 := hx.1 0 (by norm_num [Mat.eye])
    have h1 := hx.2 0 (by norm_num)
    simp [Mat.eye, vec2, at1, sum_range_succ] at h0 h1
    rcases (hbin x).1 hx' with h | h <;> rw [h] at h1 <;> linarith
  have q1 : Programs.mixed_integer_quadratic_program G 1 (Mat.eye 2) (vec2 0 (-0.6)) (Mat.eye 2) (vec2 2 2) none none "gurobi" = .ok s1 := a1
  have q2 : Programs.mixed_integer_quadratic_program G 1 (Mat.eye 2) (vec2 0 (-0.6)) (Mat.eye 2) (vec2 2 2)
    (some ⟨1, 2, fun _ j => if j = 0 then 1 else -1⟩) (some (at1 0)) "gurobi" = .ok s2 := b1
  have q3 : Programs.mixed_integer_quadratic_program G 1 (Mat.eye 2) (vec2 0 (-0.6)) (Mat.eye 2) (vec2 2 2)
    (some ⟨1, 2, fun _ _ => 1⟩) (some (at1 5)) "gurobi" = .ok s3 := c1
  have v1' : v1 = -0.1 := by
    rw [k4, cost, r1.1, r1.2]
    norm_num
  have v2' : v2 = 0 := by
    rw [l5, cost, r2.1, r2.2]
    norm_num
  unfold test_miqp
  rw [q1, Py.ok_bind, m1, v1', k1]
  have z1 : assertAlmostEqualO (some (-0.1)) (-0.1) = .ok () := almost_self _
  have z2 : assertAlmostEqualO (some 0) 0 = .ok () := almost_self _
  rw [z1, Py.ok_bind, almost_same k2 fun i hi => ?_, Py.ok_bind, q2, Py.ok_bind, m2, v2', l1, z2, Py.ok_bind, almost_same l2 fun i hi => ?_, Py.ok_bind, q3,
    Py.ok_bind, m3, c3.1 m3]
  · rfl
  · rw [l2] at hi
    interval_cases i <;> simp [r2.1, r2.2]
  · rw [k2] at hi
    interval_cases i <;> simp [r1.1, r1.2, vec2]

/-- C195: the test of the calls of the solvers passes with any linear algebra library within its contract, and with Gurobi for the quadratic and mixed-integer
programs.  The linear programs with Gurobi pass exactly if the basis that it reports has the expected constraints, which its contract leaves open. -/
theorem C195 (L : Lib) (hL : LibSpec L) (G : Gurobi) (hG : GurobiSpec G) :
    test_linear_program L G "pnnls" = .ok () ∧ test_quadratic_program L G "pnnls" = .ok () ∧ test_quadratic_program L G "gurobi" = .ok () ∧ test_miqp G = .ok () ∧
    ∃ s s', Programs.linear_program L G (Vec.ones 2) negEye (Vec.zeros 2) none none "gurobi" = .ok s ∧
      Programs.linear_program L G (Vec.ones 2) negEye (Vec.zeros 2) (some lpC) (some (at1 2)) "gurobi" = .ok s' ∧
      Asserts (test_linear_program L G "gurobi") (s.active_set = some [0, 1] ∧ s'.active_set = some [1]) := by
  have sh1 : Spec.ConstrShape 2 negEye (Vec.zeros 2) none none := ⟨rfl, rfl⟩
  have sh2 : Spec.ConstrShape 2 negEye (Vec.zeros 2) (some lpC) (some (at1 2)) := ⟨rfl, rfl, rfl, rfl⟩
  have sh3 : Spec.ConstrShape 2 negEye (vec2 (-1) (-1)) none none := ⟨rfl, rfl⟩
  have sh4 : Spec.ConstrShape 2 negEye (vec2 (-1) (-1)) (some qpC) (some (at1 2)) := ⟨rfl, rfl, rfl, rfl⟩
  obtain ⟨⟨s1, a1, a2, a3⟩, ⟨t1, b1, b2⟩⟩ := lp_ans hL hG (n := 2) rfl sh1 (by norm_num [negEye]) lpData1.1 lpData1.2
  obtain ⟨⟨s2, a4, a5, a6⟩, ⟨t2, b4, b5⟩⟩ := lp_ans hL hG (n := 2) rfl sh2 (by norm_num [negEye]) lpData2.1 lpData2.2
  have tiny2 : Spec.NoTinyV 1e-9 (vec2 (-1) (-1)) := noTiny_vec2 (.inr (by norm_num)) (.inr (by norm_num))
  have hx0 : ∀ j < 2, ∑ k ∈ range 2, (Mat.eye 2 : Mat ℝ).e j k * (-1) + (Vec.ones 2 : Vec ℝ).e j = 0 := by
    intro j hj
    interval_cases j <;> simp [sum_range_succ, Mat.eye]
  have d1 := qpData (C := none) (d := none) 1 (by norm_num) (by norm_num) trivial fun x _ h => h
  have d2 := qpData (C := some qpC) (d := some (at1 2)) 2 (by norm_num) (by norm_num)
    (by intro i _; simp [qpC, vec2, at1, sum_range_succ]) (by
      intro x hx _
      have := hx 0 (by norm_num [qpC])
      simp [qpC, at1, sum_range_succ] at this
      linarith)
  obtain ⟨⟨s3, a7, a8⟩, ⟨t3, b7, b8⟩⟩ := qp_ans hL hG eye_posDef rfl sh3 (by norm_num [negEye]) (noTiny_eye 2)
    ⟨fun i _ => .inr (by simp; norm_num), noTiny_negEye, tiny2, nofun, nofun⟩ d1.1 (fun _ => -1) hx0 d1.2
  obtain ⟨⟨s4, a9, a10⟩, ⟨t4, b9, b10⟩⟩ := qp_ans hL hG eye_posDef rfl sh4 (by norm_num [negEye]) (noTiny_eye 2)
    ⟨fun i _ => .inr (by simp; norm_num), noTiny_negEye, tiny2, fun _ h => by
      cases h
      intro i _ j _
      by_cases hj : j = 0
      · exact .inl (by simp [qpC, hj])
      · exact .inr (by simp [qpC, hj]; norm_num), fun _ h => by
      cases h
      exact fun i _ => .inr (by simp [at1]; norm_num)⟩ d2.1 (fun _ => -1) hx0 d2.2
  refine ⟨?_, ?_, ?_, ?_, t1, t2, b1, b4, ?_⟩
  · obtain ⟨i1, j1⟩ := lp1_is a2
    obtain ⟨i2, j2⟩ := lp2_is a5
    obtain ⟨l, hl, -⟩ := i1.lam
    obtain ⟨l', hl', -⟩ := i2.lam
    have e1 : s1.active_set = some [0, 1] := by
      obtain ⟨k1, k2, k3⟩ := j1 l hl
      rw [a3 l hl, whereGt, k1]
      have : List.range 2 = [0, 1] := rfl
      rw [this]
      norm_num [k2, k3]
    have e2 : s2.active_set = some [1] := by
      obtain ⟨k1, k2, k3⟩ := j2 l' hl'
      rw [a6 l' hl', whereGt, k1]
      have : List.range 2 = [0, 1] := rfl
      rw [this]
      norm_num [k2, k3]
    unfold test_linear_program
    have c1 : Programs.linear_program L G (Vec.ones 2) negEye (Vec.zeros 2) none none "pnnls" = .ok s1 := a1
    have c2 : Programs.linear_program L G (Vec.ones 2) negEye (Vec.zeros 2) (some lpC) (some (at1 2)) "pnnls" = .ok s2 := a4
    rw [c1, Py.ok_bind, (i1.asserts _).1 e1, Py.ok_bind, c2, Py.ok_bind, (i2.asserts _).1 e2]
  · obtain ⟨i1, e1⟩ := qp1_is (by norm_num) a8
    obtain ⟨i2, e2⟩ := qp2_is (by norm_num) (by norm_num) a10
    unfold test_quadratic_program
    have c1 : Programs.quadratic_program L G (Mat.eye 2) (Vec.ones 2) negEye (vec2 (-1) (-1)) none none "pnnls" = .ok s3 := a7
    have c2 : Programs.quadratic_program L G (Mat.eye 2) (Vec.ones 2) negEye (vec2 (-1) (-1)) (some qpC) (some (at1 2)) "pnnls" = .ok s4 := a9
    rw [c1, Py.ok_bind, (i1.asserts _).1 e1, Py.ok_bind, c2, Py.ok_bind, (i2.asserts _).1 e2]
  · obtain ⟨i1, e1⟩ := qp1_is (by norm_num) b8
    obtain ⟨i2, e2⟩ := qp2_is (by norm_num) (by norm_num) b10
    unfold test_quadratic_program
    have c1 : Programs.quadratic_program L G (Mat.eye 2) (Vec.ones 2) negEye (vec2 (-1) (-1)) none none "gurobi" = .ok t3 := b7
    have c2 : Programs.quadratic_program L G (Mat.eye 2) (Vec.ones 2) negEye (vec2 (-1) (-1)) (some qpC) (some (at1 2)) "gurobi" = .ok t4 := b9
    rw [c1, Py.ok_bind, (i1.asserts _).1 e1, Py.ok_bind, c2, Py.ok_bind, (i2.asserts _).1 e2]
  · exact test_miqp_ok hG
  · have i1 := ((lp1_is b2).1).asserts [0, 1]
    have i2 := ((lp2_is b5).1).asserts [1]
    have c1 : Programs.linear_program L G (Vec.ones 2) negEye (Vec.zeros 2) none none "gurobi" = .ok t1 := b1
    have c2 : Programs.linear_program L G (Vec.ones 2) negEye (Vec.zeros 2) (some lpC) (some (at1 2)) "gurobi" = .ok t2 := b4
    unfold test_linear_program
    rw [c1, Py.ok_bind, c2]
    refine ⟨fun p => ?_, fun p => ?_⟩
    · rw [i1.1 p.1, Py.ok_bind, Py.ok_bind, i2.1 p.2]
    · by_cases q : t1.active_set = some [0, 1]
      · rw [i1.1 q, Py.ok_bind, Py.ok_bind, i2.2 fun q' => p ⟨q, q'⟩]
      · rw [i1.2 q]
        rfl

/-- there are libraries and optimizers within the contracts -/
example : ∃ L G, LibSpec L ∧ GurobiSpec G ∧ test_linear_program L G "pnnls" = .ok () ∧ test_quadratic_program L G "gurobi" = .ok () := by
  obtain ⟨L, hL⟩ := exists_lib
  obtain ⟨G, hG⟩ := exists_gurobi
  obtain ⟨h1, -, h3, -⟩ := C195 L hL G hG
  exact ⟨L, G, hL, hG, h1, h3⟩

end Verif.Props
