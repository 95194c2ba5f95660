import Verif.Props.QpSolverTest

/-
The test of the solvers of linear programs with `pnnls` (C197).
-/
namespace Verif.Props
open Finset TestSuite

/-- the answer of `pnnls` on a linear program that has an optimal solution -/
def PLpAns (f : Vec ℝ) (A : Mat ℝ) (b : Vec ℝ) (C : Option (Mat ℝ)) (d : Option (Vec ℝ)) (s : Sol) : Prop :=
  LpAns f A b C d s ∧ ∀ l, s.multiplier_inequality = some l → s.active_set = some (whereGt l 1e-7)

theorem pnnls_lp_ans {L : Lib} (hL : LibSpec L) {n : ℕ} {f : Vec ℝ} {A : Mat ℝ} {b : Vec ℝ} {C : Option (Mat ℝ)} {d : Option (Vec ℝ)} (hf : f.n = n)
    (hs : Spec.ConstrShape n A b C d) (hr : 0 < A.nr) (hopt : ∃ x, Spec.IsLpOpt f A b C d x) :
    ∃ s, Pnnls.linear_program L f A b C d 1e-7 = .ok s ∧ PLpAns f A b C d s := by
  obtain ⟨x, lam, mu, h1, h2, h3, h4⟩ := lp_finds hL hf hs (.inl hr) (tol := 1e-7) (by norm_num) hopt
  refine ⟨_, h1, ⟨x, lam, rfl, h2.trans hf.symm, h3.1, rfl, rfl, h4, ?_⟩, fun l hl => by cases hl; rfl⟩
  rintro rfl
  cases d with
  | none => exact lp_meq_none hL hf hs h1
  | some d => exact absurd hs (by simp [Spec.ConstrShape])

/-- `pnnls` answers `None` if no point and multipliers come close to the optimality conditions -/
theorem pnnls_lp_none {L : Lib} (hL : LibSpec L) {n : ℕ} {f : Vec ℝ} {A : Mat ℝ} {b : Vec ℝ} {C : Option (Mat ℝ)} {d : Option (Vec ℝ)} (hf : f.n = n)
    (hs : Spec.ConstrShape n A b C d) (hr : 0 < A.nr)
    (hno : ∀ (x lam : Vec ℝ) (mu : Option (Vec ℝ)) (ε : ℝ), ε < 1e-7 → (∀ i < A.nr, 0 ≤ lam.e i) → Spec.FeasibleTol ε A b C d x →
      (∀ j < n, |f.e j + ∑ i ∈ range A.nr, lam.e i * A.e i j + Spec.eqGrad C mu j| ≤ ε) → False) :
    Pnnls.linear_program L f A b C d 1e-7 = .ok Sol.none := by
  obtain ⟨s, h1, -, h3⟩ := (C31 L hL n f A b C d hf hs 1e-7 (by norm_num)).1 (.inl hr)
  rw [h1, h3.1]
  by_contra hm
  obtain ⟨m, hm⟩ := Option.ne_none_iff_exists'.1 hm
  obtain ⟨x, lam, ε, k1, -, -, -, k5, k6, k7, -⟩ := C32_partial L hL n f A b C d hf hs 1e-7 s m h1 hm
  exact hno x lam _ ε k1 k5 k6 k7

/-- duality of linear programs without equalities -/
theorem kkt_dual {g : ℕ → ℝ} {A : Mat ℝ} {b x lam : Vec ℝ} {mu : Option (Vec ℝ)} (h : Spec.KKT g A b none x lam mu) :
    ∑ i ∈ range A.nr, lam.e i * b.e i = - ∑ j ∈ range A.nc, g j * x.e j := by
  have e1 : ∑ i ∈ range A.nr, lam.e i * b.e i = ∑ i ∈ range A.nr, lam.e i * ∑ j ∈ range A.nc, A.e i j * x.e j :=
    sum_congr rfl fun i hi => by
      have := h.compl i (mem_range.1 hi)
      linarith
  have e2 : ∑ j ∈ range A.nc, (g j + ∑ i ∈ range A.nr, lam.e i * A.e i j) * x.e j = 0 :=
    sum_eq_zero fun j hj => by
      have := h.stat j (mem_range.1 hj)
      simp only [Spec.eqGrad, add_zero] at this
      rw [this, zero_mul]
  have e3 : ∑ i ∈ range A.nr, lam.e i * ∑ j ∈ range A.nc, A.e i j * x.e j = ∑ j ∈ range A.nc, (∑ i ∈ range A.nr, lam.e i * A.e i j) * x.e j := by
    simp only [mul_sum, sum_mul]
    rw [sum_comm]
    exact sum_congr rfl fun _ _ => sum_congr rfl fun _ _ => by ring
  simp only [add_mul, sum_add_distrib] at e2
  rw [e1, e3]
  linarith

/-- the right-hand side of the first program -/
def boxB : Vec ℝ := ⟨4, fun i => if i < 2 then 5 else 1⟩

theorem box_is {s : Sol} (h : PLpAns (Vec.ones 2) boxA boxB none none s) :
    checkSol s (-6) (vec2 (-5) (-1)) [1, 3] ⟨4, fun i => if i = 1 ∨ i = 3 then 1 else 0⟩ none = .ok () := by
  obtain ⟨⟨x, lam, h1, h2, h3, h4, h5, h6, h7⟩, h8⟩ := h
  have s0 := h6.stat 0 (by norm_num [boxA])
  have s1 := h6.stat 1 (by norm_num [boxA])
  have c0 := h6.compl 0 (by norm_num [boxA])
  have c1 := h6.compl 1 (by norm_num [boxA])
  have c2 := h6.compl 2 (by norm_num [boxA])
  have c3 := h6.compl 3 (by norm_num [boxA])
  have p0 := h6.nonneg 0 (by norm_num [boxA])
  have p2 := h6.nonneg 2 (by norm_num [boxA])
  simp [boxA, boxB, sum_range_succ, Spec.eqGrad] at s0 s1 c0 c1 c2 c3
  have x0 : x.e 0 = -5 := by
    rcases c1 with h | h <;> linarith
  have x1 : x.e 1 = -1 := by
    rcases c3 with h | h <;> linarith
  have l0 : lam.e 0 = 0 := by
    rcases c0 with h | h
    · exact h
    · rw [x0] at h; norm_num at h
  have l2 : lam.e 2 = 0 := by
    rcases c2 with h | h
    · exact h
    · rw [x1] at h; norm_num at h
  have l1 : lam.e 1 = 1 := by linarith
  have l3 : lam.e 3 = 1 := by linarith
  have hl : lam.n = 4 := h6.size
  have key : SolIs s (-6) (vec2 (-5) (-1)) ⟨4, fun i => if i = 1 ∨ i = 3 then 1 else 0⟩ none := by
    refine ⟨?_, ⟨x, h1, h2, fun i hi => ?_⟩, ⟨lam, h5, hl, fun i hi => ?_⟩, h7 rfl⟩
    · rw [h4]
      simp [Spec.lpCost, sum_range_succ, x0, x1]
      norm_num
    · have hi' : i < 2 := hi
      interval_cases i <;> simp [x0, x1, vec2]
    · have hi' : i < 4 := hi
      interval_cases i <;> simp [l0, l1, l2, l3]
  refine (key.asserts _).1 ?_
  rw [h8 lam h5, whereGt, hl]
  have : List.range 4 = [0, 1, 2, 3] := rfl
  rw [this]
  norm_num [l0, l1, l2, l3]

theorem lp1_check {s : Sol} (h : PLpAns (Vec.ones 2) negEye (Vec.zeros 2) none none s) :
    checkSol s 0 (Vec.zeros 2) [0, 1] (Vec.ones 2) none = .ok () := by
  obtain ⟨k1, k2⟩ := lp1_is h.1
  obtain ⟨x, lam, -, -, -, -, h5, -⟩ := h.1
  obtain ⟨hl, l0, l1⟩ := k2 lam h5
  refine (k1.asserts _).1 ?_
  rw [h.2 lam h5, whereGt, hl]
  have : List.range 2 = [0, 1] := rfl
  rw [this]
  norm_num [l0, l1]

theorem lp2_check {s : Sol} (h : PLpAns (Vec.ones 2) negEye (Vec.zeros 2) (some lpC) (some (at1 2)) s) :
    checkSol s 1 (vec2 1 0) [1] (vec2 0 0.5) (some (at1 (-0.5))) = .ok () := by
  obtain ⟨k1, k2⟩ := lp2_is h.1
  obtain ⟨x, lam, -, -, -, -, h5, -⟩ := h.1
  obtain ⟨hl, l0, l1⟩ := k2 lam h5
  refine (k1.asserts _).1 ?_
  rw [h.2 lam h5, whereGt, hl]
  have : List.range 2 = [0, 1] := rfl
  rw [this]
  norm_num [l0, l1]

/-- `np.array([[1., -1.]])` -/
def diffC : Mat ℝ := ⟨1, 2, fun _ j => if j = 0 then 1 else -1⟩

theorem diff_is {s : Sol} (h : PLpAns (Vec.ones 2) unbA (vec3 0 0 1) (some diffC) (some (at1 0)) s) :
    checkSol s (-2) (vec2 (-1) (-1)) [2] (vec3 0 0 2) (some (at1 (-1))) = .ok () := by
  obtain ⟨⟨x, lam, h1, h2, h3, h4, h5, h6, -⟩, h8⟩ := h
  obtain ⟨mu, m1, m2⟩ := h6.sizeEq diffC rfl (by norm_num [diffC])
  have s0 := h6.stat 0 (by norm_num [unbA])
  have s1 := h6.stat 1 (by norm_num [unbA])
  have c0 := h6.compl 0 (by norm_num [unbA])
  have c1 := h6.compl 1 (by norm_num [unbA])
  have c2 := h6.compl 2 (by norm_num [unbA])
  have p0 := h6.nonneg 0 (by norm_num [unbA])
  have p1 := h6.nonneg 1 (by norm_num [unbA])
  have f0 := h3.2 0 (by norm_num [diffC])
  rw [m1] at s0 s1
  simp [unbA, vec3, diffC, at1, sum_range_succ, Spec.eqGrad] at s0 s1 c0 c1 c2 f0
  have x1 : x.e 1 = -1 := by
    rcases c2 with h | h <;> linarith
  have x0 : x.e 0 = -1 := by linarith
  have l0 : lam.e 0 = 0 := by
    rcases c0 with h | h
    · exact h
    · rw [x0] at h; norm_num at h
  have l1 : lam.e 1 = 0 := by
    rcases c1 with h | h
    · exact h
    · rw [x1] at h; norm_num at h
  have hm : mu.e 0 = -1 := by linarith
  have l2 : lam.e 2 = 2 := by linarith
  have hl : lam.n = 3 := h6.size
  have key : SolIs s (-2) (vec2 (-1) (-1)) (vec3 0 0 2) (some (at1 (-1))) := by
    refine ⟨?_, ⟨x, h1, h2, fun i hi => ?_⟩, ⟨lam, h5, hl, fun i hi => ?_⟩, ⟨mu, m1, m2, fun i hi => ?_⟩⟩
    · rw [h4]
      simp [Spec.lpCost, sum_range_succ, x0, x1]
      norm_num
    · have hi' : i < 2 := hi
      interval_cases i <;> simp [x0, x1, vec2]
    · have hi' : i < 3 := hi
      interval_cases i <;> simp [l0, l1, l2, vec3]
    · have hi' : i < 1 := hi
      interval_cases i
      exact hm
  refine (key.asserts _).1 ?_
  rw [h8 lam h5, whereGt, hl]
  have : List.range 3 = [0, 1, 2] := rfl
  rw [this]
  norm_num [l0, l1, l2]

/-- `np.array([[0., -1.]])` -/
def lowA : Mat ℝ := ⟨1, 2, fun _ j => if j = 1 then -1 else 0⟩

theorem low_is {s : Sol} (h : PLpAns (vec2 0 1) lowA (Vec.zeros 1) none none s) : checkEntry s 0 1 0 [0] (at1 1) = .ok () := by
  obtain ⟨⟨x, lam, h1, h2, h3, h4, h5, h6, h7⟩, h8⟩ := h
  have s1 := h6.stat 1 (by norm_num [lowA])
  have c0 := h6.compl 0 (by norm_num [lowA])
  simp [lowA, vec2, sum_range_succ, Spec.eqGrad] at s1 c0
  have l0 : lam.e 0 = 1 := by linarith
  have x1 : x.e 1 = 0 := by
    rcases c0 with h | h
    · rw [h] at l0; norm_num at l0
    · exact h
  have hl : lam.n = 1 := h6.size
  have hm : s.min = some 0 := by
    rw [h4]
    simp [Spec.lpCost, vec2, sum_range_succ, x1]
  refine (checkEntry_asserts (act := [0]) (l := at1 1) hm h1 (show 1 < x.n by rw [h2]; simp [vec2]) x1 h5 (h7 rfl) hl).1 ⟨?_, fun i hi => ?_⟩
  · rw [h8 lam h5, whereGt, hl]
    have : List.range 1 = [0] := rfl
    rw [this]
    norm_num [l0]
  · have hi' : i < 1 := hi
    interval_cases i
    norm_num [l0, at1]

theorem thin_is {s : Sol} (h : PLpAns (vec2 1 0) thinA (Vec.zeros 2) none none s) :
    ∃ lam : Vec ℝ, s.multiplier_inequality = some lam ∧ 0 ≤ lam.e 0 ∧ lam.e 1 = 1 + lam.e 0 ∧
      Asserts (checkEntry s 0 0 0 [1] (vec2 0 1)) (lam.e 0 ≤ 1e-7) := by
  obtain ⟨⟨x, lam, h1, h2, h3, h4, h5, h6, h7⟩, h8⟩ := h
  have s0 := h6.stat 0 (by norm_num [thinA])
  have p0 := h6.nonneg 0 (by norm_num [thinA])
  have f0 := h3.1 0 (by norm_num [thinA])
  have f1 := h3.1 1 (by norm_num [thinA])
  simp [thinA, vec2, sum_range_succ, Spec.eqGrad] at s0 f0 f1
  have x0 : x.e 0 = 0 := le_antisymm f0 f1
  have l1 : lam.e 1 = 1 + lam.e 0 := by linarith
  have hl : lam.n = 2 := h6.size
  have hm : s.min = some 0 := by
    rw [h4]
    simp [Spec.lpCost, vec2, sum_range_succ, x0]
  refine ⟨lam, h5, p0, l1, ?_⟩
  have key := checkEntry_asserts (act := [1]) (l := vec2 0 1) hm h1 (show 0 < x.n by rw [h2]; simp [vec2]) x0 h5 (h7 rfl) hl
  have e : (s.active_set = some [1] ∧ ∀ i < (vec2 0 1).n, |lam.e i - (vec2 0 1).e i| < 1.5e-6) ↔ lam.e 0 ≤ 1e-7 := by
    have ha : s.active_set = some [1] ↔ lam.e 0 ≤ 1e-7 := by
      rw [h8 lam h5, whereGt, hl]
      have : List.range 2 = [0, 1] := rfl
      have h1' : (1e-7 : ℝ) < lam.e 1 := by
        have : (1e-7 : ℝ) < 1 := by norm_num
        linarith
      rw [this]
      by_cases hc : (1e-7 : ℝ) < lam.e 0
      · simp [hc, h1']
      · simp [hc, h1', not_lt.1 hc]
    rw [ha]
    refine and_iff_left_of_imp fun h i hi => ?_
    have h' : lam.e 0 < 1.5e-6 := lt_of_le_of_lt h (by norm_num)
    have hi' : i < 2 := hi
    interval_cases i
    · simpa [vec2, abs_of_nonneg p0] using h'
    · simpa [vec2, l1, abs_of_nonneg p0] using h'
  exact ⟨fun p => key.1 (e.2 p), fun p => key.2 fun q => p (e.1 q)⟩

/-- stationarity, signs, duality and feasibility of the programs in three dimensions -/
theorem ball_facts {f x lam : Vec ℝ} {mu : Option (Vec ℝ)} (hf : Spec.Feasible ballA ballB none none x) (h : Spec.KKT f.e ballA ballB none x lam mu) :
    (f.e 0 + (lam.e 0 - lam.e 1 + lam.e 2 + lam.e 3 - lam.e 4 + lam.e 5 - lam.e 6 - lam.e 7 + lam.e 8) = 0 ∧
      f.e 1 + (lam.e 0 + lam.e 1 - lam.e 2 + lam.e 3 - lam.e 4 - lam.e 5 + lam.e 6 - lam.e 7) = 0 ∧
      f.e 2 + (lam.e 0 + lam.e 1 + lam.e 2 - lam.e 3 + lam.e 4 - lam.e 5 - lam.e 6 - lam.e 7) = 0) ∧
    lam.e 0 + lam.e 1 + lam.e 2 + lam.e 3 + lam.e 4 + lam.e 5 + lam.e 6 + lam.e 7 + lam.e 8 / 2 = - (f.e 0 * x.e 0 + f.e 1 * x.e 1 + f.e 2 * x.e 2) ∧
    (x.e 0 + x.e 1 ≤ 1 ∧ - (x.e 0 + x.e 1) ≤ 1 ∧ x.e 0 ≤ 1 / 2) := by
  have s0 := h.stat 0 (by norm_num [ballA])
  have s1 := h.stat 1 (by norm_num [ballA])
  have s2 := h.stat 2 (by norm_num [ballA])
  have hd := kkt_dual h
  have f0 := hf.1 0 (by norm_num [ballA])
  have f3 := hf.1 3 (by norm_num [ballA])
  have f4 := hf.1 4 (by norm_num [ballA])
  have f7 := hf.1 7 (by norm_num [ballA])
  have f8 := hf.1 8 (by norm_num [ballA])
  norm_num [ballA, ballB, sum_range_succ, Spec.eqGrad] at s0 s1 s2 hd f0 f3 f4 f7 f8
  refine ⟨⟨by linarith, by linarith, by linarith⟩, by linarith, by linarith, by linarith, by linarith⟩

/-- the feasible points of these programs -/
theorem ball_feasible {x : Vec ℝ} : Spec.Feasible ballA ballB none none x ↔
    (x.e 0 + x.e 1 + x.e 2 ≤ 1 ∧ -x.e 0 + x.e 1 + x.e 2 ≤ 1 ∧ x.e 0 - x.e 1 + x.e 2 ≤ 1 ∧ x.e 0 + x.e 1 - x.e 2 ≤ 1 ∧
      -x.e 0 - x.e 1 + x.e 2 ≤ 1 ∧ x.e 0 - x.e 1 - x.e 2 ≤ 1 ∧ -x.e 0 + x.e 1 - x.e 2 ≤ 1 ∧ -x.e 0 - x.e 1 - x.e 2 ≤ 1 ∧ x.e 0 ≤ 1 / 2) := by
  constructor
  · intro hf
    have f0 := hf.1 0 (by norm_num [ballA])
    have f1 := hf.1 1 (by norm_num [ballA])
    have f2 := hf.1 2 (by norm_num [ballA])
    have f3 := hf.1 3 (by norm_num [ballA])
    have f4 := hf.1 4 (by norm_num [ballA])
    have f5 := hf.1 5 (by norm_num [ballA])
    have f6 := hf.1 6 (by norm_num [ballA])
    have f7 := hf.1 7 (by norm_num [ballA])
    have f8 := hf.1 8 (by norm_num [ballA])
    norm_num [ballA, ballB, sum_range_succ] at f0 f1 f2 f3 f4 f5 f6 f7 f8
    refine ⟨?_, ?_, ?_, ?_, ?_, ?_, ?_, ?_, ?_⟩ <;> linarith
  · rintro ⟨f0, f1, f2, f3, f4, f5, f6, f7, f8⟩
    refine ⟨fun i hi => ?_, trivial⟩
    have hi' : i < 9 := hi
    interval_cases i <;> norm_num [ballA, ballB, sum_range_succ] <;> linarith

theorem ball1_is {s : Sol} (h : PLpAns (vec3 (-1) 0 0) ballA ballB none none s) :
    s.min = some (-0.5) ∧ (∃ x : Vec ℝ, s.argmin = some x ∧ x.n = 3 ∧ x.e 0 = 0.5) ∧ (∃ act, s.active_set = some act ∧ 8 ∈ act) ∧
    (∃ lam : Vec ℝ, s.multiplier_inequality = some lam ∧ lam.n = 9 ∧ ∀ i < 9, lam.e i = if i = 8 then 1 else 0) ∧ s.multiplier_equality = none := by
  obtain ⟨⟨x, lam, h1, h2, h3, h4, h5, h6, h7⟩, h8⟩ := h
  obtain ⟨⟨s0, s1, s2⟩, hd, g1, g2, g3⟩ := ball_facts h3 h6
  simp only [vec3, if_true, if_false, one_ne_zero, OfNat.ofNat_ne_zero, OfNat.ofNat_ne_one] at s0 s1 s2 hd
  have p : ∀ i < 9, 0 ≤ lam.e i := h6.nonneg
  have p0 := p 0 (by norm_num)
  have p1 := p 1 (by norm_num)
  have p2 := p 2 (by norm_num)
  have p3 := p 3 (by norm_num)
  have p4 := p 4 (by norm_num)
  have p5 := p 5 (by norm_num)
  have p6 := p 6 (by norm_num)
  have p7 := p 7 (by norm_num)
  have l0 : lam.e 0 = 0 := by linarith
  have l1 : lam.e 1 = 0 := by linarith
  have l2 : lam.e 2 = 0 := by linarith
  have l3 : lam.e 3 = 0 := by linarith
  have l4 : lam.e 4 = 0 := by linarith
  have l5 : lam.e 5 = 0 := by linarith
  have l6 : lam.e 6 = 0 := by linarith
  have l7 : lam.e 7 = 0 := by linarith
  have l8 : lam.e 8 = 1 := by linarith
  have x0 : x.e 0 = 0.5 := by norm_num; linarith
  have hl : lam.n = 9 := h6.size
  refine ⟨?_, ⟨x, h1, h2, x0⟩, ⟨_, h8 lam h5, ?_⟩, ⟨lam, h5, hl, fun i hi => ?_⟩, h7 rfl⟩
  · rw [h4]
    simp [Spec.lpCost, vec3, x0]
  · rw [whereGt, hl]
    simp [l8]
    norm_num
  · interval_cases i <;> simp [l0, l1, l2, l3, l4, l5, l6, l7, l8]

theorem ball2_is {s : Sol} (h : PLpAns (vec3 (-1) (-0.1) 0) ballA ballB none none s) :
    checkSol s (-0.55) (vec3 0.5 0.5 0) [0, 3, 8] ⟨9, fun i => if i = 0 ∨ i = 3 then 0.05 else if i = 8 then 0.9 else 0⟩ none = .ok () := by
  obtain ⟨⟨x, lam, h1, h2, h3, h4, h5, h6, h7⟩, h8⟩ := h
  obtain ⟨⟨s0, s1, s2⟩, hd, g1, g2, g3⟩ := ball_facts h3 h6
  simp only [vec3, if_true, if_false, one_ne_zero, OfNat.ofNat_ne_zero, OfNat.ofNat_ne_one] at s0 s1 s2 hd
  norm_num at s0 s1 s2 hd
  have p : ∀ i < 9, 0 ≤ lam.e i := h6.nonneg
  have p0 := p 0 (by norm_num)
  have p1 := p 1 (by norm_num)
  have p2 := p 2 (by norm_num)
  have p3 := p 3 (by norm_num)
  have p4 := p 4 (by norm_num)
  have p5 := p 5 (by norm_num)
  have p6 := p 6 (by norm_num)
  have p7 := p 7 (by norm_num)
  have l1 : lam.e 1 = 0 := by linarith
  have l2 : lam.e 2 = 0 := by linarith
  have l4 : lam.e 4 = 0 := by linarith
  have l5 : lam.e 5 = 0 := by linarith
  have l6 : lam.e 6 = 0 := by linarith
  have l7 : lam.e 7 = 0 := by linarith
  have l0 : lam.e 0 = 0.05 := by norm_num; linarith
  have l3 : lam.e 3 = 0.05 := by norm_num; linarith
  have l8 : lam.e 8 = 0.9 := by norm_num at l0 l3 ⊢; linarith
  have c0 := h6.compl 0 (by norm_num [ballA])
  have c3 := h6.compl 3 (by norm_num [ballA])
  have c8 := h6.compl 8 (by norm_num [ballA])
  rw [l0] at c0
  rw [l3] at c3
  rw [l8] at c8
  norm_num [ballA, ballB, sum_range_succ] at c0 c3 c8
  have x0 : x.e 0 = 0.5 := by norm_num; linarith
  have x1 : x.e 1 = 0.5 := by norm_num at x0 ⊢; linarith
  have x2 : x.e 2 = 0 := by linarith
  have hl : lam.n = 9 := h6.size
  have key : SolIs s (-0.55) (vec3 0.5 0.5 0) ⟨9, fun i => if i = 0 ∨ i = 3 then 0.05 else if i = 8 then 0.9 else 0⟩ none := by
    refine ⟨?_, ⟨x, h1, h2, fun i hi => ?_⟩, ⟨lam, h5, hl, fun i hi => ?_⟩, h7 rfl⟩
    · rw [h4]
      simp [Spec.lpCost, vec3, sum_range_succ, x0, x1]
      norm_num
    · have hi' : i < 3 := hi
      interval_cases i <;> simp [x0, x1, x2, vec3]
    · have hi' : i < 9 := hi
      interval_cases i <;> simp [l0, l1, l2, l3, l4, l5, l6, l7, l8]
  refine (key.asserts _).1 ?_
  rw [h8 lam h5, whereGt, hl]
  have : List.range 9 = [0, 1, 2, 3, 4, 5, 6, 7, 8] := rfl
  rw [this]
  norm_num [l0, l1, l2, l3, l4, l5, l6, l7, l8]

theorem ball3_is {s : Sol} (h : PLpAns (vec3 1 1 0) ballA ballB none none s) :
    s.min = some (-1) ∧ (∃ x : Vec ℝ, s.argmin = some x ∧ x.n = 3 ∧ x.e 0 + x.e 1 = -1) ∧ (∃ act, s.active_set = some act ∧ 4 ∈ act ∧ 7 ∈ act) ∧
    (∃ lam : Vec ℝ, s.multiplier_inequality = some lam ∧ lam.n = 9 ∧ lam.e 4 = 0.5 ∧ lam.e 7 = 0.5) ∧ s.multiplier_equality = none := by
  obtain ⟨⟨x, lam, h1, h2, h3, h4, h5, h6, h7⟩, h8⟩ := h
  obtain ⟨⟨s0, s1, s2⟩, hd, g1, g2, g3⟩ := ball_facts h3 h6
  simp only [vec3, if_true, if_false, one_ne_zero, OfNat.ofNat_ne_zero, OfNat.ofNat_ne_one] at s0 s1 s2 hd
  have p : ∀ i < 9, 0 ≤ lam.e i := h6.nonneg
  have p0 := p 0 (by norm_num)
  have p1 := p 1 (by norm_num)
  have p2 := p 2 (by norm_num)
  have p3 := p 3 (by norm_num)
  have p5 := p 5 (by norm_num)
  have p6 := p 6 (by norm_num)
  have p8 := p 8 (by norm_num)
  have l0 : lam.e 0 = 0 := by linarith
  have l1 : lam.e 1 = 0 := by linarith
  have l2 : lam.e 2 = 0 := by linarith
  have l3 : lam.e 3 = 0 := by linarith
  have l5 : lam.e 5 = 0 := by linarith
  have l6 : lam.e 6 = 0 := by linarith
  have l8 : lam.e 8 = 0 := by linarith
  have l4 : lam.e 4 = 0.5 := by norm_num; linarith
  have l7 : lam.e 7 = 0.5 := by norm_num; linarith
  have hx : x.e 0 + x.e 1 = -1 := by norm_num at l4 l7; linarith
  have hl : lam.n = 9 := h6.size
  refine ⟨?_, ⟨x, h1, h2, hx⟩, ⟨_, h8 lam h5, ?_, ?_⟩, ⟨lam, h5, hl, l4, l7⟩, h7 rfl⟩
  · rw [h4, ← hx]
    simp [Spec.lpCost, vec3, sum_range_succ]
  · rw [whereGt, hl]
    simp [l4]
    norm_num
  · rw [whereGt, hl]
    simp [l7]
    norm_num

theorem lpBall_ok {lp : Vec ℝ → Mat ℝ → Vec ℝ → Option (Mat ℝ) → Option (Vec ℝ) → Py Sol}
    (h1 : ∃ s, lp (vec3 (-1) 0 0) ballA ballB none none = .ok s ∧ PLpAns (vec3 (-1) 0 0) ballA ballB none none s)
    (h2 : ∃ s, lp (vec3 (-1) (-0.1) 0) ballA ballB none none = .ok s ∧ PLpAns (vec3 (-1) (-0.1) 0) ballA ballB none none s)
    (h3 : ∃ s, lp (vec3 1 1 0) ballA ballB none none = .ok s ∧ PLpAns (vec3 1 1 0) ballA ballB none none s) : lpBall lp = .ok () := by
  obtain ⟨s1, a1, b1⟩ := h1
  obtain ⟨s2, a2, b2⟩ := h2
  obtain ⟨s3, a3, b3⟩ := h3
  obtain ⟨m1, ⟨x1, e1, n1, v1⟩, ⟨c1, d1, i1⟩, ⟨l1, k1, j1, w1⟩, q1⟩ := ball1_is b1
  obtain ⟨m3, ⟨x3, e3, n3, v3⟩, ⟨c3, d3, i3, i3'⟩, ⟨l3, k3, j3, w3, w3'⟩, q3⟩ := ball3_is b3
  have r1 : assertAlmostEqualO (some (-0.5)) (-0.5) = .ok () := almost_self _
  have r2 : entryOf (some x1) 0 = .ok 0.5 := by rw [← v1]; exact if_pos (by omega)
  have r3 : assertIn 8 (some c1) = .ok () := by simp [assertIn, assertTrue, i1]
  have r4 : assertArrayAlmostEqual (some l1) (some ⟨9, fun i => if i = 8 then 1 else 0⟩) = .ok () := almost_same j1 fun i hi => w1 i (j1 ▸ hi)
  have r5 : assertAlmostEqualO (some (-1)) (-1) = .ok () := almost_self _
  have r6 : entryOf (some x3) 0 = .ok (x3.e 0) := if_pos (by omega)
  have r7 : entryOf (some x3) 1 = .ok (x3.e 1) := if_pos (by omega)
  have r8 : assertIn 4 (some c3) = .ok () := by simp [assertIn, assertTrue, i3]
  have r9 : assertIn 7 (some c3) = .ok () := by simp [assertIn, assertTrue, i3']
  have r10 : entryOf (some l3) 4 = .ok 0.5 := by rw [← w3]; exact if_pos (by omega)
  have r11 : entryOf (some l3) 7 = .ok 0.5 := by rw [← w3']; exact if_pos (by omega)
  unfold lpBall
  simp only [a1, a2, a3, m1, e1, d1, k1, q1, m3, e3, d3, k3, q3, r1, r2, r3, r4, r5, r6, r7, r8, r9, r10, r11, ball2_is b2, v3, almost_self, Py.ok_bind]
  rfl

/-- C197, what holds of the test of the solvers of linear programs with `pnnls`: with any library within the contract all its assertions pass but those on
the multipliers and the active set of the last program.  These multipliers are not unique: they are `(l, 1 + l)`, and the test passes exactly if the solver
finds an `l` that is almost zero. -/
theorem C197_partial (L : Lib) (hL : LibSpec L) :
    ∃ s lam, Pnnls.linear_program L (vec2 1 0) thinA (Vec.zeros 2) none none = .ok s ∧ s.multiplier_inequality = some lam ∧
      0 ≤ lam.e 0 ∧ lam.e 1 = 1 + lam.e 0 ∧ Asserts (test_lp_solver fun f A b C d => Pnnls.linear_program L f A b C d) (lam.e 0 ≤ 1e-7) := by
  have sh1 : Spec.ConstrShape 2 boxA boxB none none := ⟨rfl, rfl⟩
  have sh2 : Spec.ConstrShape 2 negEye (Vec.zeros 2) none none := ⟨rfl, rfl⟩
  have sh3 : Spec.ConstrShape 2 negEye (Vec.zeros 2) (some lpC) (some (at1 2)) := ⟨rfl, rfl, rfl, rfl⟩
  have sh4 : Spec.ConstrShape 2 infA (vec2 0 (-1)) none none := ⟨rfl, rfl⟩
  have sh5 : Spec.ConstrShape 2 unbA (vec3 0 0 1) none none := ⟨rfl, rfl⟩
  have sh6 : Spec.ConstrShape 2 unbA (vec3 0 0 1) (some qpC) (some (at1 (-0.1))) := ⟨rfl, rfl, rfl, rfl⟩
  have sh7 : Spec.ConstrShape 2 unbA (vec3 0 0 1) (some diffC) (some (at1 0)) := ⟨rfl, rfl, rfl, rfl⟩
  have sh8 : Spec.ConstrShape 2 lowA (Vec.zeros 1) none none := ⟨rfl, rfl⟩
  have sh9 : Spec.ConstrShape 3 ballA ballB none none := ⟨rfl, rfl⟩
  have sh10 : Spec.ConstrShape 2 thinA (Vec.zeros 2) none none := ⟨rfl, rfl⟩
  have heps : (1e-7 : ℝ) < 1 / 2 := by norm_num
  obtain ⟨s1, a1, b1⟩ := pnnls_lp_ans hL (f := Vec.ones 2) rfl sh1 (by norm_num [boxA]) ⟨vec2 (-5) (-1), by
    refine ⟨⟨fun i hi => ?_, trivial⟩, fun x hx => ?_⟩
    · have hi' : i < 4 := hi
      interval_cases i <;> norm_num [boxA, boxB, vec2, sum_range_succ]
    · have f1 := hx.1 1 (by norm_num [boxA])
      have f3 := hx.1 3 (by norm_num [boxA])
      norm_num [boxA, boxB, sum_range_succ] at f1 f3
      simp [Spec.lpCost, vec2, sum_range_succ]
      linarith⟩
  obtain ⟨s2, a2, b2⟩ := pnnls_lp_ans hL (f := Vec.ones 2) rfl sh2 (by norm_num [negEye]) lpData1.2
  obtain ⟨s3, a3, b3⟩ := pnnls_lp_ans hL (f := Vec.ones 2) rfl sh3 (by norm_num [negEye]) lpData2.2
  have a4 := pnnls_lp_none hL (f := Vec.ones 2) rfl sh4 (by norm_num [infA]) (by
    intro x lam mu ε he _ hx _
    have f0 := hx.1 0 (by norm_num [infA])
    have f1 := hx.1 1 (by norm_num [infA])
    norm_num [infA, vec2, sum_range_succ] at f0 f1
    linarith)
  have a5 := pnnls_lp_none hL (f := Vec.ones 2) rfl sh5 (by norm_num [unbA]) (by
    intro x lam mu ε he hl _ hs
    have p0 := hl 0 (by norm_num [unbA])
    have k := abs_le.1 (hs 0 (by norm_num))
    norm_num [unbA, sum_range_succ, Spec.eqGrad] at k
    linarith)
  have a6 := pnnls_lp_none hL (f := Vec.ones 2) rfl sh6 (by norm_num [unbA]) (by
    intro x lam mu ε he hl _ hs
    have p0 := hl 0 (by norm_num [unbA])
    have e : Spec.eqGrad (some qpC) mu 0 = 0 := by
      cases mu with
      | none => rfl
      | some mu => simp [Spec.eqGrad, qpC]
    have k := abs_le.1 (hs 0 (by norm_num))
    rw [e] at k
    norm_num [unbA, sum_range_succ] at k
    linarith)
  obtain ⟨s7, a7, b7⟩ := pnnls_lp_ans hL (f := Vec.ones 2) rfl sh7 (by norm_num [unbA]) ⟨vec2 (-1) (-1), by
    refine ⟨⟨fun i hi => ?_, fun i hi => ?_⟩, fun x hx => ?_⟩
    · have hi' : i < 3 := hi
      interval_cases i <;> norm_num [unbA, vec3, vec2, sum_range_succ]
    · norm_num [diffC, vec2, at1, sum_range_succ]
    · have f2 := hx.1 2 (by norm_num [unbA])
      have f3 := hx.2 0 (by norm_num [diffC])
      norm_num [unbA, vec3, diffC, at1, sum_range_succ] at f2 f3
      simp [Spec.lpCost, vec2, sum_range_succ]
      linarith⟩
  obtain ⟨s8, a8, b8⟩ := pnnls_lp_ans hL (f := vec2 0 1) rfl sh8 (by norm_num [lowA]) ⟨Vec.zeros 2, by
    refine ⟨⟨fun i hi => ?_, trivial⟩, fun x hx => ?_⟩
    · simp
    · have f0 := hx.1 0 (by norm_num [lowA])
      norm_num [lowA, sum_range_succ] at f0
      simpa [Spec.lpCost, vec2, sum_range_succ] using f0⟩
  have t1 := pnnls_lp_ans hL (f := vec3 (-1) 0 0) rfl sh9 (by norm_num [ballA]) ⟨vec3 0.5 0 0, by
    refine ⟨ball_feasible.2 (by norm_num [vec3]), fun x hx => ?_⟩
    obtain ⟨-, -, -, -, -, -, -, -, f8⟩ := ball_feasible.1 hx
    simp [Spec.lpCost, vec3, sum_range_succ]
    linarith⟩
  have t2 := pnnls_lp_ans hL (f := vec3 (-1) (-0.1) 0) rfl sh9 (by norm_num [ballA]) ⟨vec3 0.5 0.5 0, by
    refine ⟨ball_feasible.2 (by norm_num [vec3]), fun x hx => ?_⟩
    obtain ⟨f0, -, -, f3, -, -, -, -, f8⟩ := ball_feasible.1 hx
    norm_num [Spec.lpCost, vec3, sum_range_succ]
    linarith⟩
  have t3 := pnnls_lp_ans hL (f := vec3 1 1 0) rfl sh9 (by norm_num [ballA]) ⟨vec3 (-0.5) (-0.5) 0, by
    refine ⟨ball_feasible.2 (by norm_num [vec3]), fun x hx => ?_⟩
    obtain ⟨-, -, -, -, f4, -, -, f7, -⟩ := ball_feasible.1 hx
    norm_num [Spec.lpCost, vec3, sum_range_succ]
    linarith⟩
  obtain ⟨s, a, b⟩ := pnnls_lp_ans hL (f := vec2 1 0) rfl sh10 (by norm_num [thinA]) ⟨Vec.zeros 2, by
    refine ⟨⟨fun i hi => ?_, trivial⟩, fun x hx => ?_⟩
    · simp
    · have f0 := hx.1 1 (by norm_num [thinA])
      norm_num [thinA, sum_range_succ] at f0
      simpa [Spec.lpCost, vec2, sum_range_succ] using f0⟩
  obtain ⟨lam, k1, k2, k3, k4⟩ := thin_is b
  refine ⟨s, lam, a, k1, k2, k3, ?_⟩
  have c : checkNone Sol.none = .ok () := rfl
  have hp : lpPlane (fun f A b C d => Pnnls.linear_program L f A b C d) = .ok () := by
    change Pnnls.linear_program L (Vec.ones 2) boxA ⟨4, fun i => if i < 2 then 5 else 1⟩ none none = .ok s1 at a1
    change Pnnls.linear_program L (Vec.ones 2) unbA (vec3 0 0 1) (some ⟨1, 2, fun _ j => if j = 0 then 1 else -1⟩) (some (at1 0)) = .ok s7 at a7
    change Pnnls.linear_program L (vec2 0 1) ⟨1, 2, fun _ j => if j = 1 then -1 else 0⟩ (Vec.zeros 1) none none = .ok s8 at a8
    unfold lpPlane
    beta_reduce
    rw [a1, Py.ok_bind, box_is b1, Py.ok_bind, a2, Py.ok_bind, lp1_check b2, Py.ok_bind, a3, Py.ok_bind, lp2_check b3, Py.ok_bind, a4, Py.ok_bind, c, Py.ok_bind,
      a5, Py.ok_bind, c, Py.ok_bind, a6, Py.ok_bind, c, Py.ok_bind, a7, Py.ok_bind, diff_is b7, Py.ok_bind, a8, Py.ok_bind, low_is b8]
  unfold test_lp_solver
  rw [hp, Py.ok_bind, lpBall_ok t1 t2 t3, Py.ok_bind]
  beta_reduce
  rw [a, Py.ok_bind]
  exact k4

open Classical in
/-- the solver `nnls` that returns another of its minimizers when there are four columns, the first two opposite -/
noncomputable def shiftedLp (L : Lib) : Lib :=
  let nnls : Mat ℝ → Vec ℝ → Vec ℝ × ℝ := fun A b =>
    if A.nc = 4 ∧ ∀ i < A.nr, A.e i 1 = - A.e i 0 then (⟨4, fun i => (L.nnls A b).1.e i + if i < 2 then 1 else 0⟩, (L.nnls A b).2) else L.nnls A b
  { L with nnls := nnls }

theorem shiftedLp_mulVec {L : Lib} {A : Mat ℝ} {b : Vec ℝ} (h : A.nc = 4 ∧ ∀ i < A.nr, A.e i 1 = - A.e i 0) :
    vnorm ((A.mulVec ⟨4, fun i => (L.nnls A b).1.e i + if i < 2 then 1 else 0⟩).sub b) = vnorm ((A.mulVec (L.nnls A b).1).sub b) := by
  unfold vnorm
  congr 1
  refine sum_congr rfl fun i hi => ?_
  have hi' : i < A.nr := mem_range.1 hi
  have e : ∑ j ∈ range A.nc, A.e i j * ((L.nnls A b).1.e j + if j < 2 then 1 else 0) = ∑ j ∈ range A.nc, A.e i j * (L.nnls A b).1.e j := by
    rw [h.1]
    simp only [sum_range_succ, sum_range_zero, zero_add, h.2 i hi']
    norm_num
    ring
  show (∑ j ∈ range A.nc, A.e i j * ((L.nnls A b).1.e j + if j < 2 then 1 else 0) - b.e i) ^ 2 = (∑ j ∈ range A.nc, A.e i j * (L.nnls A b).1.e j - b.e i) ^ 2
  rw [e]

theorem shiftedLp_spec {L : Lib} (hL : LibSpec L) : LibSpec (shiftedLp L) where
  nnls_n A b hb := by
    by_cases h : A.nc = 4 ∧ ∀ i < A.nr, A.e i 1 = - A.e i 0
    · simp only [shiftedLp, if_pos h]
      exact h.1.symm
    · simp only [shiftedLp, if_neg h]
      exact hL.nnls_n A b hb
  nnls_nonneg A b hb i hi := by
    by_cases h : A.nc = 4 ∧ ∀ i < A.nr, A.e i 1 = - A.e i 0
    · simp only [shiftedLp, if_pos h]
      have := hL.nnls_nonneg A b hb i hi
      split_ifs <;> linarith
    · simp only [shiftedLp, if_neg h]
      exact hL.nnls_nonneg A b hb i hi
  nnls_min A b hb y hy := by
    by_cases h : A.nc = 4 ∧ ∀ i < A.nr, A.e i 1 = - A.e i 0
    · simp only [shiftedLp, if_pos h]
      rw [shiftedLp_mulVec h]
      exact hL.nnls_min A b hb y hy
    · simp only [shiftedLp, if_neg h]
      exact hL.nnls_min A b hb y hy
  nnls_res A b hb := by
    by_cases h : A.nc = 4 ∧ ∀ i < A.nr, A.e i 1 = - A.e i 0
    · simp only [shiftedLp, if_pos h]
      rw [shiftedLp_mulVec h]
      exact hL.nnls_res A b hb
    · simp only [shiftedLp, if_neg h]
      exact hL.nnls_res A b hb
  pinv_nr := hL.pinv_nr
  pinv_nc := hL.pinv_nc
  pinv_1 := hL.pinv_1
  pinv_2 := hL.pinv_2
  pinv_3 := hL.pinv_3
  pinv_4 := hL.pinv_4
  chol_ok := hL.chol_ok
  chol_err := hL.chol_err
  svd_nr := hL.svd_nr
  svd_nc := hL.svd_nc
  svd_orth := hL.svd_orth
  svd_ker := hL.svd_ker
  qr_nr := hL.qr_nr
  qr_nc := hL.qr_nc
  qr_tri := hL.qr_tri
  qr_eq := hL.qr_eq

/-- the first multiplier of the last program with the shifted minimizer -/
theorem shiftedLp_lp {L : Lib} (hL : LibSpec L) {tol : ℝ} {s : Sol} {lam : Vec ℝ}
    (h : Pnnls.linear_program (shiftedLp L) (vec2 1 0) thinA (Vec.zeros 2) none none tol = .ok s) (hl : s.multiplier_inequality = some lam) : 1 ≤ lam.e 0 := by
  unfold Pnnls.linear_program at h
  have hst : Pnnls.stackEqualities thinA (Vec.zeros 2) none none = .ok (0, thinA, Vec.zeros 2) := rfl
  have hda : Pnnls.lpData (thinA.nr + 2 * 0) (vec2 1 0) thinA (Vec.zeros 2) = .ok (lpA thinA (Vec.zeros 2), lpB (vec2 1 0) thinA, lpc (vec2 1 0) (Vec.zeros 2)) :=
    lpData_ok rfl rfl
  simp only [hst, hda, Py.ok_bind] at h
  obtain ⟨⟨ys, x, r⟩, hy, h⟩ := Py.bind_eq_ok h
  unfold Pnnls.pnnls at hy
  obtain ⟨BBp, -, hy⟩ := Py.bind_eq_ok hy
  obtain ⟨Bb, -, hy⟩ := Py.bind_eq_ok hy
  obtain ⟨Ab, hA, hy⟩ := Py.bind_eq_ok hy
  obtain ⟨bb, -, hy⟩ := Py.bind_eq_ok hy
  obtain ⟨⟨v, r'⟩, hv, hy⟩ := Py.bind_eq_ok hy
  obtain ⟨_, -, hy⟩ := Py.bind_eq_ok hy
  obtain ⟨_, -, hy⟩ := Py.bind_eq_ok hy
  obtain ⟨_, -, hy⟩ := Py.bind_eq_ok hy
  cases hy
  have hop : Ab.nc = 4 ∧ ∀ i < Ab.nr, Ab.e i 1 = - Ab.e i 0 := by
    unfold np.dotMM at hA
    split at hA <;> cases hA
    refine ⟨rfl, fun i _ => ?_⟩
    have e : ∀ k, (lpA thinA (Vec.zeros 2)).e k 1 = - (lpA thinA (Vec.zeros 2)).e k 0 := by
      intro k
      unfold lpA
      simp only [Mat.vapp_e]
      split_ifs
      · simp [Mat.ofRow, Vec.append]
      · have n2 : thinA.nr = 2 := rfl
        simp [Mat.happ, n2]
      · have n2 : thinA.nr = 2 := rfl
        have h1 : ∀ k, thinA.e 1 k = - thinA.e 0 k := by
          intro k
          simp only [thinA]
          split_ifs <;> simp_all
        simp [Mat.happ, n2, h1]
    simp only [Mat.mul, e, mul_neg, sum_neg_distrib]
  have hy0 : 1 ≤ ys.e 0 := by
    unfold np.nnls at hv
    split at hv
    · cases hv
    rename_i hbn
    split at hv
    · cases hv
    have := hL.nnls_nonneg Ab bb (not_not.1 hbn) 0 (by rw [hop.1]; norm_num)
    simp only [shiftedLp, if_pos hop] at hv
    cases hv
    show 1 ≤ (L.nnls Ab bb).1.e 0 + if 0 < 2 then 1 else 0
    norm_num
    linarith
  split at h
  rotate_left
  · cases h
    cases hl
  obtain ⟨_, -, h⟩ := Py.bind_eq_ok h
  cases h
  cases hl
  exact hy0

/-- C197 is false of the code: from any library within the contract one gets another, whose `nnls` returns another minimizer when its first columns are
opposite, with which the test fails. -/
theorem C197_false (L : Lib) (hL : LibSpec L) :
    LibSpec (shiftedLp L) ∧ test_lp_solver (fun f A b C d => Pnnls.linear_program (shiftedLp L) f A b C d) = .error .assertionError := by
  have hS := shiftedLp_spec hL
  obtain ⟨s, lam, h1, h2, h3, h4, h5⟩ := C197_partial (shiftedLp L) hS
  refine ⟨hS, h5.2 fun h => ?_⟩
  have := shiftedLp_lp hL h1 h2
  norm_num at h
  linarith

/-- there is such a library -/
example : ∃ L, LibSpec L ∧ test_lp_solver (fun f A b C d => Pnnls.linear_program L f A b C d) = .error .assertionError := by
  obtain ⟨L, hL⟩ := exists_lib
  exact ⟨_, C197_false L hL⟩

end Verif.Props
