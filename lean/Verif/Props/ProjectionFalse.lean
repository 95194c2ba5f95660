import Verif.Props.Projection

/- Counterexamples for orthogonal projections (C22). -/
namespace Verif.Props
open Finset Projection Geom

/-- the projection on the first two coordinates -/
abbrev Shadow (A : Mat ℝ) (b : Vec ℝ) (y : ℕ → ℝ) : Prop := Pr 2 (reordered A [0, 1]) b y

theorem pair_cols {A : Mat ℝ} (hA : 2 ≤ A.nc) : ∀ i ∈ [0, 1], i < A.nc := by
  intro i hi
  simp only [List.mem_cons, List.not_mem_nil, or_false] at hi
  omega

/-- keeping both coordinates of the plane -/
theorem pr_pair {A : Mat ℝ} {b : Vec ℝ} (hA : A.nc = 2) (y : ℕ → ℝ) : Shadow A b y ↔ Fs A b y := by
  refine (pr_iff (pair_cols (by omega)) (by simp) y).trans ⟨?_, fun h => ⟨y, h, fun k hk => ?_⟩⟩
  · rintro ⟨x, hx, hy⟩ i hi
    have : Spec.rowVal A i y = Spec.rowVal A i x := Finset.sum_congr rfl fun j hj => by
      have hj : j < 2 := by rw [← hA]; exact mem_range.1 hj
      rw [hy j hj]
      interval_cases j <;> rfl
    rw [this]
    exact hx i hi
  · have : k < 2 := hk
    interval_cases k <;> rfl

/-- the runs of the method that keep two coordinates -/
theorem pair_method {A : Mat ℝ} {b : Vec ℝ} (hA : 2 ≤ A.nc) {L : Lib} (hL : LibSpec L) (Q : Qhull) (hB : Body 2 (reordered A [0, 1]) b)
    (rand : List (Vec ℝ) → Vec ℝ) (fuel : ℕ) :
    ∃ v1 v2 : Vec ℝ, Shadow A b v1.e ∧ Shadow A b v2.e ∧ (∀ z, Shadow A b z → v1.e 0 ≤ z 0 ∧ z 0 ≤ v2.e 0) ∧
      ((∃ e, convex_hull_method L Q rand fuel A b [0, 1] = .error e) ∨
        ∃ (a : ℕ → ℝ) (d : ℝ) (x1 x2 : ℕ → ℝ) (P : Mat ℝ), a 0 ^ 2 + a 1 ^ 2 = 1 ∧ 0 ≤ d ∧ a 0 * v1.e 0 + a 1 * v1.e 1 = d ∧
          a 0 * v2.e 0 + a 1 * v2.e 1 = d ∧ Shadow A b x1 ∧ Shadow A b x2 ∧
          (∀ z, Shadow A b z → a 0 * x1 0 + a 1 * x1 1 ≤ a 0 * z 0 + a 1 * z 1 ∧ a 0 * z 0 + a 1 * z 1 ≤ a 0 * x2 0 + a 1 * x2 1) ∧
          P.nr = 3 ∧ P.nc = 2 ∧ P.e 0 = v1.e ∧ P.e 1 = v2.e ∧ P.e 2 = (if |a 0 * x1 0 + a 1 * x1 1 - d| < 1e-7 then x2 else x1) ∧
          convex_hull_method L Q rand fuel A b [0, 1] = (do
            let eqs ← Q.convexHull P
            let r ← expandLoop L Q (reordered A [0, 1]) 1e-7 fuel ⟨P, eqs, b, []⟩
            match r with
            | none => return none
            | some s => return some ⟨s.eqs.colsTo (s.eqs.nc - 1), ⟨s.eqs.nr, fun i => - s.eqs.e i (s.eqs.nc - 1)⟩, rowList s.points, s.b⟩)) := by
  obtain ⟨v1, v2, h1, h2, p1, p2, hz, hm⟩ := method_eq (Q := Q) hL (dims := [0, 1]) hB (pair_cols hA) rand fuel
  have h1 : v1.n = 2 := h1
  have h2 : v2.n = 2 := h2
  refine ⟨v1, v2, p1, p2, fun z ⟨z', h, hzz⟩ => by rw [hzz 0 (by norm_num)]; exact hz z' h, ?_⟩
  rw [if_neg (by simp)] at hm
  have hin : getInnerSimplex L rand (reordered A [0, 1]) b [v1, v2] = simplexStep L rand (reordered A [0, 1]) b 2 1e-7 [v1, v2] 2 := by
    unfold getInnerSimplex
    rw [show np.listGet [v1, v2] 0 = .ok v1 from rfl, Py.ok_bind, h1]
    show (simplexStep L rand (reordered A [0, 1]) b 2 1e-7 [v1, v2] 2 >>= fun s => pure s) = _
    rw [bind_pure]
  rw [hin] at hm
  rcases hst : simplexStep L rand (reordered A [0, 1]) b 2 1e-7 [v1, v2] 2 with e | vs
  · rw [hst] at hm
    exact Or.inl ⟨e, hm⟩
  · right
    obtain ⟨a, d, x1, x2, hpl, han, k1, k2, k3, k4, k5, k6, rfl⟩ := step_out hL hB (i := 2) rfl hst
    rw [hst, Py.ok_bind] at hm
    obtain ⟨-, -, c3, c4, c5, -⟩ := C26 _ _ _ _ (by
      intro p hp q hq
      simp only [List.map_cons, List.map_nil, List.mem_cons, List.not_mem_nil, or_false] at hp hq
      rcases hp with rfl | rfl <;> rcases hq with rfl | rfl <;> simp [h1, h2]) hpl
    rw [han] at c3 c5
    have hd : ∀ y : ℕ → ℝ, dotp 2 a.e y = a.e 0 * y 0 + a.e 1 * y 1 := fun y => by simp [dotp, Finset.sum_range_succ]
    have c5' : ∀ v ∈ [v1, v2], a.e 0 * v.e 0 + a.e 1 * v.e 1 = d := fun v hv => by
      have := c5 (v.slice 0 2) (List.mem_map_of_mem hv)
      rw [slice0] at this
      rw [← hd]
      exact this
    have hnc : 2 ≤ (reordered A [0, 1]).nc := hB.le
    set v3 := if |dotp 2 a.e x1.e - d| < 1e-7 then x2.slice 0 2 else x1.slice 0 2 with hv3
    have h3 : v3.n = 2 := by
      rw [hv3]
      split_ifs
      · show min 2 x2.n - 0 = 2; omega
      · show min 2 x1.n - 0 = 2; omega
    obtain ⟨P, hP, hPn⟩ := vstack_ofRow_ok (l := [v1, v2] ++ [v3]) (n := 2) (by simp) (by simp [h1, h2, h3])
    obtain ⟨m1, -, m3⟩ := vstack_ofRow hP
    rw [hP, Py.ok_bind] at hm
    refine ⟨a.e, d, x1.e, x2.e, P, by simpa [Finset.sum_range_succ] using c3, c4, c5' v1 (by simp), c5' v2 (by simp), ⟨_, k2, fun _ _ => rfl⟩,
      ⟨_, k5, fun _ _ => rfl⟩, fun z ⟨z', hz', hzz⟩ => ?_, by rw [m1]; rfl, hPn, funext (m3 0 (by simp)), funext (m3 1 (by simp)), ?_, hm⟩
    · rw [hzz 0 (by norm_num), hzz 1 (by norm_num), ← hd, ← hd, ← hd]
      exact ⟨k3 z' hz', k6 z' hz'⟩
    · rw [show P.e 2 = v3.e from funext (m3 2 (by simp)), hv3, hd]
      split_ifs <;> rw [slice0]

/-! ### A thin triangle -/

/-- the triangle with vertices `(0, 1)`, `(1, 1)` and `(1/2, 1 - 5e-8)` -/
noncomputable def thin : Poly :=
  Poly.fresh ⟨3, 2, fun i j => if i = 0 then (if j = 0 then 0 else 1) else if i = 1 then (if j = 0 then -1e-7 else -1) else (if j = 0 then 1e-7 else -1)⟩
    ⟨3, fun i => if i = 0 then 1 else if i = 1 then -1 else 1e-7 - 1⟩ (Mat.zeros 0 2) (Vec.zeros 0)

theorem thin_fs (z : ℕ → ℝ) : Fs thin.A thin.b z ↔ z 1 ≤ 1 ∧ -1e-7 * z 0 - z 1 ≤ -1 ∧ 1e-7 * z 0 - z 1 ≤ 1e-7 - 1 := by
  constructor
  · intro h
    have h0 := h 0 (by show 0 < 3; norm_num)
    have h1 := h 1 (by show 1 < 3; norm_num)
    have h2 := h 2 (by show 2 < 3; norm_num)
    simp [thin, Poly.fresh, Spec.rowVal, Finset.sum_range_succ] at h0 h1 h2
    norm_num at h0 h1 h2 ⊢
    exact ⟨h0, by linarith, by linarith⟩
  · rintro ⟨h0, h1, h2⟩ i hi
    have : i < 3 := hi
    interval_cases i <;> simp [thin, Poly.fresh, Spec.rowVal, Finset.sum_range_succ] <;> norm_num at h0 h1 h2 ⊢ <;> linarith

theorem thin_shadow (z : ℕ → ℝ) : Shadow thin.A thin.b z ↔ z 1 ≤ 1 ∧ -1e-7 * z 0 - z 1 ≤ -1 ∧ 1e-7 * z 0 - z 1 ≤ 1e-7 - 1 :=
  (pr_pair rfl z).trans (thin_fs z)

theorem thin_mem (z : ℕ → ℝ) : Spec.InPoly thin.A thin.b thin.C thin.d z ↔ z 1 ≤ 1 ∧ -1e-7 * z 0 - z 1 ≤ -1 ∧ 1e-7 * z 0 - z 1 ≤ 1e-7 - 1 := by
  rw [← thin_fs]
  exact ⟨fun h => h.1, fun h => ⟨h, fun i hi => absurd hi (Nat.not_lt_zero i)⟩⟩

theorem thin_bounded : Spec.IsBounded 2 thin.A thin.b thin.C thin.d := by
  refine ⟨1, fun x hx j hj => ?_⟩
  obtain ⟨h0, h1, h2⟩ := (thin_mem x).1 hx
  norm_num at h1 h2
  rw [abs_le]
  interval_cases j <;> constructor <;> linarith

/-- C22 (negation of the projection of every polytope): the thin triangle has interior points, but keeping both its coordinates raises an exception,
whatever the vertices found by the solver, the random offsets and qhull: the third vertex is less than `tol` from the line through the first two, and
the vertex found on the other side is on this line. -/
theorem C22_thin_false : thin.Inv 2 ∧ (∀ L, thin.EmptyOk L) ∧ thin._bounded = none ∧ thin.C.nr = 0 ∧
    Spec.NearPoint 2 thin.A thin.b thin.C thin.d ∧ Spec.IsBounded 2 thin.A thin.b thin.C thin.d ∧
    Spec.BoxIn 2 thin.A thin.b thin.C thin.d (fun j => if j = 0 then 1 / 2 else 1 - 1e-8) 1e-9 ∧
    ∀ L, LibSpec L → ∀ Q, QhullSpec Q → ∀ rand fuel, ∃ e q, Poly.project_to L Q rand fuel [0, 1] thin = (.error e, q) := by
  have hp : thin.Inv 2 := ⟨rfl, rfl, rfl, rfl⟩
  have hc : ∀ L, thin.EmptyOk L := fun L e h => (by cases h)
  have hne : Spec.NearPoint 2 thin.A thin.b thin.C thin.d := ⟨fun _ => 1, (thin_mem _).2 (by norm_num), by norm_num [Finset.sum_range_succ]⟩
  refine ⟨hp, hc, rfl, rfl, hne, thin_bounded, fun x hx => ?_, fun L hL Q hQ rand fuel => ?_⟩
  · rw [thin_mem]
    have h0 := abs_le.1 (hx 0 (by norm_num))
    have h1 := abs_le.1 (hx 1 (by norm_num))
    simp only [if_true, one_ne_zero, if_false] at h0 h1
    norm_num at h0 h1 ⊢
    refine ⟨by linarith, by linarith, by linarith⟩
  · obtain ⟨q, -, -, -, -, -, herr, -⟩ := project_run hL hp (Poly.hasRows_of_bounded two_pos thin_bounded) two_pos (hc L) hne (Or.inl ⟨rfl, thin_bounded⟩) rfl Q rand fuel [0, 1]
    have hB : Body 2 (reordered thin.A [0, 1]) thin.b := by
      refine body_reordered (pair_cols le_rfl) (by simp) (by simp) rfl ⟨fun _ => 1, (thin_fs _).2 (by norm_num)⟩ ?_
      obtain ⟨R, hR⟩ := thin_bounded
      exact ⟨R, fun x hx j hj => hR x ((thin_mem x).2 ((thin_fs x).1 hx)) j hj⟩
    suffices ∃ e, convex_hull_method L Q rand fuel thin.A thin.b [0, 1] = .error e by
      obtain ⟨e, he⟩ := this
      exact ⟨e, q, herr e he⟩
    obtain ⟨v1, v2, f1, f2, hz, h | ⟨a, d, x1, x2, P, a1, a2, a3, a4, g1, g2, hx, p1, p2, p3, p4, p5, hm⟩⟩ :=
      pair_method (A := thin.A) (b := thin.b) le_rfl hL Q hB rand fuel
    · exact h
    obtain ⟨b1, b2, b3⟩ := (thin_shadow _).1 f1
    obtain ⟨c1, c2, c3⟩ := (thin_shadow _).1 f2
    have hl := (hz (fun j => if j = 0 then 0 else 1) ((thin_shadow _).2 (by norm_num))).1
    have hr := (hz (fun j => if j = 0 then 1 else 1) ((thin_shadow _).2 (by norm_num))).2
    simp only [if_true] at hl hr
    norm_num at b1 b2 b3 c1 c2 c3
    have e1 : v1.e 0 = 0 := by linarith
    have e2 : v1.e 1 = 1 := by linarith
    have e3 : v2.e 0 = 1 := by linarith
    have e4 : v2.e 1 = 1 := by linarith
    rw [e1, e2] at a3
    rw [e3, e4] at a4
    have ha0 : a 0 = 0 := by linarith
    have ha1 : a 1 = 1 := by
      rw [ha0] at a1
      have : (a 1 - 1) * (a 1 + 1) = 0 := by linarith
      rcases mul_eq_zero.1 this with h | h
      · linarith
      · exfalso; linarith
    have hd : d = 1 := by linarith
    simp only [ha0, ha1, hd, zero_mul, zero_add, one_mul] at hx p5
    have q1 := (hx (fun j => if j = 0 then 1 / 2 else 1 - 5e-8) ((thin_shadow _).2 (by norm_num))).1
    have q2 := (hx (fun _ => 1) ((thin_shadow _).2 (by norm_num))).2
    obtain ⟨r1, r2, r3⟩ := (thin_shadow _).1 g1
    have q3 := ((thin_shadow _).1 g2).1
    simp only [one_ne_zero, if_false] at q1
    norm_num at r2 r3 q1
    have hlt : |x1 1 - 1| < 1e-7 := by
      rw [abs_lt]
      norm_num
      constructor <;> linarith
    rw [if_pos hlt] at p5
    obtain ⟨e, he⟩ := hQ.hull_flat P fun hf => by
      have := hf (fun j => if j = 1 then 1 else 0) 1 (fun k hk => by
        rw [p2]
        simp only [Finset.sum_range_succ, Finset.sum_range_zero]
        rw [p1] at hk
        interval_cases k
        · rw [p3]; simp [e2]
        · rw [p4]; simp [e4]
        · rw [p5]; simp; linarith) 1 (by omega)
      simp at this
    rw [he] at hm
    exact ⟨e, hm⟩

/-! ### A skipped facet -/

/-- the pentagon with vertices `(-1000, -1)`, `(1000, -1)`, `(0, 0)`, `(0, -1 - 1e-5)` and `(-500, -1 - 0.9e-5)` -/
def Pent (z : ℕ → ℝ) : Prop := 1000 * z 1 ≤ z 0 ∧ z 0 + 1000 * z 1 ≤ 0 ∧ -1.8e-8 * z 0 - z 1 ≤ 1 + 1.8e-5 ∧
  -0.2e-8 * z 0 - z 1 ≤ 1 + 1e-5 ∧ 1e-8 * z 0 - z 1 ≤ 1 + 1e-5

/-- the point has coordinates `u`, `v` -/
def At (u v : ℝ) (y : ℕ → ℝ) : Prop := y 0 = u ∧ y 1 = v

/-- the points found by the expansion: never the vertex `(-500, -1 - 0.9e-5)` -/
structure Missed (A : Mat ℝ) (b : Vec ℝ) (s : Expansion) : Prop where
  inv : Inv 2 (reordered A [0, 1]) b s
  v1 : ∃ k < s.points.nr, At (-1000) (-1) (s.points.e k)
  v2 : ∃ k < s.points.nr, At 1000 (-1) (s.points.e k)
  v3 : ∃ k < s.points.nr, At 0 0 (s.points.e k)
  few : ∀ k < s.points.nr, At (-1000) (-1) (s.points.e k) ∨ At 1000 (-1) (s.points.e k) ∨ At 0 0 (s.points.e k) ∨
    At 0 (-1 - 1e-5) (s.points.e k) ∧ ∃ a ∈ s.explored, a.e 0 = 0 ∧ a.e 1 = -1

/-- two points of a facet are different -/
theorem facet_two {P : Mat ℝ} (hP : P.nc = 2) {a : ℕ → ℝ} {c : ℝ} (hu : a 0 ^ 2 + a 1 ^ 2 = 1) (h : Spec.IsFacet P a c) :
    ∃ k < P.nr, ∃ l < P.nr, a 0 * P.e k 0 + a 1 * P.e k 1 + c = 0 ∧ a 0 * P.e l 0 + a 1 * P.e l 1 + c = 0 ∧
      (P.e k 0 ≠ P.e l 0 ∨ P.e k 1 ≠ P.e l 1) := by
  by_contra hno
  push Not at hno
  have hsum : ∀ (a' : ℕ → ℝ) k, ∑ j ∈ range P.nc, a' j * P.e k j = a' 0 * P.e k 0 + a' 1 * P.e k 1 := fun a' k => by
    rw [hP]; simp [Finset.sum_range_succ]
  -- a line with another direction through the only point
  have key : ∃ c', ∀ k < P.nr, a 0 * P.e k 0 + a 1 * P.e k 1 + c = 0 → (-a 1) * P.e k 0 + a 0 * P.e k 1 + c' = 0 := by
    by_cases hk : ∃ k < P.nr, a 0 * P.e k 0 + a 1 * P.e k 1 + c = 0
    · obtain ⟨k, hk, hk0⟩ := hk
      refine ⟨a 1 * P.e k 0 - a 0 * P.e k 1, fun l hl hl0 => ?_⟩
      obtain ⟨h1, h2⟩ := hno k hk l hl hk0 hl0
      rw [h1, h2]
      ring
    · exact ⟨0, fun k h1 h2 => absurd ⟨k, h1, h2⟩ hk⟩
  obtain ⟨c', hc'⟩ := key
  obtain ⟨t, -, ht⟩ := h (fun j => if j = 0 then -a 1 else a 0) c' fun k hk h0 => by
    rw [hsum] at h0 ⊢
    simpa using hc' k hk h0
  have t0 := ht 0 (by omega)
  have t1 := ht 1 (by omega)
  simp only [if_true, one_ne_zero, if_false] at t0 t1
  have h1 : (t ^ 2 + 1) * a 0 = 0 := by
    have : a 1 = -t * a 0 := by linarith
    rw [this] at t1
    linarith
  have h2 : a 0 = 0 := (mul_eq_zero.1 h1).resolve_left (by positivity)
  have h3 : a 1 = 0 := by rw [h2] at t0; linarith
  rw [h2, h3] at hu
  norm_num at hu

/-- lines through two of the points -/
theorem pent_cases {a a' c : ℝ} (hu : a ^ 2 + a' ^ 2 = 1) (i1 : a * -1000 + a' * -1 + c ≤ 0) (i2 : a * 1000 + a' * -1 + c ≤ 0)
    (i3 : a * 0 + a' * 0 + c ≤ 0) :
    (a * -1000 + a' * -1 + c = 0 → a * 1000 + a' * -1 + c = 0 → a = 0 ∧ a' = -1 ∧ c = -1) ∧
    (a * -1000 + a' * -1 + c = 0 → a * 0 + a' * 0 + c = 0 → ∀ z, Pent z → a * z 0 + a' * z 1 + c ≤ 0) ∧
    (a * 1000 + a' * -1 + c = 0 → a * 0 + a' * 0 + c = 0 → ∀ z, Pent z → a * z 0 + a' * z 1 + c ≤ 0) ∧
    (a * -1000 + a' * -1 + c = 0 → a * 0 + a' * (-1 - 1e-5) + c = 0 → |a| ≤ 1e-8 ∧ |a' + 1| ≤ 1e-8) ∧
    (a * 1000 + a' * -1 + c = 0 → a * 0 + a' * (-1 - 1e-5) + c = 0 → |a| ≤ 1e-8 ∧ |a' + 1| ≤ 1e-8) ∧
    (a * 0 + a' * 0 + c = 0 → a * 0 + a' * (-1 - 1e-5) + c = 0 → False) := by
  have near : |a| = 1e-8 * |a'| → a' ≤ 0 → |a| ≤ 1e-8 ∧ |a' + 1| ≤ 1e-8 := by
    intro e1 e2
    rw [abs_of_nonpos e2] at e1
    have h1 : a ^ 2 = (1e-8 * -a') ^ 2 := by rw [← e1, sq_abs]
    have h2 : a' ^ 2 * (1 + 1e-16) = 1 := by rw [h1] at hu; norm_num at hu ⊢; linarith
    have h3 : -a' ≤ 1 := by nlinarith
    have h4 : 1 - 1e-8 ≤ -a' := by
      by_contra h5
      push Not at h5
      norm_num at h5 h2
      nlinarith
    refine ⟨by rw [e1]; norm_num; linarith, ?_⟩
    rw [abs_le]
    norm_num at h4 ⊢
    constructor <;> linarith
  refine ⟨fun e1 e2 => ?_, fun e1 e2 z hz => ?_, fun e1 e2 z hz => ?_, fun e1 e2 => ?_, fun e1 e2 => ?_, fun e1 e2 => ?_⟩
  · have h0 : a = 0 := by linarith
    rw [h0] at hu
    have : (a' + 1) * (a' - 1) = 0 := by linarith
    rcases mul_eq_zero.1 this with h | h
    · exact ⟨h0, by linarith, by linarith⟩
    · exfalso; linarith
  · obtain ⟨h0, -⟩ := hz
    have h1 : a ≤ 0 := by linarith
    have h2 : a' = -1000 * a := by linarith
    have h3 : c = 0 := by linarith
    rw [h2, h3]
    nlinarith
  · obtain ⟨-, h0, -⟩ := hz
    have h1 : 0 ≤ a := by linarith
    have h2 : a' = 1000 * a := by linarith
    have h3 : c = 0 := by linarith
    rw [h2, h3]
    nlinarith
  · norm_num at e2
    have h1 : a = 1e-8 * a' := by norm_num; linarith
    refine near (by rw [h1, abs_mul]; norm_num) ?_
    linarith
  · norm_num at e2
    have h1 : a = -1e-8 * a' := by norm_num; linarith
    refine near (by rw [h1, abs_mul]; norm_num) ?_
    linarith
  · norm_num at e2
    have h0 : a' = 0 := by linarith
    have h1 : a = 0 := by linarith
    rw [h0, h1] at hu
    norm_num at hu

/-- a normal close to the downward one -/
theorem close_down {l : List (Vec ℝ)} (h : ∃ b ∈ l, b.e 0 = 0 ∧ b.e 1 = -1) {e : ℕ → ℝ} (ha : |e 0| ≤ 1e-8 ∧ |e 1 + 1| ≤ 1e-8) :
    ∃ b ∈ l, allclose (some ⟨2, e⟩) (some b) = true := by
  obtain ⟨b, hb, b0, b1⟩ := h
  refine ⟨b, hb, ?_⟩
  simp only [allclose, decide_eq_true_eq]
  intro j hj
  have : j < 2 := hj
  interval_cases j
  · rw [b0, sub_zero, abs_zero, mul_zero, add_zero]
    exact ha.1
  · rw [b1, sub_neg_eq_add, abs_neg, abs_one]
    exact ha.2.trans (by norm_num)

/-- the normals of the facets of the points found: those of the two upper edges of the pentagon, the downward one before the lowest vertex is added,
and normals close to it -/
theorem Missed.normal {A : Mat ℝ} {b : Vec ℝ} {s : Expansion} (h : Missed A b s) {i : ℕ} (hi : i < s.eqs.nr) :
    (∀ z, Pent z → s.eqs.e i 0 * z 0 + s.eqs.e i 1 * z 1 + s.eqs.e i 2 ≤ 0) ∨
    (s.eqs.e i 0 = 0 ∧ s.eqs.e i 1 = -1 ∧ s.eqs.e i 2 = -1) ∨
    ∃ a ∈ s.explored, allclose (some ⟨2, s.eqs.e i⟩) (some a) = true := by
  have hu := h.inv.hull.unit i hi
  have hP := h.inv.nc
  rw [Finset.sum_range_succ, Finset.sum_range_one] at hu
  obtain ⟨k, hk, l, hl, ek, el, hne⟩ := facet_two hP hu (h.inv.hull.facet i hi)
  have hin : ∀ m < s.points.nr, s.eqs.e i 0 * s.points.e m 0 + s.eqs.e i 1 * s.points.e m 1 + s.eqs.e i 2 ≤ 0 := fun m hm => by
    have := (h.inv.hull.mem _).2 (inHull_row hm) i hi
    simpa [Finset.sum_range_succ] using this
  obtain ⟨m1, hm1, u1, w1⟩ := h.v1
  obtain ⟨m2, hm2, u2, w2⟩ := h.v2
  obtain ⟨m3, hm3, u3, w3⟩ := h.v3
  have i1 := hin m1 hm1
  have i2 := hin m2 hm2
  have i3 := hin m3 hm3
  rw [u1, w1] at i1
  rw [u2, w2] at i2
  rw [u3, w3] at i3
  obtain ⟨k12, k13, k23, k1w, k2w, k3w⟩ := pent_cases hu i1 i2 i3
  rcases h.few k hk with ⟨x1, y1⟩ | ⟨x1, y1⟩ | ⟨x1, y1⟩ | ⟨⟨x1, y1⟩, hex⟩ <;>
    rcases h.few l hl with ⟨x2, y2⟩ | ⟨x2, y2⟩ | ⟨x2, y2⟩ | ⟨⟨x2, y2⟩, hex'⟩ <;>
      rw [x1, y1] at ek <;> rw [x2, y2] at el <;> rw [x1, y1, x2, y2] at hne
  · exact (hne.elim (absurd rfl) (absurd rfl))
  · exact Or.inr (Or.inl (k12 ek el))
  · exact Or.inl (k13 ek el)
  · exact Or.inr (Or.inr (close_down hex' (k1w ek el)))
  · exact Or.inr (Or.inl (k12 el ek))
  · exact (hne.elim (absurd rfl) (absurd rfl))
  · exact Or.inl (k23 ek el)
  · exact Or.inr (Or.inr (close_down hex' (k2w ek el)))
  · exact Or.inl (k13 el ek)
  · exact Or.inl (k23 el ek)
  · exact (hne.elim (absurd rfl) (absurd rfl))
  · exact (k3w ek el).elim
  · exact Or.inr (Or.inr (close_down hex (k1w el ek)))
  · exact Or.inr (Or.inr (close_down hex (k2w el ek)))
  · exact (k3w el ek).elim
  · exact (hne.elim (absurd rfl) (absurd rfl))

/-- the expansion never finds the vertex -/
theorem missed_for {A : Mat ℝ} {b : Vec ℝ} (hB : Body 2 (reordered A [0, 1]) b) (hP : ∀ y, Shadow A b y ↔ Pent y) {L : Lib} (hL : LibSpec L)
    {Q : Qhull} (hQ : QhullSpec Q) : ∀ (is : List ℕ) (s s' : Expansion) (c : Bool), Missed A b s →
    (∀ i ∈ is, i < s.eqs.nr) → expandFor L Q (reordered A [0, 1]) 1e-7 is s = .ok (s', c) → Missed A b s'
  | [], s, s', c, h, _, hr => by
    obtain ⟨rfl, -⟩ := Prod.mk.inj (Except.ok.inj hr)
    exact h
  | i :: is, s, s', c, h, hi, hr => by
    have hii : i < s.eqs.nr := hi i (by simp)
    have hdot : ∀ (a z : ℕ → ℝ), dotp 2 a z = a 0 * z 0 + a 1 * z 1 := fun a z => by simp [dotp, Finset.sum_range_succ]
    obtain ⟨x, b4, b5, b6, hrun⟩ := expandFor_cons hL Q hB h.inv hii is
    obtain ⟨s1, c1, hr1, hinv, -⟩ := expand_for hL hQ hB le_rfl (i :: is) s h.inv hi
    have hx := (hP x.e).1 ⟨_, b5, fun _ _ => rfl⟩
    rw [hr] at hr1
    obtain ⟨rfl, rfl⟩ := Prod.mk.inj (Except.ok.inj hr1)
    rw [hrun] at hr
    by_cases hany : (s.explored.any fun a2 => allclose (some ⟨2, s.eqs.e i⟩) (some a2)) = true
    · rw [if_pos hany] at hr
      exact missed_for hB hP hL hQ is s s' c h (fun k hk => hi k (by simp [hk])) hr
    rw [if_neg hany] at hr
    have few' : ∀ (w : Vec ℝ), ∀ k < s.points.nr, At (-1000) (-1) (s.points.e k) ∨ At 1000 (-1) (s.points.e k) ∨ At 0 0 (s.points.e k) ∨
        At 0 (-1 - 1e-5) (s.points.e k) ∧ ∃ a ∈ s.explored ++ [w], a.e 0 = 0 ∧ a.e 1 = -1 := fun a k hk => by
      rcases h.few k hk with h1 | h1 | h1 | ⟨h1, b, hb, hb'⟩
      · exact Or.inl h1
      · exact Or.inr (Or.inl h1)
      · exact Or.inr (Or.inr (Or.inl h1))
      · exact Or.inr (Or.inr (Or.inr ⟨h1, b, List.mem_append_left _ hb, hb'⟩))
    by_cases hex : dotp 2 (s.eqs.e i) x.e + s.eqs.e i 2 > 1e-7
    · rw [if_pos hex] at hr
      obtain ⟨E, -, hr⟩ := Py.bind_eq_ok hr
      obtain ⟨rfl, -⟩ := Prod.mk.inj (Except.ok.inj hr)
      rw [hdot] at hex
      rcases h.normal hii with h1 | ⟨h1, h2, h3⟩ | ⟨a, ha, h1⟩
      · have := h1 x.e hx
        norm_num at hex
        exact absurd this (by linarith)
      · have hat : At 0 (-1 - 1e-5) x.e := by
          obtain ⟨z, hz, hzz⟩ := (hP fun j => if j = 0 then 0 else -1 - 1e-5).2 (by norm_num [Pent])
          have := b6 z hz
          rw [hdot, hdot, h1, h2, ← hzz 0 (by norm_num), ← hzz 1 (by norm_num)] at this
          obtain ⟨-, -, -, g3, g4⟩ := hx
          norm_num at this g3 g4
          have e1 : x.e 0 = 0 := by linarith
          rw [e1] at g3
          exact ⟨e1, by norm_num; linarith⟩
        have hlast : ∀ j, (s.points.vapp (Mat.ofRow (x.slice 0 2))).e s.points.nr j = x.e j := fun j => by
          have := Mat.vapp_e_add s.points (Mat.ofRow (x.slice 0 2)) 0 j
          rw [Nat.add_zero] at this
          rw [this]
          show (x.slice 0 2).e j = x.e j
          rw [slice0]
        have hold : ∀ k < s.points.nr, (s.points.vapp (Mat.ofRow (x.slice 0 2))).e k = s.points.e k := fun k hk =>
          funext fun j => Mat.vapp_e_lt _ _ _ hk
        refine ⟨hinv, ?_, ?_, ?_, fun k hk => ?_⟩
        · obtain ⟨k, hk, hk'⟩ := h.v1
          exact ⟨k, by show k < s.points.nr + 1; omega, by rw [hold k hk]; exact hk'⟩
        · obtain ⟨k, hk, hk'⟩ := h.v2
          exact ⟨k, by show k < s.points.nr + 1; omega, by rw [hold k hk]; exact hk'⟩
        · obtain ⟨k, hk, hk'⟩ := h.v3
          exact ⟨k, by show k < s.points.nr + 1; omega, by rw [hold k hk]; exact hk'⟩
        · have hk : k < s.points.nr + 1 := hk
          rcases Nat.lt_succ_iff_lt_or_eq.1 hk with hk | rfl
          · rw [hold k hk]
            exact few' _ k hk
          · refine Or.inr (Or.inr (Or.inr ⟨⟨by rw [hlast]; exact hat.1, by rw [hlast]; exact hat.2⟩,
              ⟨2, s.eqs.e i⟩, List.mem_append_right _ (List.mem_singleton_self _), h1, h2⟩))
      · exact absurd (List.any_eq_true.2 ⟨a, ha, h1⟩) hany
    · rw [if_neg hex] at hr
      exact missed_for hB hP hL hQ is _ s' c ⟨h.inv.explore le_rfl hii hany b6 hex, h.v1, h.v2, h.v3, few' _⟩ (fun k hk => hi k (by simp [hk])) hr

theorem missed_loop {A : Mat ℝ} {b : Vec ℝ} (hB : Body 2 (reordered A [0, 1]) b) (hP : ∀ y, Shadow A b y ↔ Pent y) {L : Lib} (hL : LibSpec L)
    {Q : Qhull} (hQ : QhullSpec Q) : ∀ (fuel : ℕ) (s s' : Expansion), Missed A b s →
    expandLoop L Q (reordered A [0, 1]) 1e-7 fuel s = .ok (some s') → Missed A b s'
  | 0, s, s', _, h => by cases h
  | fuel + 1, s, s', hM, h => by
    unfold expandLoop at h
    obtain ⟨⟨t, c⟩, k1, h⟩ := Py.bind_eq_ok h
    have ht := missed_for hB hP hL hQ _ s t c hM (fun i hi => List.mem_range.1 hi) k1
    cases c with
    | true =>
      obtain rfl : t = s' := Option.some.inj (Except.ok.inj h)
      exact ht
    | false => exact missed_loop hB hP hL hQ fuel t s' ht h

/-- the equations of the hull of the points found are violated by the vertex -/
theorem Missed.violated {A : Mat ℝ} {b : Vec ℝ} {s : Expansion} (h : Missed A b s) :
    ∃ i < s.eqs.nr, 1e-6 < s.eqs.e i 0 * -500 + s.eqs.e i 1 * (-1 - 0.9e-5) + s.eqs.e i 2 := by
  by_contra hno
  push Not at hno
  -- a point between the vertex and an interior point
  set t : ℝ := 1e-6 / (1e-6 + 0.4) with ht
  have ht1 : t * (1e-6 + 0.4) = 1e-6 := div_mul_cancel₀ _ (by norm_num)
  have ht0 : 0 ≤ t := by rw [ht]; positivity
  have htl : t ≤ 1 := by rw [ht]; norm_num
  have hmem : Spec.InHalfspaces 2 s.eqs fun j => if j = 0 then (1 - t) * -500 else (1 - t) * (-1 - 0.9e-5) + t * (-1 / 2) := by
    intro i hi
    have hu := h.inv.hull.unit i hi
    rw [Finset.sum_range_succ, Finset.sum_range_one] at hu
    have hin : ∀ m < s.points.nr, s.eqs.e i 0 * s.points.e m 0 + s.eqs.e i 1 * s.points.e m 1 + s.eqs.e i 2 ≤ 0 := fun m hm => by
      have := (h.inv.hull.mem _).2 (inHull_row hm) i hi
      simpa [Finset.sum_range_succ] using this
    obtain ⟨m1, hm1, u1, w1⟩ := h.v1
    obtain ⟨m2, hm2, u2, w2⟩ := h.v2
    obtain ⟨m3, hm3, u3, w3⟩ := h.v3
    have i1 := hin m1 hm1
    have i2 := hin m2 hm2
    have i3 := hin m3 hm3
    rw [u1, w1] at i1
    rw [u2, w2] at i2
    rw [u3, w3] at i3
    have hv := hno i hi
    simp only [Finset.sum_range_succ, Finset.sum_range_zero, zero_add, if_true, one_ne_zero, if_false]
    set a := s.eqs.e i 0
    set a' := s.eqs.e i 1
    set c := s.eqs.e i 2
    have ha : |a| ≤ 1 := by rw [← sq_le_one_iff_abs_le_one]; nlinarith [sq_nonneg a']
    have ha' : |a'| ≤ 1 := by rw [← sq_le_one_iff_abs_le_one]; nlinarith [sq_nonneg a]
    rw [abs_le] at ha ha'
    -- the ball of radius 0.4 about the interior point is in the triangle
    have hball : a' * (-1 / 2) + c ≤ -0.4 := by
      have c3 : 0 ≤ 1 / 2 + 0.4 * a' := by norm_num; linarith
      have c1 : 0 ≤ (1 / 2 - 0.4 * a') / 2 - 0.4 * a / 2000 := by norm_num; linarith
      have c2 : 0 ≤ (1 / 2 - 0.4 * a') / 2 + 0.4 * a / 2000 := by norm_num; linarith
      have d1 := mul_nonpos_of_nonneg_of_nonpos c1 i1
      have d2 := mul_nonpos_of_nonneg_of_nonpos c2 i2
      have d3 := mul_nonpos_of_nonneg_of_nonpos c3 i3
      norm_num at d1 d2 d3 ⊢
      linarith
    have e1 := mul_le_mul_of_nonneg_left hv (sub_nonneg.2 htl)
    have e2 := mul_le_mul_of_nonneg_left hball ht0
    linarith
  -- the points found are above the line through `(-1000, -1)` and `(0, -1 - 1e-5)`
  obtain ⟨w, w1, w2, w3⟩ := (h.inv.hull.mem _).1 hmem
  have hl : ∀ k < s.points.nr, 0 ≤ s.points.e k 1 + 1 + 1e-8 * (s.points.e k 0 + 1000) := by
    intro k hk
    rcases h.few k hk with ⟨h1, h2⟩ | ⟨h1, h2⟩ | ⟨h1, h2⟩ | ⟨⟨h1, h2⟩, -⟩ <;> rw [h1, h2] <;> norm_num
  have g0 := w3 0 (by rw [h.inv.nc]; norm_num)
  have g1 := w3 1 (by rw [h.inv.nc]; norm_num)
  simp only [if_true, one_ne_zero, if_false] at g0 g1
  have hsum : 0 ≤ ∑ k ∈ range s.points.nr, w k * (s.points.e k 1 + 1 + 1e-8 * (s.points.e k 0 + 1000)) :=
    Finset.sum_nonneg fun k hk => mul_nonneg (w1 k (mem_range.1 hk)) (hl k (mem_range.1 hk))
  have hexp : ∑ k ∈ range s.points.nr, w k * (s.points.e k 1 + 1 + 1e-8 * (s.points.e k 0 + 1000)) =
      ∑ k ∈ range s.points.nr, w k * s.points.e k 1 + 1e-8 * ∑ k ∈ range s.points.nr, w k * s.points.e k 0 +
        (1 + 1e-5) * ∑ k ∈ range s.points.nr, w k := by
    rw [Finset.mul_sum, Finset.mul_sum, ← Finset.sum_add_distrib, ← Finset.sum_add_distrib]
    refine Finset.sum_congr rfl fun k _ => ?_
    norm_num
    ring
  rw [hexp, ← g0, ← g1, w2] at hsum
  norm_num at hsum

/-- the result of the method for a polytope whose projection is the pentagon -/
theorem pent_method {A : Mat ℝ} {b : Vec ℝ} (hA : 2 ≤ A.nc) (hB : Body 2 (reordered A [0, 1]) b) (hP : ∀ y, Shadow A b y ↔ Pent y) {L : Lib}
    (hL : LibSpec L) {Q : Qhull} (hQ : QhullSpec Q) {rand : List (Vec ℝ) → Vec ℝ} {fuel : ℕ} {r : Projected}
    (hs : convex_hull_method L Q rand fuel A b [0, 1] = .ok (some r)) :
    ∃ i < r.E.nr, r.f.e i + 1e-6 < Spec.rowVal r.E i fun j => if j = 0 then -500 else -1 - 0.9e-5 := by
  obtain ⟨v1, v2, f1, f2, hz, ⟨e, he⟩ | ⟨a, d, x1, x2, P, a1, a2, a3, a4, g1, g2, hx, p1, p2, p3, p4, p5, hm⟩⟩ :=
    pair_method hA hL Q hB rand fuel
  · rw [hs] at he
    cases he
  obtain ⟨b1, b2, b3, b4, b5⟩ := (hP _).1 f1
  obtain ⟨c1, c2, c3, c4, c5⟩ := (hP _).1 f2
  have hl := (hz (fun j => if j = 0 then -1000 else -1) ((hP _).2 (by norm_num [Pent]))).1
  have hr := (hz (fun j => if j = 0 then 1000 else -1) ((hP _).2 (by norm_num [Pent]))).2
  simp only [if_true] at hl hr
  norm_num at b3 b4 b5 c3 c4 c5
  have e1 : v1.e 0 = -1000 := by linarith
  have e2 : v1.e 1 = -1 := by linarith
  have e3 : v2.e 0 = 1000 := by linarith
  have e4 : v2.e 1 = -1 := by linarith
  rw [e1, e2] at a3
  rw [e3, e4] at a4
  have ha0 : a 0 = 0 := by linarith
  have ha1 : a 1 = -1 := by
    rw [ha0] at a1
    have : (a 1 - 1) * (a 1 + 1) = 0 := by linarith
    rcases mul_eq_zero.1 this with h | h
    · exfalso; linarith
    · linarith
  have hd : d = 1 := by linarith
  simp only [ha0, ha1, hd, zero_mul, zero_add] at hx p5
  have q1 := (hx (fun _ => 0) ((hP _).2 (by norm_num [Pent]))).1
  obtain ⟨r1, r2, -⟩ := (hP _).1 g1
  have hx0 : x1 0 = 0 := by linarith
  have hx1 : x1 1 = 0 := by linarith
  rw [if_neg (by rw [hx1]; norm_num)] at p5
  rw [hm] at hs
  obtain ⟨E, k3, hs⟩ := Py.bind_eq_ok hs
  obtain ⟨s, k4, hs⟩ := Py.bind_eq_ok hs
  have hI : Inv 2 (reordered A [0, 1]) b ⟨P, E, b, []⟩ := by
    refine inv_start hQ le_rfl p2 (fun k hk => ?_) k3
    rw [p1] at hk
    interval_cases k
    · rw [p3]; exact f1
    · rw [p4]; exact f2
    · rw [p5]; exact g1
  have hM : Missed A b ⟨P, E, b, []⟩ := by
    refine ⟨hI, ⟨0, by show 0 < P.nr; omega, ?_⟩, ⟨1, by show 1 < P.nr; omega, ?_⟩, ⟨2, by show 2 < P.nr; omega, ?_⟩, fun k hk => ?_⟩
    · show At _ _ (P.e 0)
      rw [p3]; exact ⟨e1, e2⟩
    · show At _ _ (P.e 1)
      rw [p4]; exact ⟨e3, e4⟩
    · show At _ _ (P.e 2)
      rw [p5]; exact ⟨hx0, hx1⟩
    · have hk : k < P.nr := hk
      rw [p1] at hk
      show At _ _ (P.e k) ∨ At _ _ (P.e k) ∨ At _ _ (P.e k) ∨ _
      interval_cases k
      · left; rw [p3]; exact ⟨e1, e2⟩
      · right; left; rw [p4]; exact ⟨e3, e4⟩
      · right; right; left; rw [p5]; exact ⟨hx0, hx1⟩
  cases s with
  | none => cases hs
  | some s =>
    obtain rfl := Option.some.inj (Except.ok.inj hs)
    have hM' := missed_loop hB hP hL hQ fuel _ s hM k4
    obtain ⟨i, hi, hv⟩ := hM'.violated
    refine ⟨i, hi, ?_⟩
    have hn : s.eqs.nc = 3 := hM'.inv.hull.nc
    show - s.eqs.e i (s.eqs.nc - 1) + 1e-6 < ∑ j ∈ range (min (s.eqs.nc - 1) s.eqs.nc), s.eqs.e i j * _
    rw [hn]
    simp only [show min (3 - 1) 3 = 2 from rfl, Finset.sum_range_succ, Finset.sum_range_zero, zero_add, if_true, one_ne_zero, if_false]
    linarith

/-- the pentagon has boxes -/
theorem pent_box {y : ℕ → ℝ} (hy : ∀ j < 2, |y j - (if j = 0 then 0 else -1 / 2)| ≤ 1e-7) : Pent y := by
  have h0 := abs_le.1 (hy 0 (by norm_num))
  have h1 := abs_le.1 (hy 1 (by norm_num))
  simp only [if_true, one_ne_zero, if_false] at h0 h1
  unfold Pent
  norm_num at h0 h1 ⊢
  refine ⟨by linarith, by linarith, by linarith, by linarith, by linarith⟩

theorem pent_bounded {z : ℕ → ℝ} (h : Pent z) : |z 0| ≤ 2000 ∧ |z 1| ≤ 2000 := by
  obtain ⟨h0, h1, h2, h3, h4⟩ := h
  norm_num at h2 h3 h4
  rw [abs_le, abs_le]
  refine ⟨⟨?_, ?_⟩, ?_, ?_⟩ <;> linarith

/-- the pentagon as a polyhedron -/
noncomputable def pentagon : Poly :=
  Poly.fresh ⟨5, 2, fun i j => if i = 0 then (if j = 0 then -1 else 1000) else if i = 1 then (if j = 0 then 1 else 1000)
      else if i = 2 then (if j = 0 then -1.8e-8 else -1) else if i = 3 then (if j = 0 then -0.2e-8 else -1) else (if j = 0 then 1e-8 else -1)⟩
    ⟨5, fun i => if i = 0 then 0 else if i = 1 then 0 else if i = 2 then 1 + 1.8e-5 else 1 + 1e-5⟩ (Mat.zeros 0 2) (Vec.zeros 0)

theorem pentagon_fs (z : ℕ → ℝ) : Fs pentagon.A pentagon.b z ↔ Pent z := by
  unfold Pent
  constructor
  · intro h
    have h0 := h 0 (by show 0 < 5; norm_num)
    have h1 := h 1 (by show 1 < 5; norm_num)
    have h2 := h 2 (by show 2 < 5; norm_num)
    have h3 := h 3 (by show 3 < 5; norm_num)
    have h4 := h 4 (by show 4 < 5; norm_num)
    simp [pentagon, Poly.fresh, Spec.rowVal, Finset.sum_range_succ] at h0 h1 h2 h3 h4
    norm_num at h0 h1 h2 h3 h4 ⊢
    exact ⟨by linarith, by linarith, by linarith, by linarith, by linarith⟩
  · rintro ⟨h0, h1, h2, h3, h4⟩ i hi
    have : i < 5 := hi
    norm_num at h0 h1 h2 h3 h4
    interval_cases i <;> simp [pentagon, Poly.fresh, Spec.rowVal, Finset.sum_range_succ] <;> norm_num <;> linarith

theorem pentagon_mem (z : ℕ → ℝ) : Spec.InPoly pentagon.A pentagon.b pentagon.C pentagon.d z ↔ Pent z := by
  rw [← pentagon_fs]
  exact ⟨fun h => h.1, fun h => ⟨h, fun i hi => absurd hi (Nat.not_lt_zero i)⟩⟩

theorem pentagon_bounded : Spec.IsBounded 2 pentagon.A pentagon.b pentagon.C pentagon.d := by
  refine ⟨2000, fun x hx j hj => ?_⟩
  have := pent_bounded ((pentagon_mem x).1 hx)
  interval_cases j
  · exact this.1
  · exact this.2

theorem pentagon_proj (y : ℕ → ℝ) : Spec.InProj pentagon.A pentagon.b pentagon.C pentagon.d [0, 1] y ↔ Pent y := by
  constructor
  · rintro ⟨x, hx, hy⟩
    have := (pentagon_mem x).1 hx
    unfold Pent at this ⊢
    rw [hy 0 (by simp), hy 1 (by simp)]
    exact this
  · intro h
    refine ⟨y, (pentagon_mem y).2 h, fun k hk => ?_⟩
    have : k < 2 := hk
    interval_cases k <;> rfl

/-- C22 (negation of the bound by `tol`): the pentagon meets the hypotheses of `C22_partial` and contains boxes with sides of length `1e-7`, and
keeping both its coordinates gives, in every run that returns, a polytope one of whose inequalities is violated by more than `10 tol` at a vertex of
the pentagon: the facets below this vertex are skipped, as their normals are close to the downward direction, which has been explored. -/
theorem C22_false : pentagon.Inv 2 ∧ (∀ L, pentagon.EmptyOk L) ∧ pentagon._bounded = none ∧ pentagon.C.nr = 0 ∧
    Spec.NearPoint 2 pentagon.A pentagon.b pentagon.C pentagon.d ∧ Spec.IsBounded 2 pentagon.A pentagon.b pentagon.C pentagon.d ∧
    ∀ L, LibSpec L → ∀ Q, QhullSpec Q → ∀ rand, RandSpec rand →
      (∀ fuel proj q, Poly.project_to L Q rand fuel [0, 1] pentagon = (.ok (some proj), q) →
        ∃ y, Spec.InProj pentagon.A pentagon.b pentagon.C pentagon.d [0, 1] y ∧ ∃ i < proj.A.nr, proj.b.e i + 1e-6 < Spec.rowVal proj.A i y) ∧
      ∀ fuel, (2 * 10 ^ 8 + 1) ^ 2 < fuel → ∃ proj q, Poly.project_to L Q rand fuel [0, 1] pentagon = (.ok (some proj), q) := by
  have hp : pentagon.Inv 2 := ⟨rfl, rfl, rfl, rfl⟩
  have hc : ∀ L, pentagon.EmptyOk L := fun L e h => (by cases h)
  have hne : Spec.NearPoint 2 pentagon.A pentagon.b pentagon.C pentagon.d :=
    ⟨fun _ => 0, (pentagon_mem _).2 (by norm_num [Pent]), by norm_num⟩
  have hB : Body 2 (reordered pentagon.A [0, 1]) pentagon.b := by
    refine body_reordered (pair_cols le_rfl) (by simp) (by simp) rfl ⟨fun _ => 0, (pentagon_fs _).2 (by norm_num [Pent])⟩ ?_
    obtain ⟨R, hR⟩ := pentagon_bounded
    exact ⟨R, fun x hx j hj => hR x ((pentagon_mem x).2 ((pentagon_fs x).1 hx)) j hj⟩
  refine ⟨hp, hc, rfl, rfl, hne, pentagon_bounded, fun L hL Q hQ rand hr => ⟨fun fuel proj q h => ?_, fun fuel hf => ?_⟩⟩
  · refine ⟨fun j => if j = 0 then -500 else -1 - 0.9e-5, (pentagon_proj _).2 (by norm_num [Pent]), ?_⟩
    obtain ⟨q1, -, -, -, -, hrun, -, hret⟩ := project_run hL hp (Poly.hasRows_of_bounded two_pos pentagon_bounded) two_pos (hc L) hne (Or.inl ⟨rfl, pentagon_bounded⟩) rfl Q rand fuel [0, 1]
    obtain ⟨r, hs⟩ := hret proj q h
    have hG := method_good hL hQ (dims := [0, 1]) hB (pair_cols le_rfl) hs
    rw [hrun r hs hG.fn] at h
    obtain rfl := Option.some.inj (Except.ok.inj (Prod.mk.inj h).1)
    exact pent_method le_rfl hB (fun y => (pr_pair rfl y).trans (pentagon_fs y)) hL hQ hs
  · exact (C22_partial L hL Q hQ rand hr 2 pentagon hp (hc L) (Or.inl rfl) hne pentagon_bounded rfl [0, 1] (by simp) (by simp) (by simp) fuel).2
      (Or.inr ⟨hf, fun j => if j = 0 then 0 else -1 / 2, 1e-7, by norm_num, fun y hy => (pentagon_proj y).2 (pent_box hy)⟩)

end Verif.Props
