import Verif.Props.Mcais
import Verif.Math.PowerTendsto
import Mathlib.Analysis.Complex.Basic

/- Termination of `mcais`: C56 and C57 of properties.jsonl. -/
namespace Verif.Props
open Dyn Spec Finset Filter Topology

/-- every trajectory of `x⁺ = A x` goes to the origin -/
def Stable (n : ℕ) (A : Mat ℝ) : Prop := ∀ (x : ℕ → ℝ), ∀ i < n, Tendsto (fun t => orbit A x t i) atTop (𝓝 0)

/-- the origin is in the interior -/
def OriginInside (n : ℕ) (X : Poly) : Prop := ∃ ε > 0, ∀ x : ℕ → ℝ, (∀ j < n, |x j| ≤ ε) → X.Mem x

/-- the trajectory from an eigenvector -/
theorem orbit_eig {n : ℕ} {A : Mat ℝ} (h2 : A.nc = n) {l : ℂ} {v : ℕ → ℂ}
    (h : ∀ i < n, ∑ j ∈ range n, (A.e i j : ℂ) * v j = l * v i) : ∀ t, ∀ i < n,
    (orbit A (fun j => (v j).re) t i : ℂ) + Complex.I * (orbit A (fun j => (v j).im) t i : ℂ) = l ^ t * v i
  | 0, i, _ => by
    simp only [orbit, pow_zero, one_mul]
    rw [mul_comm]
    exact Complex.re_add_im _
  | t + 1, i, hi => by
    simp only [orbit, h2]
    push_cast
    rw [Finset.mul_sum, ← Finset.sum_add_distrib]
    have e : ∀ j ∈ range n, (A.e i j : ℂ) * (orbit A (fun j => (v j).re) t j : ℂ)
        + Complex.I * ((A.e i j : ℂ) * (orbit A (fun j => (v j).im) t j : ℂ)) = l ^ t * ((A.e i j : ℂ) * v j) := by
      intro j hj
      rw [mul_left_comm (l ^ t), ← orbit_eig h2 h t j (Finset.mem_range.1 hj)]
      ring
    rw [Finset.sum_congr rfl e, ← Finset.mul_sum, h i hi]
    ring

theorem no_eig_above {n : ℕ} {A : Mat ℝ} (h1 : A.nr = n) (h2 : A.nc = n) (hs : Stable n A) : ¬ HasEigAboveOne A := by
  rintro ⟨l, v, ⟨i, hi, hv⟩, h, hl⟩
  rw [h1] at hi h
  have t1 := (Complex.continuous_ofReal.tendsto 0).comp (hs (fun j => (v j).re) i hi)
  have t2 := (Complex.continuous_ofReal.tendsto 0).comp (hs (fun j => (v j).im) i hi)
  have t3 := (t1.add (t2.const_mul Complex.I)).norm
  simp only [Function.comp_def, Complex.ofReal_zero, mul_zero, add_zero, norm_zero] at t3
  have t4 : Tendsto (fun t : ℕ => ‖l ^ t * v i‖) atTop (𝓝 0) := t3.congr fun t => by rw [orbit_eig h2 h t i hi]
  have t5 : ‖v i‖ ≤ 0 := ge_of_tendsto' t4 fun t => by
    rw [norm_mul, norm_pow]
    exact le_mul_of_one_le_left (norm_nonneg _) (one_le_pow₀ hl.le)
  exact hv (norm_le_zero_iff.1 t5)

/-- the trajectory depends linearly on the initial state -/
theorem orbit_linear {n : ℕ} {A : Mat ℝ} (h2 : A.nc = n) (x : ℕ → ℝ) : ∀ t, ∀ i < n,
    orbit A x t i = ∑ k ∈ range n, x k * orbit A (fun j => if j = k then 1 else 0) t i
  | 0, i, hi => by
    simp only [orbit]
    rw [Finset.sum_eq_single i]
    · simp
    · intro k _ hk; simp [Ne.symm hk]
    · intro h; exact absurd (Finset.mem_range.2 hi) h
  | t + 1, i, hi => by
    simp only [orbit, h2]
    simp only [Finset.mul_sum]
    rw [Finset.sum_comm]
    refine Finset.sum_congr rfl fun j hj => ?_
    rw [orbit_linear h2 x t j (Finset.mem_range.1 hj), Finset.mul_sum]
    exact Finset.sum_congr rfl fun k _ => by ring

/-- the checks pass -/
theorem checks_ok {L : Lib} (hL : LibSpec L) {n : ℕ} {A : Mat ℝ} {X : Poly} (hd : McaisData L n A X) (hn : 0 < n)
    (hb : X._bounded = none ∨ X._bounded = some true) (he : ¬ HasEigAboveOne A) : ∃ X', mcaisChecks L A X = .ok X' := by
  have hA : 0 < X.A.nr := by
    by_contra hA
    obtain ⟨R, hR⟩ := hd.bounded
    have := hR (fun _ => |R| + 1) ((mem_noeq hd.noeq _).2 fun i hi => by omega) 0 hn
    rw [abs_of_nonneg (by positivity)] at this
    linarith [le_abs_self R]
  obtain ⟨c, hc, hc'⟩ := contains_iff hd.inv hA (Vec.zeros X.A.nc) hd.inv.1 1e-7
  have hct : c = true := hc'.2 ⟨fun i hi => by
    have := hd.origin.1 i hi
    simp only [mul_zero, Finset.sum_const_zero] at this
    simp only [Vec.zeros, mul_zero, Finset.sum_const_zero]
    norm_num
    linarith, fun h => by rw [hd.noeq] at h; omega⟩
  subst hct
  obtain ⟨X', hX'⟩ : ∃ X', Poly.bounded L X = (.ok true, X') := by
    rcases hb with hb | hb
    · obtain ⟨r, q, h1, h2, -⟩ := C17_any_scaling L hL n X hd.inv hd.empty_ok hb (Poly.hasRows_of_bounded hd.pos hd.bounded) hd.pos (near_zero hd.origin)
      rw [h2 hd.bounded] at h1
      exact ⟨q, h1⟩
    · refine ⟨X, ?_⟩
      unfold Poly.bounded
      simp [PyM.bind_apply, hb]
      try rfl
  refine ⟨X', ?_⟩
  unfold mcaisChecks
  rw [if_neg (by rw [hd.nr, hd.nc]; simp), if_neg (by rw [hd.nr]; omega), if_neg he, hc, Py.ok_bind, if_neg (by simp)]
  simp only [hX']

/-- the number of iterations after which all trajectories from `X` are in `X` -/
theorem exists_return {n : ℕ} {A : Mat ℝ} {X : Poly} (h2 : A.nc = n) (hb : IsBounded n X.A X.b X.C X.d) (hi : OriginInside n X)
    (hs : Stable n A) : ∃ T, 1 ≤ T ∧ ∀ x, X.Mem x → X.Mem (orbit A x T) := by
  obtain ⟨ε, hε, hX⟩ := hi
  obtain ⟨R, hR⟩ := hb
  have key : ∀ i < n, ∀ᶠ T in atTop, ∀ x, X.Mem x → |orbit A x T i| ≤ ε := by
    intro i hi
    have t1 : Tendsto (fun t => |R| * ∑ k ∈ range n, |orbit A (fun j => if j = k then 1 else 0) t i|) atTop (𝓝 0) := by
      have := (tendsto_finsetSum (range n) fun k _ => (hs (fun j => if j = k then 1 else 0) i hi).abs).const_mul |R|
      simpa using this
    filter_upwards [t1.eventually (ge_mem_nhds hε)] with T hT x hx
    refine le_trans ?_ hT
    rw [orbit_linear h2 x T i hi, Finset.mul_sum]
    refine (Finset.abs_sum_le_sum_abs _ _).trans (Finset.sum_le_sum fun k hk => ?_)
    rw [abs_mul]
    exact mul_le_mul_of_nonneg_right ((hR x hx k (Finset.mem_range.1 hk)).trans (le_abs_self R)) (abs_nonneg _)
  have key2 : ∀ᶠ T in atTop, ∀ i ∈ range n, ∀ x, X.Mem x → |orbit A x T i| ≤ ε :=
    (Finset.eventually_all (range n)).2 fun i hi => key i (Finset.mem_range.1 hi)
  obtain ⟨T, h1, h3⟩ := (key2.and (eventually_ge_atTop 1)).exists
  exact ⟨T, h3, fun x hx => hX _ fun j hj => h1 j (Finset.mem_range.2 hj) x hx⟩

/-- more iterations do not change the result of the loop -/
theorem mcaisLoop_mono {L : Lib} {A XA : Mat ℝ} {Xb : Vec ℝ} : ∀ {fuel : ℕ} {O O' : Poly} {t : ℕ} (k : ℕ),
    mcaisLoop L A XA Xb fuel O t = .ok (some O') → mcaisLoop L A XA Xb (fuel + k) O t = .ok (some O')
  | 0, O, O', t, k, h => by unfold mcaisLoop at h; cases h
  | fuel + 1, O, O', t, k, h => by
    rw [show fuel + 1 + k = fuel + k + 1 from by omega]
    unfold mcaisLoop at h ⊢
    obtain ⟨J, h1, h2⟩ := Py.bind_eq_ok h
    obtain ⟨res, h3, h4⟩ := Py.bind_eq_ok h2
    rw [h1, Py.ok_bind, h3, Py.ok_bind]
    dsimp only at h4 ⊢
    split_ifs at h4 ⊢ with hf
    · exact h4
    · obtain ⟨Jn, h5, h6⟩ := Py.bind_eq_ok h4
      obtain ⟨bn, h7, h8⟩ := Py.bind_eq_ok h6
      obtain ⟨O1, h9, h10⟩ := Py.bind_eq_ok h8
      rw [h5, Py.ok_bind, h7, Py.ok_bind, h9, Py.ok_bind]
      exact mcaisLoop_mono k h10

/-- more iterations do not change the result of `mcais` -/
theorem mcais_mono {L : Lib} {A : Mat ℝ} {X O : Poly} {fuel : ℕ} (h : mcais L A X fuel = .ok (some O)) {fuel' : ℕ} (hf : fuel ≤ fuel') :
    mcais L A X fuel' = .ok (some O) := by
  obtain ⟨k, rfl⟩ := Nat.exists_eq_add_of_le hf
  unfold mcais mcaisBefore at h ⊢
  obtain ⟨Ob, h1, h2⟩ := Py.bind_eq_ok h
  obtain ⟨X', h3, h4⟩ := Py.bind_eq_ok h1
  cases Ob with
  | none => cases h2
  | some Ob =>
    rw [h3, Py.ok_bind, mcaisLoop_mono k h4, Py.ok_bind]
    exact h2

/-- C56: if every trajectory goes to the origin, and `X` is bounded and contains the origin in its interior, `mcais` returns. -/
theorem C56 (L : Lib) (hL : LibSpec L) (n : ℕ) (A : Mat ℝ) (X : Poly) (hd : McaisData L n A X) (hn : 0 < n)
    (hb : X._bounded = none ∨ X._bounded = some true) (hi : OriginInside n X) (hs : Stable n A) :
    ∃ T O, ∀ fuel ≥ T, mcais L A X fuel = .ok (some O) := by
  obtain ⟨X', hX'⟩ := checks_ok hL hd hn hb (no_eig_above hd.nr hd.nc hs)
  obtain ⟨T, hT, hret⟩ := exists_return hd.nc hd.bounded hi hs
  rcases before_ok hL hd hX' T with ⟨-, h⟩ | ⟨O, t, h1, h2, h3, h4, h5, h6, h7, h8⟩
  · obtain ⟨x, hx, hx'⟩ := h T hT (by omega)
    exact absurd (hret x (hx 0 (by omega))) hx'
  · obtain ⟨r, q, k1, -⟩ := after_ok hL hd h2 h3 h4 h8 h1
    exact ⟨T, q, fun fuel hf => mcais_mono k1 hf⟩

/-- if all eigenvalues are inside the unit circle then the system is stable -/
theorem stable_of_eig {n : ℕ} {A : Mat ℝ} (h2 : A.nc = n)
    (h : ∀ (l : ℂ) (v : ℕ → ℂ), (∃ i < n, v i ≠ 0) → (∀ i < n, ∑ j ∈ range n, (A.e i j : ℂ) * v j = l * v i) → ‖l‖ < 1) :
    Stable n A := by
  intro x i hi
  have : NeZero n := ⟨by omega⟩
  let M : Matrix (Fin n) (Fin n) ℂ := Matrix.of fun i j => (A.e i j : ℂ)
  have hM : Tendsto (fun t : ℕ => M ^ t) atTop (𝓝 0) := by
    refine Math.pow_tendsto_of_eig M fun l v hv he => ?_
    refine h l (fun j => if hj : j < n then v ⟨j, hj⟩ else 0) ?_ fun i hi => ?_
    · obtain ⟨k, hk⟩ := Function.ne_iff.1 hv
      exact ⟨k, k.2, by simpa using hk⟩
    · have := congrFun he ⟨i, hi⟩
      simp only [Matrix.mulVec, dotProduct, M, Matrix.of_apply, Pi.smul_apply, smul_eq_mul] at this
      rw [Finset.sum_range]
      simp only [hi, dite_true, Fin.is_lt, Fin.eta]
      exact this
  have ho : ∀ t, ∀ i : Fin n, (orbit A x t i : ℂ) = ((M ^ t).mulVec fun j : Fin n => (x j : ℂ)) i := by
    intro t
    induction t with
    | zero => intro i; simp [orbit]
    | succ t ih =>
      intro i
      rw [pow_succ', ← Matrix.mulVec_mulVec]
      simp only [orbit, h2]
      rw [Finset.sum_range]
      push_cast
      simp only [ih, Matrix.mulVec, dotProduct, M, Matrix.of_apply]
  have h3 : Tendsto (fun t : ℕ => ((M ^ t).mulVec fun j : Fin n => (x j : ℂ)) ⟨i, hi⟩) atTop (𝓝 0) := by
    have hent : ∀ j, Tendsto (fun t : ℕ => (M ^ t) ⟨i, hi⟩ j) atTop (𝓝 0) := fun j =>
      tendsto_pi_nhds.1 (tendsto_pi_nhds.1 hM ⟨i, hi⟩) j
    have := tendsto_finsetSum Finset.univ fun (j : Fin n) _ => (hent j).mul_const (x j : ℂ)
    simpa [Matrix.mulVec, dotProduct] using this
  have h4 := (Complex.continuous_re.tendsto 0).comp (h3.congr fun t => (ho t ⟨i, hi⟩).symm)
  simpa [Function.comp_def] using h4

/-- C57, the part that holds: `mcais` returns if all eigenvalues have modulus below one.  Missing: eigenvalues on the unit circle,
which the check of `mcais` accepts (see `C57_false`), and polyhedra with the origin on the boundary (see `C57_boundary_false`). -/
theorem C57_partial (L : Lib) (hL : LibSpec L) (n : ℕ) (A : Mat ℝ) (X : Poly) (hd : McaisData L n A X) (hn : 0 < n)
    (hb : X._bounded = none ∨ X._bounded = some true) (hi : OriginInside n X)
    (h : ∀ (l : ℂ) (v : ℕ → ℂ), (∃ i < n, v i ≠ 0) → (∀ i < n, ∑ j ∈ range n, (A.e i j : ℂ) * v j = l * v i) → ‖l‖ < 1) :
    ∃ T O, ∀ fuel ≥ T, mcais L A X fuel = .ok (some O) :=
  C56 L hL n A X hd hn hb hi (stable_of_eig hd.nc h)

/-- the square `|x| ≤ 1, |y| ≤ 1` -/
noncomputable def square : Poly :=
  Poly.fresh ⟨4, 2, fun i j => if i = 2 * j then 1 else if i = 2 * j + 1 then -1 else 0⟩ ⟨4, fun _ => 1⟩ (Mat.zeros 0 2) (Vec.zeros 0)

theorem square_mem (x : ℕ → ℝ) : square.Mem x ↔ |x 0| ≤ 1 ∧ |x 1| ≤ 1 := by
  rw [mem_noeq rfl]
  show (∀ i < 4, _) ↔ _
  constructor
  · intro h
    have h0 := h 0 (by omega)
    have h1 := h 1 (by omega)
    have h2 := h 2 (by omega)
    have h3 := h 3 (by omega)
    simp [square, Poly.fresh, rowVal, Finset.sum_range_succ] at h0 h1 h2 h3
    exact ⟨abs_le.2 ⟨by linarith, h0⟩, abs_le.2 ⟨by linarith, h2⟩⟩
  · rintro ⟨h0, h1⟩ i hi
    obtain ⟨a1, a2⟩ := abs_le.1 h0
    obtain ⟨a3, a4⟩ := abs_le.1 h1
    interval_cases i <;> simp [square, Poly.fresh, rowVal, Finset.sum_range_succ] <;> linarith

theorem square_bounded : IsBounded 2 square.A square.b square.C square.d :=
  ⟨1, fun x hx j hj => by
    obtain ⟨h0, h1⟩ := (square_mem x).1 hx
    interval_cases j
    · exact h0
    · exact h1⟩

theorem square_data (L : Lib) {A : Mat ℝ} (h1 : A.nr = 2) (h2 : A.nc = 2) : McaisData L 2 A square :=
  ⟨h1, h2, ⟨rfl, rfl, rfl, rfl⟩, rfl, (square_mem _).2 (by simp), square_bounded, fun e he => (by cases he), two_pos⟩

/-- C57 is false of the code: for the double integrator, whose eigenvalues are 1, the checks pass but the loop never stops. -/
theorem C57_false : ∃ (A : Mat ℝ) (X : Poly), OriginInside 2 X ∧ IsBounded 2 X.A X.b X.C X.d ∧
    ∀ L, LibSpec L → (∃ X', mcaisChecks L A X = .ok X') ∧ ∀ fuel, mcais L A X fuel = .ok none := by
  let A : Mat ℝ := ⟨2, 2, fun i j => if i ≤ j then 1 else 0⟩
  have ho : ∀ (x : ℕ → ℝ) (t : ℕ), orbit A x t 0 = x 0 + t * x 1 ∧ orbit A x t 1 = x 1 := by
    intro x t
    induction t with
    | zero => simp [orbit]
    | succ t ih =>
      obtain ⟨i1, i2⟩ := ih
      constructor
      · show ∑ j ∈ range 2, _ = _
        simp [A, Finset.sum_range_succ, i1, i2]
        ring
      · show ∑ j ∈ range 2, _ = _
        simp [A, Finset.sum_range_succ, i1, i2]
  have he : ¬ HasEigAboveOne A := by
    rintro ⟨l, v, ⟨i, hi, hv⟩, h, hl⟩
    have h0 := h 0 (by show 0 < 2; omega)
    have h1 := h 1 (by show 1 < 2; omega)
    simp [A, Finset.sum_range_succ] at h0 h1
    have hl1 : l = 1 := by
      by_cases hv1 : v 1 = 0
      · have hv0 : v 0 ≠ 0 := by
          have : i < 2 := hi
          interval_cases i
          · exact hv
          · exact absurd hv1 hv
        rw [hv1, add_zero] at h0
        exact (mul_right_cancel₀ hv0 (by rw [one_mul]; exact h0)).symm
      · exact (mul_right_cancel₀ hv1 (by rw [one_mul]; exact h1)).symm
    rw [hl1] at hl
    simp at hl
  refine ⟨A, square, ⟨1, one_pos, fun x hx => (square_mem x).2 ⟨hx 0 (by omega), hx 1 (by omega)⟩⟩, square_bounded, fun L hL => ?_⟩
  have hd : McaisData L 2 A square := square_data L rfl rfl
  obtain ⟨X', hX'⟩ := checks_ok hL hd (by omega) (.inl rfl) he
  refine ⟨⟨X', hX'⟩, fun fuel => ?_⟩
  rcases before_ok hL hd hX' fuel with ⟨h, -⟩ | ⟨O, t, h1, h2, h3, h4, h5, h6, h7, h8⟩
  · unfold mcais
    rw [h]; rfl
  · exfalso
    have ht : (0 : ℝ) < t := by exact_mod_cast h5
    have hx : O.Mem fun _ => (1 : ℝ) / t := by
      refine (h6 _).2 fun s hs => (square_mem _).2 ?_
      obtain ⟨e1, e2⟩ := ho (fun _ => (1 : ℝ) / t) s
      have hs' : (s : ℝ) + 1 ≤ t := by exact_mod_cast hs
      have hs0 : (0 : ℝ) ≤ s := Nat.cast_nonneg s
      rw [e1, e2]
      constructor
      · rw [abs_of_nonneg (by positivity), ← one_add_mul, mul_one_div, div_le_one ht]; linarith
      · rw [abs_of_nonneg (by positivity), div_le_one ht]; linarith
    have := ((square_mem _).1 (h7 _ hx)).1
    rw [(ho _ t).1, mul_one_div, div_self ht.ne'] at this
    rw [abs_of_nonneg (by positivity)] at this
    have : 0 < 1 / (t : ℝ) := by positivity
    linarith

/-- the part `x ≤ y` of the square; the origin is on its boundary -/
noncomputable def wedge : Poly :=
  Poly.fresh ⟨5, 2, fun i j => if i = 4 then (if j = 0 then 1 else -1) else if i = 2 * j then 1 else if i = 2 * j + 1 then -1 else 0⟩
    ⟨5, fun i => if i = 4 then 0 else 1⟩ (Mat.zeros 0 2) (Vec.zeros 0)

theorem wedge_mem (x : ℕ → ℝ) : wedge.Mem x ↔ |x 0| ≤ 1 ∧ |x 1| ≤ 1 ∧ x 0 ≤ x 1 := by
  rw [mem_noeq rfl]
  show (∀ i < 5, _) ↔ _
  constructor
  · intro h
    have h0 := h 0 (by omega)
    have h1 := h 1 (by omega)
    have h2 := h 2 (by omega)
    have h3 := h 3 (by omega)
    have h4 := h 4 (by omega)
    simp [wedge, Poly.fresh, rowVal, Finset.sum_range_succ] at h0 h1 h2 h3 h4
    exact ⟨abs_le.2 ⟨by linarith, h0⟩, abs_le.2 ⟨by linarith, h2⟩, by linarith⟩
  · rintro ⟨h0, h1, h2⟩ i hi
    obtain ⟨a1, a2⟩ := abs_le.1 h0
    obtain ⟨a3, a4⟩ := abs_le.1 h1
    interval_cases i <;> simp [wedge, Poly.fresh, rowVal, Finset.sum_range_succ] <;> linarith

theorem wedge_bounded : IsBounded 2 wedge.A wedge.b wedge.C wedge.d :=
  ⟨1, fun x hx j hj => by
    obtain ⟨h0, h1, -⟩ := (wedge_mem x).1 hx
    interval_cases j
    · exact h0
    · exact h1⟩

/-- C57 is false of the code also for eigenvalues inside the unit circle: the docstring of `mcais` asks for a stable `A` and a bounded `X` that contains
the origin, but for `A = diag(1/2, 1/4)` and the triangle `x ≤ y` in the square, with the origin on its boundary, the loop never stops. -/
theorem C57_boundary_false : ∃ (A : Mat ℝ) (X : Poly), Stable 2 A ∧ (X.Mem fun _ => 0) ∧ IsBounded 2 X.A X.b X.C X.d ∧
    (∃ c : ℕ → ℝ, ∃ r > 0, ∀ x : ℕ → ℝ, (∀ j < 2, |x j - c j| ≤ r) → X.Mem x) ∧
    ∀ L, LibSpec L → (∃ X', mcaisChecks L A X = .ok X') ∧ ∀ fuel, mcais L A X fuel = .ok none := by
  let A : Mat ℝ := ⟨2, 2, fun i j => if i = j then (if i = 0 then 1 / 2 else 1 / 4) else 0⟩
  have ho : ∀ (x : ℕ → ℝ) (t : ℕ), orbit A x t 0 = (1 / 2) ^ t * x 0 ∧ orbit A x t 1 = (1 / 2) ^ (2 * t) * x 1 := by
    intro x t
    induction t with
    | zero => simp [orbit]
    | succ t ih =>
      obtain ⟨i1, i2⟩ := ih
      constructor
      · show ∑ j ∈ range 2, _ = _
        simp only [A, Finset.sum_range_succ, i1, i2, Finset.range_zero, Finset.sum_empty]
        norm_num
        ring
      · show ∑ j ∈ range 2, _ = _
        simp only [A, Finset.sum_range_succ, i1, i2, Finset.range_zero, Finset.sum_empty]
        norm_num
        ring
  have hs : Stable 2 A := by
    intro x i hi
    have h2 : Tendsto (fun t : ℕ => (1 / 2 : ℝ) ^ t) atTop (𝓝 0) := tendsto_pow_atTop_nhds_zero_of_lt_one (by norm_num) (by norm_num)
    interval_cases i
    · simp only [(ho x _).1]
      simpa using h2.mul_const (x 0)
    · simp only [(ho x _).2]
      have h3 := (h2.mul h2).mul_const (x 1)
      simp only [mul_zero, zero_mul] at h3
      exact h3.congr fun t => by rw [two_mul, pow_add]
  have h0 : wedge.Mem fun _ => 0 := (wedge_mem _).2 (by simp)
  refine ⟨A, wedge, hs, h0, wedge_bounded, ⟨fun j => if j = 0 then -1 / 2 else 1 / 2, 1 / 2, by norm_num, fun x hx => (wedge_mem x).2 ?_⟩, fun L hL => ?_⟩
  · have k0 := abs_le.1 (hx 0 (by omega))
    have k1 := abs_le.1 (hx 1 (by omega))
    simp only [if_true, one_ne_zero, if_false] at k0 k1
    exact ⟨abs_le.2 ⟨by linarith, by linarith⟩, abs_le.2 ⟨by linarith, by linarith⟩, by linarith⟩
  have hd : McaisData L 2 A wedge := ⟨rfl, rfl, ⟨rfl, rfl, rfl, rfl⟩, rfl, h0, wedge_bounded, fun e he => (by cases he), two_pos⟩
  obtain ⟨X', hX'⟩ := checks_ok hL hd (by omega) (.inl rfl) (no_eig_above rfl rfl hs)
  refine ⟨⟨X', hX'⟩, fun fuel => ?_⟩
  rcases before_ok hL hd hX' fuel with ⟨h, -⟩ | ⟨O, t, h1, h2, h3, h4, h5, h6, h7, h8⟩
  · unfold mcais
    rw [h]; rfl
  · exfalso
    have hp : ∀ k : ℕ, (0 : ℝ) < (1 / 2) ^ k ∧ (1 / 2 : ℝ) ^ k ≤ 1 := fun k => ⟨by positivity, pow_le_one₀ (by norm_num) (by norm_num)⟩
    have hx : O.Mem fun j => if j = 0 then (1 / 2 : ℝ) ^ (t - 1) else 1 := by
      refine (h6 _).2 fun s hs => (wedge_mem _).2 ?_
      obtain ⟨e1, e2⟩ := ho (fun j => if j = 0 then (1 / 2 : ℝ) ^ (t - 1) else 1) s
      rw [e1, e2]
      simp only [if_true, one_ne_zero, if_false, mul_one]
      rw [← pow_add]
      refine ⟨?_, ?_, pow_le_pow_of_le_one (by norm_num) (by norm_num) (by omega)⟩
      · rw [abs_of_pos (hp _).1]; exact (hp _).2
      · rw [abs_of_pos (hp _).1]; exact (hp _).2
    have := ((wedge_mem _).1 (h7 _ hx)).2.2
    rw [(ho _ t).1, (ho _ t).2] at this
    simp only [if_true, one_ne_zero, if_false, mul_one] at this
    rw [← pow_add] at this
    have h9 : (1 / 2 : ℝ) ^ (2 * t) < (1 / 2) ^ (t + (t - 1)) := pow_lt_pow_right_of_lt_one₀ (by norm_num) (by norm_num) (by omega)
    linarith

/-- the hypotheses of C54, C56 and `C57_partial` are met by a contraction of the plane and the square -/
example (L : Lib) : let A : Mat ℝ := ⟨2, 2, fun i j => if i ≤ j then 1 / 2 else 0⟩
    McaisData L 2 A square ∧ OriginInside 2 square ∧
    ∀ (l : ℂ) (v : ℕ → ℂ), (∃ i < 2, v i ≠ 0) → (∀ i < 2, ∑ j ∈ range 2, (A.e i j : ℂ) * v j = l * v i) → ‖l‖ < 1 := by
  intro A
  refine ⟨square_data L rfl rfl, ⟨1, one_pos, fun x hx => (square_mem x).2 ⟨hx 0 (by omega), hx 1 (by omega)⟩⟩, ?_⟩
  rintro l v ⟨i, hi, hv⟩ h
  have h0 := h 0 (by omega)
  have h1 := h 1 (by omega)
  simp [A, Finset.sum_range_succ] at h0 h1
  have hl1 : l = 2⁻¹ := by
    by_cases hv1 : v 1 = 0
    · have hv0 : v 0 ≠ 0 := by
        interval_cases i
        · exact hv
        · exact absurd hv1 hv
      rw [hv1, mul_zero, add_zero] at h0
      exact (mul_right_cancel₀ hv0 h0).symm
    · exact (h1.resolve_right hv1).symm
  rw [hl1]
  norm_num

end Verif.Props
