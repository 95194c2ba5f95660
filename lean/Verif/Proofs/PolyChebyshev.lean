import Verif.Proofs.PolyQueries
import Mathlib.Algebra.Order.BigOperators.Ring.Finset
import Mathlib.Analysis.InnerProductSpace.Basic

/- Lemmas on the Chebyshev ball. -/
namespace Verif
open Finset

/-- norm of the `i`-th row -/
noncomputable def rowNorm (A : Mat ℝ) (i : ℕ) : ℝ := Real.sqrt (∑ j ∈ range A.nc, A.e i j ^ 2)

theorem rowNorm_nonneg (A : Mat ℝ) (i : ℕ) : 0 ≤ rowNorm A i := Real.sqrt_nonneg _

theorem rowNorm_sq (A : Mat ℝ) (i : ℕ) : rowNorm A i ^ 2 = ∑ j ∈ range A.nc, A.e i j ^ 2 :=
  Real.sq_sqrt (Finset.sum_nonneg fun _ _ => sq_nonneg _)

/-- the ball of radius `r` about `x` satisfies the inequalities -/
def Fits (A : Mat ℝ) (b : Vec ℝ) (x : ℕ → ℝ) (r : ℝ) : Prop :=
  ∀ i < A.nr, Spec.rowVal A i x + r * rowNorm A i ≤ b.e i

theorem rowVal_add (A : Mat ℝ) (i : ℕ) (x v : ℕ → ℝ) :
    Spec.rowVal A i (fun j => x j + v j) = Spec.rowVal A i x + Spec.rowVal A i v := by
  simp only [Spec.rowVal, mul_add, Finset.sum_add_distrib]

theorem rowVal_le_norm (A : Mat ℝ) (i : ℕ) (v : ℕ → ℝ) :
    Spec.rowVal A i v ≤ rowNorm A i * Real.sqrt (∑ j ∈ range A.nc, v j ^ 2) := by
  unfold Spec.rowVal rowNorm
  exact Real.sum_mul_le_sqrt_mul_sqrt _ _ _

/-- a ball satisfies the inequalities exactly when the shifted inequalities hold at the center -/
theorem ball_iff_fits (A : Mat ℝ) (b : Vec ℝ) (x : ℕ → ℝ) {r : ℝ} (hr : 0 ≤ r) :
    (∀ v : ℕ → ℝ, Real.sqrt (∑ j ∈ range A.nc, v j ^ 2) ≤ r →
      ∀ i < A.nr, Spec.rowVal A i (fun j => x j + v j) ≤ b.e i) ↔ Fits A b x r := by
  constructor
  · intro h i hi
    by_cases h0 : rowNorm A i = 0
    · have := h (fun _ => 0) (by simpa using hr) i hi
      rw [h0]
      simpa using this
    · have hpos : 0 < rowNorm A i := lt_of_le_of_ne (rowNorm_nonneg A i) (Ne.symm h0)
      have hsum : ∑ j ∈ range A.nc, (r / rowNorm A i * A.e i j) ^ 2 = r ^ 2 := by
        simp only [mul_pow]
        rw [← Finset.mul_sum, ← rowNorm_sq, div_pow, div_mul_cancel₀ _ (by positivity)]
      have := h (fun j => r / rowNorm A i * A.e i j) (by rw [hsum, Real.sqrt_sq hr]) i hi
      rw [rowVal_add] at this
      have e : Spec.rowVal A i (fun j => r / rowNorm A i * A.e i j) = r * rowNorm A i := by
        unfold Spec.rowVal
        calc ∑ j ∈ range A.nc, A.e i j * (r / rowNorm A i * A.e i j)
            = r / rowNorm A i * ∑ j ∈ range A.nc, A.e i j ^ 2 := by
              rw [Finset.mul_sum]; exact Finset.sum_congr rfl fun j _ => by ring
          _ = r * rowNorm A i := by rw [← rowNorm_sq]; field_simp
      rw [e] at this
      exact this
  · intro h v hv i hi
    rw [rowVal_add]
    have h1 := rowVal_le_norm A i v
    have h2 := mul_le_mul_of_nonneg_left hv (rowNorm_nonneg A i)
    have h3 := h i hi
    linarith [mul_comm r (rowNorm A i)]

theorem fits_mono {A : Mat ℝ} {b : Vec ℝ} {x : ℕ → ℝ} {r r' : ℝ} (h : Fits A b x r) (hr : r' ≤ r) : Fits A b x r' :=
  fun i hi => by
    have := h i hi
    have := mul_le_mul_of_nonneg_right hr (rowNorm_nonneg A i)
    linarith

namespace Poly

theorem neg_neg_vec (v : Vec ℝ) : v.neg.neg = v := by
  cases v
  simp [Vec.neg]

/-- the rows of the linear program of `_chebyshev` -/
theorem chebRow (A : Mat ℝ) (i : ℕ) (z : ℕ → ℝ) :
    ∑ j ∈ range (A.nc + 1), (A.happ (rowNorms A).neg).e i j * z j
      = Spec.rowVal A i z + (-z A.nc) * rowNorm A i := by
  rw [Finset.sum_range_succ]
  congr 1
  · exact Finset.sum_congr rfl fun j hj => by rw [Mat.happ_e, if_pos (mem_range.1 hj)]
  · rw [Mat.happ_e, if_neg (lt_irrefl _)]
    show -(rowNorm A i) * z A.nc = _
    ring

theorem chebCost (k : ℕ) (z : Vec ℝ) : Spec.lpCost ((Vec.zeros k).append (Vec.ones 1)) z = z.e k := by
  unfold Spec.lpCost
  rw [show ((Vec.zeros k : Vec ℝ).append (Vec.ones 1)).n = k + 1 from rfl, Finset.sum_range_succ]
  rw [Finset.sum_eq_zero]
  · simp [Vec.append_e, Vec.ones]
  · intro j hj
    rw [Vec.append_e_lt _ _ (mem_range.1 hj)]
    simp [Vec.zeros]

theorem chebyshevLP_eq (L : Lib) (A : Mat ℝ) (b : Vec ℝ) :
    chebyshevLP L A b = (lpDefault L ((Vec.zeros A.nc).append (Vec.ones 1)) (A.happ (rowNorms A).neg) b >>=
      fun sol => match sol.min, sol.argmin with
        | some m, some x => .ok (some (-m, x.slice 0 (x.n - 1)))
        | _, _ => .ok none) := by
  unfold chebyshevLP
  have e1 : np.concatenate [Vec.zeros A.nc, (Vec.ones 1 : Vec ℝ)] = .ok ((Vec.zeros A.nc).append (Vec.ones 1)) := rfl
  have e2 : np.hstack [A, (rowNorms A).neg] = .ok (A.happ (rowNorms A).neg) := if_pos rfl
  rw [e1, e2]
  rfl

/-- without inequalities the linear program has no constraint -/
theorem chebyshevLP_no_rows {L : Lib} (hL : LibSpec L) {A : Mat ℝ} {b : Vec ℝ} (hrows : A.nr = 0) (hb : b.n = A.nr) :
    chebyshevLP L A b = .error .runtimeError := by
  rw [chebyshevLP_eq]
  unfold lpDefault
  obtain ⟨_, _, _, _, _, _, -, -, -, -, -, -, -, -, h⟩ := lp_run hL (n := A.nc + 1) (f := (Vec.zeros A.nc).append (Vec.ones 1))
    (A := A.happ (rowNorms A).neg) (b := b) (C := none) (d := none) rfl (show Spec.ConstrShape _ _ _ none none from ⟨rfl, hb⟩) 1e-7
  rw [h (by rintro (k | ⟨C, k, -⟩); exacts [absurd k (by show ¬ 0 < A.nr; omega), by cases k])]
  rfl

/-- the program has an optimal solution -/
theorem chebyshevLP_ok {L : Lib} (hL : LibSpec L) {A : Mat ℝ} {b : Vec ℝ} (hb : b.n = A.nr) {x0 : ℕ → ℝ} {r0 M : ℝ}
    (h0 : Fits A b x0 r0) (hM : ∀ x r, Fits A b x r → r ≤ M) :
    ∃ r c, chebyshevLP L A b = .ok (some (r, c)) ∧ c.n = A.nc ∧ Fits A b c.e r ∧ ∀ x r', Fits A b x r' → r' ≤ r := by
  have hrows : 0 < A.nr := by
    by_contra h
    have := hM (fun _ => 0) (M + 1) fun i hi => absurd hi (by omega)
    linarith
  set f := (Vec.zeros A.nc : Vec ℝ).append (Vec.ones 1) with hf
  have hfe : ∀ z : ℕ → ℝ, ∑ j ∈ range (A.nc + 1), f.neg.e j * z j = -z A.nc := by
    intro z
    have := chebCost A.nc ⟨0, z⟩
    unfold Spec.lpCost at this
    rw [← hf] at this
    have hn : f.n = A.nc + 1 := rfl
    rw [hn] at this
    simp only at this
    rw [← this, ← Finset.sum_neg_distrib]
    exact Finset.sum_congr rfl fun j _ => by rw [Vec.neg_e]; ring
  have hrow : ∀ z : ℕ → ℝ, (∀ i < (A.happ (rowNorms A).neg).nr,
      ∑ j ∈ range (A.nc + 1), (A.happ (rowNorms A).neg).e i j * z j ≤ b.e i) ↔ Fits A b z (-z A.nc) := by
    intro z
    exact forall₂_congr fun i _ => by rw [chebRow]
  have hpt : ∀ x r, Fits A b x r → Fits A b (fun j => if j < A.nc then x j else -r)
      (-(if A.nc < A.nc then x A.nc else -r)) := by
    intro x r h i hi
    have : Spec.rowVal A i (fun j => if j < A.nc then x j else -r) = Spec.rowVal A i x :=
      Finset.sum_congr rfl fun j hj => by simp only [if_pos (mem_range.1 hj)]
    rw [this, if_neg (lt_irrefl _), neg_neg]
    exact h i hi
  obtain ⟨s, x, h1, h2, h3, h4, h5, h6⟩ := lpMax hL (n := A.nc + 1) (A := A.happ (rowNorms A).neg) (b := b)
    (g := f.neg) rfl hb rfl hrows (x0 := fun j => if j < A.nc then x0 j else -r0) ((hrow _).2 (hpt x0 r0 h0)) (M := M)
    (fun z hz => by rw [hfe]; exact hM _ _ ((hrow z).1 hz))
  rw [neg_neg_vec] at h1
  refine ⟨-x.e A.nc, x.slice 0 (x.n - 1), ?_, ?_, ?_, fun x' r' h' => ?_⟩
  · rw [chebyshevLP_eq, h1, Py.ok_bind]
    simp only [h2, h4, hfe, neg_neg]
  · simp [h3]
  · have := (hrow x.e).1 h5
    intro i hi
    have e : Spec.rowVal A i (x.slice 0 (x.n - 1)).e = Spec.rowVal A i x.e :=
      Finset.sum_congr rfl fun j _ => by simp [Vec.slice]
    rw [e]
    exact this i hi
  · have := h6 _ ((hrow _).2 (hpt x' r' h'))
    rw [hfe, hfe, if_neg (lt_irrefl _), neg_neg] at this
    exact this

/-- coordinates for the solutions of the equalities -/
structure Chart (n : ℕ) (p : Poly) (E : Mat ℝ) (f : Vec ℝ) (N : Mat ℝ) (x0 : ℕ → ℝ) : Prop where
  Enr : E.nr = p.A.nr
  Enc : E.nc = N.nc
  fn : f.n = p.A.nr
  eqs : ∀ y, Spec.EqHold p.C p.d (affine x0 N y)
  surj : ∀ x, Spec.EqHold p.C p.d x → ∃ y, ∀ j < n, x j = affine x0 N y j
  ker : ∀ v : ℕ → ℝ, (∀ i < p.C.nr, Spec.rowVal p.C i v = 0) ↔
    ∃ y : ℕ → ℝ, ∀ j < n, v j = ∑ l ∈ range N.nc, N.e j l * y l
  res : ∀ y, ∀ i < p.A.nr, Spec.rowVal E i y - f.e i = Spec.rowVal p.A i (affine x0 N y) - p.b.e i
  iso : ∀ y : ℕ → ℝ, ∑ j ∈ range n, (∑ l ∈ range N.nc, N.e j l * y l) ^ 2 = ∑ l ∈ range N.nc, y l ^ 2

theorem Reduced.chart {n : ℕ} {p : Poly} (hp : p.Inv n) {E : Mat ℝ} {f : Vec ℝ} {N R : Mat ℝ} {x0 : ℕ → ℝ}
    (h : Reduced n p E f N R x0) : Chart n p E f N x0 := by
  obtain ⟨s1, s2, s3, s4⟩ := hp
  refine ⟨h.Enr, h.Enc, h.fn, fun y i hi => ?_, fun x hx => h.surj x fun i hi => ?_, fun v => ?_, fun y i hi => ?_, h.iso⟩
  · unfold Spec.rowVal; rw [s3]; exact h.eqs y i hi
  · have := hx i hi; unfold Spec.rowVal at this; rwa [s3] at this
  · rw [← h.ker v]; unfold Spec.rowVal; rw [s3]
  · unfold Spec.rowVal; rw [h.Enc, s1]; exact h.res y i hi

theorem eye_mulVec (n : ℕ) (y : ℕ → ℝ) {j : ℕ} (hj : j < n) :
    ∑ l ∈ range n, (Mat.eye n : Mat ℝ).e j l * y l = y j := by
  rw [Finset.sum_eq_single j]
  · simp [Mat.eye_e]
  · intro l _ hl; simp [Mat.eye_e, Ne.symm hl]
  · intro h; exact absurd (mem_range.2 hj) h

theorem rowVal_congr {A : Mat ℝ} {n : ℕ} (h : A.nc = n) {x y : ℕ → ℝ} (hxy : ∀ j < n, x j = y j) (i : ℕ) :
    Spec.rowVal A i x = Spec.rowVal A i y :=
  Finset.sum_congr rfl fun j hj => by rw [hxy j (h ▸ mem_range.1 hj)]

theorem chart_id {n : ℕ} {p : Poly} (hp : p.Inv n) (h0 : p.C.nr = 0) :
    Chart n p p.A p.b (Mat.eye n) (fun _ => 0) := by
  obtain ⟨s1, s2, s3, s4⟩ := hp
  have haff : ∀ y : ℕ → ℝ, ∀ j < n, affine (fun _ => 0) (Mat.eye n) y j = y j := by
    intro y j hj
    show 0 + ∑ l ∈ range n, (Mat.eye n : Mat ℝ).e j l * y l = y j
    rw [eye_mulVec n y hj, zero_add]
  refine ⟨rfl, s1, s2, fun y i hi => by omega, fun x _ => ⟨x, fun j hj => (haff x j hj).symm⟩, fun v => ?_,
    fun y i _ => ?_, fun y => ?_⟩
  · exact ⟨fun _ => ⟨v, fun j hj => (eye_mulVec n v hj).symm⟩, fun _ i hi => by omega⟩
  · rw [rowVal_congr s1 (haff y) i]
  · exact Finset.sum_congr rfl fun j hj => by
      rw [show ∑ l ∈ range (Mat.eye n : Mat ℝ).nc, (Mat.eye n : Mat ℝ).e j l * y l = y j
        from eye_mulVec n y (mem_range.1 hj)]

theorem mem_congr {n : ℕ} {p : Poly} (hp : p.Inv n) {x y : ℕ → ℝ} (h : ∀ j < n, x j = y j) : p.Mem x ↔ p.Mem y := by
  obtain ⟨s1, s2, s3, s4⟩ := hp
  have e1 := rowVal_congr s1 h
  have e2 := rowVal_congr s3 h
  exact and_congr (forall₂_congr fun i _ => iff_of_eq (congrArg (· ≤ p.b.e i) (e1 i)))
    (forall₂_congr fun i _ => iff_of_eq (congrArg (· = p.d.e i) (e2 i)))

theorem Chart.mem {n : ℕ} {p : Poly} {E : Mat ℝ} {f : Vec ℝ} {N : Mat ℝ} {x0 : ℕ → ℝ} (h : Chart n p E f N x0)
    (y : ℕ → ℝ) : p.Mem (affine x0 N y) ↔ ∀ i < E.nr, Spec.rowVal E i y ≤ f.e i := by
  rw [h.Enr]
  constructor
  · intro hm i hi
    have h1 := h.res y i hi
    have h2 : Spec.rowVal p.A i (affine x0 N y) ≤ p.b.e i := hm.1 i hi
    linarith
  · intro hm
    refine ⟨fun i hi => ?_, h.eqs y⟩
    have h1 := h.res y i hi
    have h2 := hm i hi
    exact (show Spec.rowVal p.A i (affine x0 N y) ≤ p.b.e i by linarith)

theorem affine_add (x0 : ℕ → ℝ) (N : Mat ℝ) (y w : ℕ → ℝ) (j : ℕ) :
    affine x0 N (fun l => y l + w l) j = affine x0 N y j + ∑ l ∈ range N.nc, N.e j l * w l := by
  unfold affine
  simp only [mul_add, Finset.sum_add_distrib]
  ring

theorem Chart.ball {n : ℕ} {p : Poly} (hp : p.Inv n) {E : Mat ℝ} {f : Vec ℝ} {N : Mat ℝ} {x0 : ℕ → ℝ}
    (h : Chart n p E f N x0) (y : ℕ → ℝ) {r : ℝ} (hr : 0 ≤ r) :
    Spec.BallIn n p.A p.b p.C p.d (affine x0 N y) r ↔ Fits E f y r := by
  rw [← ball_iff_fits E f y hr, h.Enc]
  constructor
  · intro hb w hw
    have hk := (h.ker (fun j => ∑ l ∈ range N.nc, N.e j l * w l)).2 ⟨w, fun _ _ => rfl⟩
    have hm := hb _ hk (by rw [h.iso]; exact hw)
    have := (h.mem (fun l => y l + w l)).1
    refine this ?_
    rw [show affine x0 N (fun l => y l + w l) = _ from funext (affine_add x0 N y w)]
    exact hm
  · intro hb v hv hn
    obtain ⟨w, hw⟩ := (h.ker v).1 hv
    have hn' : Real.sqrt (∑ l ∈ range N.nc, w l ^ 2) ≤ r := by
      rw [← h.iso w]
      rwa [Finset.sum_congr rfl fun j hj => by rw [← hw j (mem_range.1 hj)]]
    have := (h.mem (fun l => y l + w l)).2 (hb w hn')
    refine (mem_congr hp fun j hj => ?_).1 this
    rw [affine_add, hw j hj]

/-- the optimal ball in the coordinates of a chart -/
theorem Chart.cheb {L : Lib} (hL : LibSpec L) {n : ℕ} {p : Poly} (hp : p.Inv n) {E : Mat ℝ} {f : Vec ℝ} {N : Mat ℝ}
    {x0 : ℕ → ℝ} (h : Chart n p E f N x0)
    (hrows : ∀ i < p.A.nr, (∀ v, (∀ k < p.C.nr, Spec.rowVal p.C k v = 0) → Spec.rowVal p.A i v = 0) →
      ∀ x, Spec.EqHold p.C p.d x → Spec.rowVal p.A i x ≤ p.b.e i)
    (hbd : ∃ M, ∀ c r, 0 ≤ r → Spec.BallIn n p.A p.b p.C p.d c r → r ≤ M) :
    ∃ r y, chebyshevLP L E f = .ok (some (r, y)) ∧ y.n = N.nc ∧
      (0 ≤ r → Spec.BallIn n p.A p.b p.C p.d (affine x0 N y.e) r) ∧
      (∀ c r', 0 ≤ r' → Spec.BallIn n p.A p.b p.C p.d c r' → r' ≤ r) ∧
      (r < 0 ↔ ∀ x, ¬ p.Mem x) := by
  obtain ⟨M, hM⟩ := hbd
  -- rows that do not depend on the coordinates
  have hzero : ∀ i < E.nr, rowNorm E i = 0 → 0 ≤ f.e i := by
    intro i hi h0
    have hi' : i < p.A.nr := h.Enr ▸ hi
    have hE : ∀ w, Spec.rowVal E i w = 0 := by
      intro w
      have k1 := rowVal_le_norm E i w
      have k2 := rowVal_le_norm E i (fun j => -w j)
      rw [h0, zero_mul] at k1 k2
      have : Spec.rowVal E i (fun j => -w j) = -Spec.rowVal E i w := by
        simp [Spec.rowVal, Finset.sum_neg_distrib]
      linarith
    have k := hrows i hi' (fun v hv => by
      obtain ⟨w, hw⟩ := (h.ker v).1 hv
      have r1 := h.res (fun _ => 0) i hi'
      have r2 := h.res w i hi'
      have e : Spec.rowVal p.A i (affine x0 N w) = Spec.rowVal p.A i (affine x0 N fun _ => 0) + Spec.rowVal p.A i v := by
        rw [← rowVal_add]
        refine rowVal_congr hp.1 (fun j hj => ?_) i
        rw [hw j hj]
        simp [affine]
      rw [hE, e] at r2
      rw [hE] at r1
      linarith) _ (h.eqs fun _ => 0)
    have r1 := h.res (fun _ => 0) i hi'
    rw [hE] at r1
    linarith
  set K := ∑ i ∈ range E.nr, |f.e i| / rowNorm E i with hK
  have h0 : Fits E f (fun _ => 0) (-K) := by
    intro i hi
    have e : Spec.rowVal E i (fun _ => 0) = 0 := by simp [Spec.rowVal]
    rw [e, zero_add]
    by_cases hn : rowNorm E i = 0
    · rw [hn, mul_zero]; exact hzero i hi hn
    · have hpos := lt_of_le_of_ne (rowNorm_nonneg E i) (Ne.symm hn)
      have k1 : |f.e i| / rowNorm E i ≤ K :=
        Finset.single_le_sum (f := fun i => |f.e i| / rowNorm E i)
          (fun i _ => div_nonneg (abs_nonneg _) (rowNorm_nonneg E i)) (mem_range.2 hi)
      have k2 := mul_le_mul_of_nonneg_right k1 hpos.le
      rw [div_mul_cancel₀ _ hn] at k2
      have := neg_abs_le (f.e i)
      linarith
  obtain ⟨r, y, k1, k2, k3, k4⟩ := chebyshevLP_ok hL (h.fn.trans h.Enr.symm) h0 (M := max M 0) (fun x r hx => by
    by_cases hr : 0 ≤ r
    · exact (hM _ r hr ((h.ball hp x hr).2 hx)).trans (le_max_left _ _)
    · exact (not_le.1 hr).le.trans (le_max_right _ _))
  have hin : ∀ c r', 0 ≤ r' → Spec.BallIn n p.A p.b p.C p.d c r' → r' ≤ r := by
    intro c r' hr' hb
    have hc : p.Mem c := by
      have := hb (fun _ => 0) (fun i _ => by simp [Spec.rowVal]) (by simpa using hr')
      simpa [Poly.Mem] using this
    obtain ⟨w, hw⟩ := h.surj c hc.2
    refine k4 w r' ((h.ball hp w hr').1 fun v hv hn => ?_)
    exact (mem_congr hp fun j hj => by rw [hw j hj]).1 (hb v hv hn)
  refine ⟨r, y, k1, k2.trans h.Enc, fun hr => (h.ball hp y.e hr).2 k3, hin, fun hr x hx => ?_, fun hno => ?_⟩
  · have : Spec.BallIn n p.A p.b p.C p.d x 0 := by
      intro v _ hv
      have hz : ∀ j < n, v j = 0 := by
        intro j hj
        have h1 := Real.sqrt_eq_zero'.1 (le_antisymm hv (Real.sqrt_nonneg _))
        have h2 := le_antisymm h1 (Finset.sum_nonneg fun _ _ => sq_nonneg _)
        have h3 := (Finset.sum_eq_zero_iff_of_nonneg (fun _ _ => sq_nonneg _)).1 h2 j (mem_range.2 hj)
        exact pow_eq_zero_iff two_ne_zero |>.1 h3
      exact (mem_congr hp fun j hj => by rw [hz j hj, add_zero]).1 hx
    have := hin x 0 le_rfl this
    linarith
  · by_contra hr
    push Not at hr
    have hb := (h.ball hp y.e hr).2 k3
    have := hb (fun _ => 0) (fun i _ => by simp [Spec.rowVal]) (by simpa using hr)
    exact hno _ this

/-- `_chebyshev` when there is a largest ball -/
theorem chebyshev_ok {L : Lib} (hL : LibSpec L) {n : ℕ} {p : Poly} (hp : p.Inv n)
    (heq : p.C.nr = 0 ∨ EqRank n p)
    (hrows : ∀ i < p.A.nr, (∀ v, (∀ k < p.C.nr, Spec.rowVal p.C k v = 0) → Spec.rowVal p.A i v = 0) →
      ∀ x, Spec.EqHold p.C p.d x → Spec.rowVal p.A i x ≤ p.b.e i)
    (hbd : ∃ M, ∀ c r, 0 ≤ r → Spec.BallIn n p.A p.b p.C p.d c r → r ≤ M) :
    ∃ r c, chebyshev L p.A p.b p.C p.d = .ok (some (r, c)) ∧ c.n = n ∧ Spec.EqHold p.C p.d c.e ∧
      (0 ≤ r → Spec.BallIn n p.A p.b p.C p.d c.e r) ∧
      (∀ c' r', 0 ≤ r' → Spec.BallIn n p.A p.b p.C p.d c' r' → r' ≤ r) ∧
      (r < 0 ↔ ∀ x, ¬ p.Mem x) := by
  have hball : ∀ (c c' : ℕ → ℝ) r, (∀ j < n, c j = c' j) → Spec.BallIn n p.A p.b p.C p.d c r →
      Spec.BallIn n p.A p.b p.C p.d c' r := fun c c' r hcc hb v hv hn =>
    (mem_congr hp fun j hj => by rw [hcc j hj]).1 (hb v hv hn)
  by_cases h0 : p.C.nr = 0
  · have hch := chart_id hp h0
    obtain ⟨r, y, k1, k2, k3, k4, k5⟩ := hch.cheb hL hp hrows hbd
    refine ⟨r, y, ?_, k2, fun i hi => by omega, fun hr => hball _ _ r (fun j hj => ?_) (k3 hr), k4, k5⟩
    · unfold chebyshev
      rw [if_neg (by omega), k1]
    · show 0 + ∑ l ∈ range n, (Mat.eye n : Mat ℝ).e j l * y.e l = y.e j
      rw [eye_mulVec n y.e hj, zero_add]
  · obtain ⟨E, f, N, R, x0, h1, -, h2⟩ := removeEqualities_ok hL hp (by omega) (heq.resolve_left h0)
    have hch := h2.chart hp
    obtain ⟨r, y, k1, k2, k3, k4, k5⟩ := hch.cheb hL hp hrows hbd
    obtain ⟨x, b1, b2, b3⟩ := h2.back y k2
    refine ⟨r, x, ?_, b2, fun i hi => ?_, fun hr => hball _ _ r (fun j hj => (b3 j hj).symm) (k3 hr), k4, k5⟩
    · unfold chebyshev
      rw [if_pos (by omega)]
      have : removeEqualities L (fresh p.A p.b p.C p.d) = .ok (E, f, N, R) := h1
      rw [this, Py.ok_bind]
      simp only [k1, Py.ok_bind, b1]
      rfl
    · rw [rowVal_congr hp.2.2.1 b3 i]
      exact hch.eqs y.e i hi

end Poly
end Verif
