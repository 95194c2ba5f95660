import Verif.Model.Rounding
import Verif.Spec.Rounding
import Verif.Props.PolyhedronSets

/- `contains` in floating point arithmetic. -/
namespace Verif.Props
open Finset Spec

/-- rounding enlarges an error `e` of an approximation `v` of `s`, `|s| ≤ T` -/
theorem Rounds.step {fl : ℝ → ℝ} {u η : ℝ} (hr : Rounds fl u η) {v s T e : ℝ} (hT : |s| ≤ T) (he : |v - s| ≤ e) :
    |fl v - s| ≤ (1 + u) * e + u * T + η := by
  have h1 := hr.err v
  have h2 : |v| ≤ e + T := by
    have := abs_add_le (v - s) s
    rw [sub_add_cancel] at this
    linarith
  have h3 := mul_le_mul_of_nonneg_left h2 hr.u0
  have h4 := abs_add_le (fl v - v) (v - s)
  rw [show fl v - v + (v - s) = fl v - s by ring] at h4
  nlinarith

theorem pow_err {u : ℝ} (hu : 0 ≤ u) {k m : ℕ} (h : k ≤ m) : (1 + u) ^ k ≤ (1 + u) ^ m := pow_le_pow_right₀ (by linarith) h

/-- the rounding error of a scalar product, whatever the order of the sums -/
theorem dot_err' {fl : ℝ → ℝ} {u η : ℝ} (hr : Rounds fl u η) {a x : ℕ → ℝ} {s : Finset ℕ} {v : ℝ} (h : Fl.DotVal fl a x s v) :
    (s = ∅ ∧ v = 0) ∨ 1 ≤ s.card ∧
      |v - ∑ i ∈ s, a i * x i| ≤ ((1 + u) ^ s.card - 1) * ∑ i ∈ s, |a i * x i| + (2 * s.card - 1) * (1 + u) ^ s.card * η := by
  have hu := hr.u0
  have hη := hr.η0
  have habs : ∀ s : Finset ℕ, |∑ i ∈ s, a i * x i| ≤ ∑ i ∈ s, |a i * x i| := fun s => Finset.abs_sum_le_sum_abs _ _
  have hnn : ∀ s : Finset ℕ, 0 ≤ ∑ i ∈ s, |a i * x i| := fun s => Finset.sum_nonneg fun _ _ => abs_nonneg _
  have hone : ∀ k : ℕ, 1 ≤ (1 + u) ^ k := fun k => one_le_pow₀ (by linarith)
  have hsingle : ∀ i, |fl (a i * x i) - a i * x i| ≤ ((1 + u) ^ 1 - 1) * |a i * x i| + (2 * ((1 : ℕ) : ℝ) - 1) * (1 + u) ^ 1 * η := fun i => by
    have h1 := hr.err (a i * x i)
    have h2 := mul_nonneg hu hη
    simp only [pow_one, Nat.cast_one]
    nlinarith
  induction h with
  | empty => exact .inl ⟨rfl, rfl⟩
  | single i =>
    refine .inr ⟨by simp, ?_⟩
    simpa only [Finset.sum_singleton, Finset.card_singleton] using hsingle i
  | @fused s v i hi h ih =>
    right
    rw [Finset.sum_insert hi, Finset.sum_insert hi, Finset.card_insert_of_notMem hi]
    refine ⟨by omega, ?_⟩
    rcases ih with ⟨rfl, rfl⟩ | ⟨hc, ih⟩
    · simpa only [Finset.sum_empty, Finset.card_empty, add_zero, zero_add] using hsingle i
    have h1 := Rounds.step hr (v := v + a i * x i) (s := a i * x i + ∑ i ∈ s, a i * x i) (T := |a i * x i| + ∑ i ∈ s, |a i * x i|)
      ((abs_add_le _ _).trans (by linarith [habs s])) (le_of_eq_of_le (by congr 1; ring) ih)
    refine h1.trans ?_
    rw [pow_succ]
    push_cast
    have g := hone s.card
    set G := (1 + u) ^ s.card
    set T := ∑ i ∈ s, |a i * x i|
    have e1 : (G * (1 + u) - 1) * (|a i * x i| + T) + (2 * (s.card + 1) - 1) * (G * (1 + u)) * η
        - ((1 + u) * ((G - 1) * T + (2 * s.card - 1) * G * η) + u * (|a i * x i| + T) + η)
        = (G - 1) * (1 + u) * |a i * x i| + (2 * (G * (1 + u)) - 1) * η := by ring
    have e2 : 0 ≤ (G - 1) * (1 + u) * |a i * x i| := by
      have : 0 ≤ G - 1 := by linarith
      positivity
    have e3 : 0 ≤ (2 * (G * (1 + u)) - 1) * η := by
      refine mul_nonneg ?_ hη
      nlinarith
    linarith
  | @add s t v w hst hs ht h h' ih ih' =>
    have hs' : 1 ≤ s.card := hs.card_pos
    have ht' : 1 ≤ t.card := ht.card_pos
    replace ih := (ih.resolve_left fun h => hs.ne_empty h.1).2
    replace ih' := (ih'.resolve_left fun h => ht.ne_empty h.1).2
    right
    rw [Finset.sum_union hst, Finset.sum_union hst, Finset.card_union_of_disjoint hst]
    refine ⟨by omega, ?_⟩
    have h1 := Rounds.step hr (v := v + w) (s := ∑ i ∈ s, a i * x i + ∑ i ∈ t, a i * x i) (T := ∑ i ∈ s, |a i * x i| + ∑ i ∈ t, |a i * x i|)
      ((abs_add_le _ _).trans (by linarith [habs s, habs t])) (le_of_eq_of_le (by congr 1; ring) ((abs_add_le (v - ∑ i ∈ s, a i * x i) (w - ∑ i ∈ t, a i * x i)).trans (add_le_add ih ih')))
    refine h1.trans ?_
    push_cast
    have g1 : (1 + u) ^ s.card * (1 + u) ≤ (1 + u) ^ (s.card + t.card) := by rw [← pow_succ]; exact pow_err hu (by omega)
    have g2 : (1 + u) ^ t.card * (1 + u) ≤ (1 + u) ^ (s.card + t.card) := by rw [← pow_succ]; exact pow_err hu (by omega)
    have g3 := hone (s.card + t.card)
    have c1 : (0 : ℝ) ≤ 2 * s.card - 1 := by have : (1 : ℝ) ≤ s.card := by exact_mod_cast hs'
                                             linarith
    have c2 : (0 : ℝ) ≤ 2 * t.card - 1 := by have : (1 : ℝ) ≤ t.card := by exact_mod_cast ht'
                                             linarith
    have a1 := mul_le_mul_of_nonneg_right g1 (hnn s)
    have a2 := mul_le_mul_of_nonneg_right g2 (hnn t)
    have a3 := mul_le_mul_of_nonneg_right (mul_le_mul_of_nonneg_left g1 c1) hη
    have a4 := mul_le_mul_of_nonneg_right (mul_le_mul_of_nonneg_left g2 c2) hη
    have a5 := mul_le_mul_of_nonneg_right g3 hη
    nlinarith

/-- the rounding error of a scalar product of `n` entries -/
theorem dot_err {fl : ℝ → ℝ} {u η : ℝ} (hr : Rounds fl u η) {a x : ℕ → ℝ} {n : ℕ} {v : ℝ} (h : Fl.DotVal fl a x (range n) v) :
    |v - ∑ i ∈ range n, a i * x i| ≤ ((1 + u) ^ n - 1) * ∑ i ∈ range n, |a i * x i| + 2 * n * (1 + u) ^ n * η := by
  have hu := hr.u0
  have hη := hr.η0
  have hone : 0 ≤ (1 + u) ^ n * η := by positivity
  rcases dot_err' hr h with ⟨h1, rfl⟩ | ⟨-, h1⟩
  · obtain rfl : n = 0 := by simpa using h1
    simp
  · rw [card_range] at h1
    linarith

/-- the rounding error of `a.dot(x) + c` -/
theorem affine_err {fl : ℝ → ℝ} {u η : ℝ} (hr : Rounds fl u η) {a x : ℕ → ℝ} {n : ℕ} {v : ℝ} (h : Fl.DotVal fl a x (range n) v) (c : ℝ) :
    |fl (v + c) - (∑ i ∈ range n, a i * x i + c)| ≤ ((1 + u) ^ (n + 1) - 1) * (∑ i ∈ range n, |a i * x i| + |c|) + (2 * n + 1) * (1 + u) ^ (n + 1) * η := by
  have hu := hr.u0
  have hη := hr.η0
  have h1 := Rounds.step hr (v := v + c) (s := ∑ i ∈ range n, a i * x i + c) (T := ∑ i ∈ range n, |a i * x i| + |c|)
      ((abs_add_le _ _).trans (by linarith [Finset.abs_sum_le_sum_abs (fun i => a i * x i) (range n)])) (le_of_eq_of_le (by congr 1; ring) (dot_err hr h))
  refine h1.trans ?_
  have hone : 1 ≤ (1 + u) ^ n := one_le_pow₀ (by linarith)
  have hone' : 1 ≤ (1 + u) ^ (n + 1) := one_le_pow₀ (by linarith)
  rw [pow_succ] at hone' ⊢
  have e1 : 0 ≤ ((1 + u) ^ n - 1) * (1 + u) * |c| := by
    have : 0 ≤ (1 + u) ^ n - 1 := by linarith
    positivity
  have e2 := mul_le_mul_of_nonneg_right hone' hη
  nlinarith

/-- bound on the error of `np.dot(a, x) - b` in `contains`: `γ (Σ |a i x i| + |b|)` with `γ` about `(n + 1) u`, and the errors below the smallest numbers -/
noncomputable def rowErr (u η : ℝ) (A : Mat ℝ) (b : Vec ℝ) (x : ℕ → ℝ) (i : ℕ) : ℝ :=
  ((1 + u) ^ (A.nc + 1) - 1) * (∑ j ∈ range A.nc, |A.e i j * x j| + |b.e i|) + (2 * A.nc + 1) * (1 + u) ^ (A.nc + 1) * η

theorem row_err {fl : ℝ → ℝ} {u η : ℝ} (hr : Rounds fl u η) {A : Mat ℝ} {b : Vec ℝ} {x y : ℕ → ℝ} (h : Fl.Mul fl A x y) {i : ℕ} (hi : i < A.nr) :
    |fl (y i - b.e i) - (rowVal A i x - b.e i)| ≤ rowErr u η A b x i := by
  have := affine_err hr (h i hi) (-b.e i)
  rw [abs_neg] at this
  simpa only [rowErr, rowVal, sub_eq_add_neg] using this

/-- C163: in floating point arithmetic, whatever the order of the sums, `contains` answers between the exact answers with the tolerances `tol - E` and `tol + E`, where `E` bounds the
rounding errors of the rows: about `(n + 1) u` times the sum of the absolute values of the terms. -/
theorem C163 (fl : ℝ → ℝ) (u η : ℝ) (hr : Rounds fl u η) (n : ℕ) (p : Poly) (hp : p.Inv n) (hA : 0 < p.A.nr) (x : Vec ℝ) (hx : x.n = n) (tol E : ℝ)
    (hE : ∀ i < p.A.nr, rowErr u η p.A p.b x.e i ≤ E) (hE' : ∀ i < p.C.nr, rowErr u η p.C p.d x.e i ≤ E) (ans : Prop) (h : Fl.Contains fl p x tol ans) :
    (ans → p.contains x (tol + E) = .ok true) ∧ (p.contains x (tol - E) = .ok true → ans) := by
  obtain ⟨y, z, hy, hz, hans⟩ := h
  have ey : ∀ i < p.A.nr, |fl (y i - p.b.e i) - (∑ j ∈ range n, p.A.e i j * x.e j - p.b.e i)| ≤ E := fun i hi => by
    have := (row_err hr (b := p.b) hy hi).trans (hE i hi)
    rwa [rowVal, hp.1] at this
  have ez : ∀ i < p.C.nr, |fl (z i - p.d.e i) - (∑ j ∈ range n, p.C.e i j * x.e j - p.d.e i)| ≤ E := fun i hi => by
    have := (row_err hr (b := p.d) hz hi).trans (hE' i hi)
    rwa [rowVal, hp.2.2.1] at this
  constructor
  · intro ha
    obtain ⟨h1, h2⟩ := hans.1 ha
    obtain ⟨r, r1, r2⟩ := contains_iff hp hA x hx (tol + E)
    rw [r1, r2.2]
    refine ⟨fun i hi => ?_, fun hC => ?_⟩
    · have := h1 i hi
      have := (abs_le.1 (ey i hi)).1
      linarith
    · obtain ⟨k, hk, k1, k2⟩ := h2.resolve_left (by omega)
      rw [abs_le] at k2
      refine ⟨fun i hi => ?_, ?_⟩
      · have := (abs_le.1 (ez i hi)).1
        have := k1 i hi
        linarith
      · obtain ⟨i, hi, hmax⟩ := Finset.exists_max_image (range p.C.nr) (fun i => ∑ j ∈ range n, p.C.e i j * x.e j - p.d.e i) ⟨0, mem_range.2 hC⟩
        refine ⟨i, mem_range.1 hi, fun l hl => hmax l (mem_range.2 hl), ?_⟩
        have := hmax k (mem_range.2 hk)
        have := (abs_le.1 (ez k hk)).2
        linarith
  · intro hc
    obtain ⟨r, r1, r2⟩ := contains_iff hp hA x hx (tol - E)
    obtain rfl : true = r := by rw [r1] at hc; cases hc; rfl
    obtain ⟨h1, h2⟩ := r2.1 rfl
    refine hans.2 ⟨fun i hi => ?_, ?_⟩
    · have := h1 i hi
      have := (abs_le.1 (ey i hi)).2
      linarith
    · rcases Nat.eq_zero_or_pos p.C.nr with hC | hC
      · exact .inl hC
      right
      obtain ⟨k1, i, hi, k2, k3⟩ := h2 hC
      obtain ⟨k, hk, hmax⟩ := Finset.exists_max_image (range p.C.nr) (fun i => fl (z i - p.d.e i)) ⟨0, mem_range.2 hC⟩
      have hk' := mem_range.1 hk
      refine ⟨k, hk', fun l hl => hmax l (mem_range.2 hl), abs_le.2 ⟨?_, ?_⟩⟩
      · have := hmax i (mem_range.2 hi)
        have := (abs_le.1 (ez i hi)).1
        simp only [] at *
        linarith
      · have := k1 k hk'
        have := (abs_le.1 (ez k hk')).2
        linarith

/-- some value is computed -/
theorem dotVal_exists (fl : ℝ → ℝ) (a x : ℕ → ℝ) : ∀ n, ∃ v, Fl.DotVal fl a x (range n) v
  | 0 => ⟨0, .empty⟩
  | n + 1 => by
    obtain ⟨v, hv⟩ := dotVal_exists fl a x n
    rw [Finset.range_add_one]
    exact ⟨_, .fused n Finset.notMem_range_self hv⟩

/-- C163, the answer: some answer is possible -/
theorem contains_exists (fl : ℝ → ℝ) (p : Poly) (x : Vec ℝ) (tol : ℝ) : ∃ ans, Fl.Contains fl p x tol ans := by
  choose y hy using fun i => dotVal_exists fl (p.A.e i) x.e p.A.nc
  choose z hz using fun i => dotVal_exists fl (p.C.e i) x.e p.C.nc
  exact ⟨_, y, z, fun i _ => hy i, fun i _ => hz i, Iff.rfl⟩

/-- the answer for `x0 + x1 ≤ 1` at `(3/4, 3/4)` in double precision is `False`, at `(1/4, 1/4)` it is `True`, whatever the order of the sums -/
example : let p := Poly.fresh ⟨1, 2, fun _ _ => 1⟩ ⟨1, fun _ => 1⟩ (Mat.zeros 0 2) (Vec.zeros 0)
    (∀ ans, Fl.Contains (binary 52) p ⟨2, fun _ => 3 / 4⟩ 1e-7 ans → ¬ ans) ∧ ∀ ans, Fl.Contains (binary 52) p ⟨2, fun _ => 1 / 4⟩ 1e-7 ans → ans := by
  intro p
  have hE : ∀ x : ℕ → ℝ, |x 0| ≤ 1 → |x 1| ≤ 1 → ∀ i < p.A.nr, rowErr (2⁻¹ ^ 53) 0 p.A p.b x i ≤ 1e-8 := by
    intro x h0 h1 i _
    simp only [rowErr, p, Poly.fresh, Finset.sum_range_succ, Finset.sum_range_zero, one_mul, zero_add, mul_zero, add_zero]
    rw [abs_one]
    have : ((1 + (2⁻¹ : ℝ) ^ 53) ^ (2 + 1) - 1) * (|x 0| + |x 1| + 1) ≤ ((1 + 2⁻¹ ^ 53) ^ (2 + 1) - 1) * 3 :=
      mul_le_mul_of_nonneg_left (by linarith) (by norm_num)
    exact this.trans (by norm_num)
  have key := fun x : ℕ → ℝ => fun h0 : |x 0| ≤ 1 => fun h1 : |x 1| ≤ 1 =>
    C163 (binary 52) _ _ (binary_rounds 52) 2 p ⟨rfl, rfl, rfl, rfl⟩ (by norm_num [p, Poly.fresh]) ⟨2, x⟩ rfl 1e-7 1e-8 (hE x h0 h1) fun i hi => absurd hi (by simp [p, Poly.fresh, Mat.zeros])
  have ex := fun x : ℕ → ℝ => contains_iff (n := 2) (p := p) ⟨rfl, rfl, rfl, rfl⟩ (by norm_num [p, Poly.fresh]) ⟨2, x⟩ rfl
  refine ⟨fun ans h ha => ?_, fun ans h => ?_⟩
  · obtain ⟨r, r1, r2⟩ := ex (fun _ => 3 / 4) (1e-7 + 1e-8)
    rw [(key _ (by norm_num) (by norm_num) ans h).1 ha] at r1
    cases r1
    have := (r2.1 rfl).1 0 (by norm_num [p, Poly.fresh])
    norm_num [p, Poly.fresh, Finset.sum_range_succ] at this
  · refine (key _ (by norm_num) (by norm_num) ans h).2 ?_
    obtain ⟨r, r1, r2⟩ := ex (fun _ => 1 / 4) (1e-7 - 1e-8)
    rw [r1, r2.2 ⟨fun i _ => by norm_num [p, Poly.fresh, Finset.sum_range_succ], fun h => absurd h (by simp [p, Poly.fresh, Mat.zeros])⟩]

end Verif.Props
