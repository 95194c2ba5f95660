import Verif.Props.InexactPoly

/- C179: `minimal_facets` and `remove_redundant_inequalities` of `/repo/pympc/geometry/polyhedron.py` when
`scipy.optimize.nnls` stops before the minimum. -/
namespace Verif.Props
open Finset Poly

theorem lpCost_negRow (E : Mat ℝ) (i : ℕ) (y : Vec ℝ) : Spec.lpCost (E.row i).neg y = -rowAt E i y.e := by
  unfold Spec.lpCost rowAt
  rw [← Finset.sum_neg_distrib]
  exact Finset.sum_congr rfl fun j _ => by rw [Vec.neg_e, neg_mul]; rfl

theorem relaxed_iff {E : Mat ℝ} {f : Vec ℝ} {mf : List ℕ} {i : ℕ} (hi : i ∈ mf) (τ : ℝ) (x : ℕ → ℝ) :
    (∀ a < (E.rows mf).nr, ∑ j ∈ range E.nc, (E.rows mf).e a j * x j ≤ ((f.add (oneHot f.n i)).take mf).e a + τ) ↔
      (∀ j ∈ mf, j ≠ i → rowAt E j x ≤ f.e j + τ) ∧ rowAt E i x ≤ f.e i + 1 + τ := by
  have h1 : (∀ a < (E.rows mf).nr, ∑ j ∈ range E.nc, (E.rows mf).e a j * x j
    ≤ ((f.add (oneHot f.n i)).take mf).e a + τ) ↔ ∀ j ∈ mf, rowAt E j x ≤ f.e j + (if j = i then 1 else 0) + τ :=
    forall_getD (P := fun j => rowAt E j x ≤ f.e j + (if j = i then 1 else 0) + τ)
  rw [h1]
  constructor
  · intro h
    refine ⟨fun j hj hji => ?_, ?_⟩
    · have := h j hj; rwa [if_neg hji, add_zero] at this
    · have := h i hi; rwa [if_pos rfl] at this
  · rintro ⟨h2, h3⟩ j hj
    by_cases hji : j = i
    · rw [if_pos hji, hji]; exact h3
    · rw [if_neg hji, add_zero]; exact h2 j hj hji

theorem relaxedMax_unfold (L : Lib) {E : Mat ℝ} {f : Vec ℝ} (hf : f.n = E.nr) {mf : List ℕ} (hmf : ∀ i ∈ mf, i < E.nr) (i : ℕ) :
    relaxedMax L E f i mf = (lpDefault L (E.row i).neg (E.rows mf) ((f.add (oneHot f.n i)).take mf) >>= negMin) := by
  have e1 : np.rows E mf = .ok (E.rows mf) := if_pos hmf
  have e2 : np.addV f (oneHot f.n i) = .ok (f.add (oneHot f.n i)) := if_pos rfl
  have e3 : np.take (f.add (oneHot f.n i)) mf = .ok ((f.add (oneHot f.n i)).take mf) :=
    if_pos fun j hj => by rw [Vec.add_n, hf]; exact hmf j hj
  unfold relaxedMax
  rw [e1, Py.ok_bind, e2, Py.ok_bind, e3, Py.ok_bind]

/-- the relaxed linear program with a sound `nnls` -/
theorem relaxedMax_sound {L : Lib} (hL : LibSound L) {E : Mat ℝ} {f : Vec ℝ} (hf : f.n = E.nr) {mf : List ℕ}
    (hmf : ∀ i ∈ mf, i < E.nr) {i : ℕ} (hi : i ∈ mf) {m : ℝ} (hrun : relaxedMax L E f i mf = .ok m) :
    ∃ y : ℕ → ℝ, m = rowAt E i y ∧ (∀ j ∈ mf, j ≠ i → rowAt E j y ≤ f.e j + 1e-7) ∧
      ∀ y', (∀ j ∈ mf, j ≠ i → rowAt E j y' ≤ f.e j) → rowAt E i y' ≤ f.e i + 1 →
        rowAt E i y' ≤ m + 1e-7 * (1 + ∑ j ∈ range E.nc, |y' j|) := by
  rw [relaxedMax_unfold L hf hmf] at hrun
  obtain ⟨s, hs, hm⟩ := Py.bind_eq_ok hrun
  have hmin : s.min = some (-m) := by
    unfold negMin at hm
    cases h : s.min with
    | none => rw [h] at hm; cases hm
    | some v => rw [h] at hm; cases hm; simp
  obtain ⟨x, lam, ε, hε, -, hxn, hcost, -, -, hfeas, -, -, hsub⟩ := C168 L hL E.nc (E.row i).neg (E.rows mf)
    ((f.add (oneHot f.n i)).take mf) none none rfl ⟨rfl, rfl⟩ 1e-7 s (-m) hs hmin
  rw [lpCost_negRow] at hcost
  refine ⟨x.e, by linarith, fun j hj hji => ?_, fun y' h1 h2 => ?_⟩
  · have := ((relaxed_iff hi ε x.e).1 hfeas.1).1 j hj hji
    linarith
  · have := hsub ⟨E.nc, y'⟩ ⟨fun a ha => by
      have := (relaxed_iff (f := f) hi 0 y').2 ⟨fun j hj hji => by linarith [h1 j hj hji], by linarith⟩ a ha
      rwa [add_zero] at this, trivial⟩
    rw [lpCost_negRow, lpCost_negRow] at this
    simp only at this
    have hS : 0 ≤ 1 + ∑ j ∈ range E.nc, |y' j| := by
      have : 0 ≤ ∑ j ∈ range E.nc, |y' j| := Finset.sum_nonneg fun _ _ => abs_nonneg _
      linarith
    have := mul_le_mul_of_nonneg_right hε.le hS
    linarith

/-- `‖(1 - t) y + t z‖₁ ≤ R` if both norms are at most `R` -/
theorem norm_comb {n : ℕ} {y z : ℕ → ℝ} {R t : ℝ} (hy : ∑ j ∈ range n, |y j| ≤ R) (hz : ∑ j ∈ range n, |z j| ≤ R) (h0 : 0 ≤ t)
    (h1 : t ≤ 1) : ∑ j ∈ range n, |(1 - t) * y j + t * z j| ≤ R := by
  have e : ∑ j ∈ range n, |(1 - t) * y j + t * z j| ≤ (1 - t) * ∑ j ∈ range n, |y j| + t * ∑ j ∈ range n, |z j| := by
    rw [Finset.mul_sum, Finset.mul_sum, ← Finset.sum_add_distrib]
    refine Finset.sum_le_sum fun j _ => (abs_add_le _ _).trans (le_of_eq ?_)
    rw [abs_mul, abs_mul, abs_of_nonneg h0, abs_of_nonneg (show 0 ≤ 1 - t by linarith)]
  have a := mul_le_mul_of_nonneg_left hy (show 0 ≤ 1 - t by linarith)
  have b := mul_le_mul_of_nonneg_left hz h0
  linarith

/-- the loop over the facets with a sound `nnls` -/
theorem sweep_sound {L : Lib} (hL : LibSound L) {E : Mat ℝ} {f : Vec ℝ} (hf : f.n = E.nr) {tol R : ℝ}
    (hR : tol + 1e-7 * (1 + R) ≤ 1) {y0 : ℕ → ℝ} (hy0 : ∀ j < E.nr, rowAt E j y0 ≤ f.e j)
    (hn0 : ∑ j ∈ range E.nc, |y0 j| ≤ R) (is mf : List ℕ) (his : is.Pairwise (· < ·))
    (hsub : ∀ i ∈ is, i ∈ mf) (hmf : ∀ i ∈ mf, i < E.nr) (hnd : mf.Nodup) {r : List ℕ} (hrun : sweep L E f tol is mf = .ok r) :
    r.Sublist mf ∧ (∀ i ∈ mf, i ∉ is → i ∈ r) ∧
      (∀ i ∈ is, i ∈ r → ∃ y, (∀ j ∈ r, j ≠ i → rowAt E j y ≤ f.e j + 1e-7) ∧
        (∀ j ∈ is, i < j → rowAt E j y ≤ f.e j + 1e-7) ∧ f.e i + tol ≤ rowAt E i y) ∧
      (∀ i ∈ is, i ∉ r → ∀ y, ∑ j ∈ range E.nc, |y j| ≤ R → (∀ j ∈ r, rowAt E j y ≤ f.e j) →
        (∀ j ∈ is, i < j → rowAt E j y ≤ f.e j) → rowAt E i y < f.e i + tol + 1e-7 * (1 + R)) := by
  induction is generalizing mf r with
  | nil =>
    cases hrun
    exact ⟨List.Sublist.refl _, fun i hi _ => hi, by simp, by simp⟩
  | cons i is ih =>
    obtain ⟨hlt, hp⟩ := List.pairwise_cons.1 his
    have hi : i ∈ mf := hsub i (by simp)
    have hnot : i ∉ is := fun h => lt_irrefl _ (hlt i h)
    unfold sweep at hrun
    obtain ⟨m, hm, hrun⟩ := Py.bind_eq_ok hrun
    obtain ⟨y, h1, h2, h3⟩ := relaxedMax_sound hL hf hmf hi hm
    have h3' : ∀ y', ∑ j ∈ range E.nc, |y' j| ≤ R → (∀ j ∈ mf, j ≠ i → rowAt E j y' ≤ f.e j) → rowAt E i y' ≤ f.e i + 1 →
        rowAt E i y' ≤ m + 1e-7 * (1 + R) := fun y' hn a b => by
      have := h3 y' a b
      linarith
    by_cases hred : m - f.e i < tol
    · rw [if_pos hred] at hrun
      obtain ⟨k2, k3, k4, k5⟩ := ih (mf.erase i) hp
        (fun j hj => (hnd.mem_erase_iff).2 ⟨fun h => hnot (h ▸ hj), hsub j (by simp [hj])⟩)
        (fun j hj => hmf j (List.mem_of_mem_erase hj)) (hnd.erase i) hrun
      have hir : i ∉ r := fun h => ((hnd.mem_erase_iff).1 (k2.subset h)).1 rfl
      refine ⟨k2.trans List.erase_sublist, fun j hj hji => ?_, fun j hj hjr => ?_, fun j hj hjr y' hny h4 h5 => ?_⟩
      · simp only [List.mem_cons, not_or] at hji
        exact k3 j ((hnd.mem_erase_iff).2 ⟨hji.1, hj⟩) hji.2
      · rcases List.mem_cons.1 hj with rfl | hj'
        · exact absurd hjr hir
        · obtain ⟨y, l1, l2, l3⟩ := k4 j hj' hjr
          refine ⟨y, l1, fun k hk hjk => ?_, l3⟩
          rcases List.mem_cons.1 hk with rfl | hk'
          · exact absurd (hlt j hj') (by omega)
          · exact l2 k hk' hjk
      · rcases List.mem_cons.1 hj with rfl | hj'
        · -- the inequality that has just been removed
          have hall : ∀ k ∈ mf, k ≠ j → rowAt E k y' ≤ f.e k := by
            intro k hk hkj
            by_cases hkr : k ∈ r
            · exact h4 k hkr
            · by_cases hkis : k ∈ is
              · exact h5 k (by simp [hkis]) (hlt k hkis)
              · exact absurd (k3 k ((hnd.mem_erase_iff).2 ⟨hkj, hk⟩) hkis) hkr
          by_contra hcon
          push Not at hcon
          by_cases hle : rowAt E j y' ≤ f.e j + 1
          · have := h3' y' hny hall hle
            linarith
          · push Not at hle
            have hj0 := hy0 j (hmf j hi)
            set D := rowAt E j y' - rowAt E j y0 with hD
            have hDpos : 0 < D := by rw [hD]; linarith
            set t := (f.e j + 1 - rowAt E j y0) / D with ht
            have ht0 : 0 ≤ t := div_nonneg (by linarith) hDpos.le
            have ht1 : t ≤ 1 := by rw [ht, div_le_one hDpos, hD]; linarith
            have htD : t * D = f.e j + 1 - rowAt E j y0 := div_mul_cancel₀ _ hDpos.ne'
            have hval : rowAt E j (fun l => (1 - t) * y0 l + t * y' l) = f.e j + 1 := by
              rw [rowAt_comb]
              have : t * (rowAt E j y' - rowAt E j y0) = f.e j + 1 - rowAt E j y0 := htD
              linarith
            have := h3' (fun l => (1 - t) * y0 l + t * y' l) (norm_comb hn0 hny ht0 ht1) (fun k hk hkj => by
              rw [rowAt_comb]
              have a := mul_le_mul_of_nonneg_left (hall k hk hkj) ht0
              have b := mul_le_mul_of_nonneg_left (hy0 k (hmf k hk)) (show 0 ≤ 1 - t by linarith)
              linarith) hval.le
            linarith
        · exact k5 j hj' hjr y' hny h4 (fun k hk => h5 k (by simp [hk]))
    · rw [if_neg hred] at hrun
      obtain ⟨k2, k3, k4, k5⟩ := ih mf hp (fun j hj => hsub j (by simp [hj])) hmf hnd hrun
      have hir : i ∈ r := k3 i hi hnot
      refine ⟨k2, fun j hj hji => ?_, fun j hj hjr => ?_, fun j hj hjr y' hny h4 h5 => ?_⟩
      · simp only [List.mem_cons, not_or] at hji
        exact k3 j hj hji.2
      · rcases List.mem_cons.1 hj with rfl | hj'
        · exact ⟨y, fun k hk => h2 k (k2.subset hk), fun k hk hjk => h2 k (hsub k hk) (by omega),
            by push Not at hred; linarith⟩
        · obtain ⟨y, l1, l2, l3⟩ := k4 j hj' hjr
          refine ⟨y, l1, fun k hk hjk => ?_, l3⟩
          rcases List.mem_cons.1 hk with rfl | hk'
          · exact absurd (hlt j hj') (by omega)
          · exact l2 k hk' hjk
      · rcases List.mem_cons.1 hj with rfl | hj'
        · exact absurd hir hjr
        · exact k5 j hj' hjr y' hny h4 (fun k hk => h5 k (by simp [hk]))

/-- the loop over the facets answers if `nnls` is accurate enough -/
theorem sweep_answers {L : Lib} (hL : LibSound L) {δ : ℝ} (hN : NnlsWithin L δ) (hδ : δ < 1e-7) {E : Mat ℝ} {f : Vec ℝ}
    (hf : f.n = E.nr) {tol : ℝ} {y0 : ℕ → ℝ} (hy0 : ∀ j < E.nr, rowAt E j y0 ≤ f.e j) (is mf : List ℕ) (his : is.Nodup)
    (hsub : ∀ i ∈ is, i ∈ mf) (hmf : ∀ i ∈ mf, i < E.nr) (hnd : mf.Nodup) : ∃ r, sweep L E f tol is mf = .ok r := by
  induction is generalizing mf with
  | nil => exact ⟨mf, rfl⟩
  | cons i is ih =>
    have hi : i ∈ mf := hsub i (by simp)
    obtain ⟨hnot, his⟩ := List.nodup_cons.1 his
    have hrun : ∃ m, relaxedMax L E f i mf = .ok m := by
      rw [relaxedMax_unfold L hf hmf]
      obtain ⟨s, hs, -, hnone⟩ := C169 L hL δ hN E.nc (E.row i).neg (E.rows mf) ((f.add (oneHot f.n i)).take mf) none none rfl
        ⟨rfl, rfl⟩ (.inl (by rw [Mat.rows_nr]; exact List.length_pos_of_mem hi)) 1e-7 hδ
      unfold lpDefault
      rw [hs, Py.ok_bind]
      unfold negMin
      cases h : s.min with
      | some m => exact ⟨-m, rfl⟩
      | none =>
        exfalso
        rcases hnone h with h | h
        · refine h ⟨E.nc, y0⟩ ⟨fun a ha => ?_, trivial⟩
          have := (relaxed_iff (f := f) hi 0 y0).2 ⟨fun j hj _ => by linarith [hy0 j (hmf j hj)],
            by linarith [hy0 i (hmf i hi)]⟩ a ha
          rwa [add_zero] at this
        · obtain ⟨x, hx, hlt⟩ := h (-(f.e i + 1))
          rw [lpCost_negRow] at hlt
          have := ((relaxed_iff (f := f) hi 0 x.e).1 fun a ha => by rw [add_zero]; exact hx.1 a ha).2
          linarith
    obtain ⟨m, hm⟩ := hrun
    unfold sweep
    rw [hm, Py.ok_bind]
    split_ifs
    · exact ih _ his (fun j hj => (hnd.mem_erase_iff).2 ⟨fun h => hnot (h ▸ hj), hsub j (by simp [hj])⟩)
        (fun j hj => hmf j (List.mem_of_mem_erase hj)) (hnd.erase i)
    · exact ih mf his (fun j hj => hsub j (by simp [hj])) hmf hnd

/-- `minimal_facets` of a polyhedron without equalities in terms of its loop -/
theorem minimal_facets_sound {L : Lib} (hL : LibSound L) {n : ℕ} {p : Poly} (hp : p.Inv n) (hr : p.HasRows) (hc : p.EmptyOk L)
    (hC : p.C.nr = 0) (tol : ℝ) : ∃ e, Poly.empty L p = (.ok e, { p with _empty := some e }) ∧
    (e = true → ∀ x, p.Mem x → Real.sqrt (1 / (1e-7 : ℝ) ^ 2 - 1) ≤ Real.sqrt (∑ i ∈ range n, x i ^ 2)) ∧
    (e = true → Poly.minimal_facets L tol p = (.ok none, { p with _empty := some true })) ∧
    (e = false → Poly.minimal_facets L tol p = match sweep L p.A p.b tol (List.range p.A.nr) (List.range p.A.nr) with
      | .ok r => (.ok (some r), { p with _empty := some false })
      | .error e => (.error e, { p with _empty := some false })) := by
  obtain ⟨e, he, h1, -⟩ := C176 L hL n p hp hr hc
  refine ⟨e, he, h1, ?_, ?_⟩
  · rintro rfl
    unfold Poly.minimal_facets
    rw [PyM.bind_ok he]; rfl
  · rintro rfl
    unfold Poly.minimal_facets
    rw [PyM.bind_ok he]
    simp only [Bool.false_eq_true, if_false]
    rw [PyM.bind_ok (PyM.get_apply _)]
    have e1 : reduced L { p with _empty := some false } = .ok (p.A, p.b) := by
      unfold reduced; rw [if_neg (by simp [hC])]; rfl
    simp only [PyM.bind_apply, PyM.lift_apply, e1]
    cases sweep L p.A p.b tol (List.range p.A.nr) (List.range p.A.nr) <;> rfl

/-- C179: whatever nonnegative vector `nnls` returns, with the norm of its residual, for a polyhedron without equalities and with
a point `x0`, the indices returned by `minimal_facets(tol)` are a sublist of all the indices, so that no point is lost.  Let
`‖x0‖₁ ≤ R`, where `tol + 1e-7 (1 + R) ≤ 1`.  A point `x` with `‖x‖₁ ≤ R` that satisfies the inequalities that are kept and those
after the `i`-th one, which is removed, violates it by less than `tol + 1e-7 (1 + R)`.  For an inequality that is kept there is a point that
satisfies the others within `1e-7` and violates it by `tol` or more. -/
theorem C179 (L : Lib) (hL : LibSound L) (n : ℕ) (p q : Poly) (hp : p.Inv n) (hr : p.HasRows) (hc : p.EmptyOk L)
    (hC : p.C.nr = 0) (tol R : ℝ) (hR : tol + 1e-7 * (1 + R) ≤ 1) (x0 : ℕ → ℝ) (hx0 : p.Mem x0) (hn0 : ∑ j ∈ range n, |x0 j| ≤ R)
    (r : List ℕ) (hrun : Poly.minimal_facets L tol p = (.ok (some r), q)) :
    q = { p with _empty := some false } ∧ r.Sublist (List.range p.A.nr) ∧
      (∀ i ∈ r, ∃ x, (∀ j ∈ r, j ≠ i → Spec.rowVal p.A j x ≤ p.b.e j + 1e-7) ∧
        (∀ j < p.A.nr, i < j → Spec.rowVal p.A j x ≤ p.b.e j + 1e-7) ∧ p.b.e i + tol ≤ Spec.rowVal p.A i x) ∧
      ∀ i < p.A.nr, i ∉ r → ∀ x, ∑ j ∈ range n, |x j| ≤ R → (∀ j ∈ r, Spec.rowVal p.A j x ≤ p.b.e j) →
        (∀ j < p.A.nr, i < j → Spec.rowVal p.A j x ≤ p.b.e j) → Spec.rowVal p.A i x < p.b.e i + tol + 1e-7 * (1 + R) := by
  obtain ⟨s1, s2, s3, s4⟩ := id hp
  obtain ⟨e, -, -, h1, h2⟩ := minimal_facets_sound hL hp hr hc hC tol
  cases e with
  | true => rw [h1 rfl] at hrun; simp at hrun
  | false =>
    rw [h2 rfl] at hrun
    cases hsw : sweep L p.A p.b tol (List.range p.A.nr) (List.range p.A.nr) with
    | error e => rw [hsw] at hrun; simp at hrun
    | ok r' =>
      rw [hsw] at hrun
      simp only [Prod.mk.injEq, Except.ok.injEq, Option.some.injEq] at hrun
      obtain ⟨rfl, rfl⟩ := hrun
      obtain ⟨k2, -, k4, k5⟩ := sweep_sound hL s2 hR (y0 := x0) hx0.1 (by rw [s1]; exact hn0) _ _ List.pairwise_lt_range
        (fun i hi => hi) (fun i hi => by simpa using hi) List.nodup_range hsw
      refine ⟨rfl, k2, fun i hi => ?_, fun i hi hir x hn h3 h4 => ?_⟩
      · obtain ⟨y, l1, l2, l3⟩ := k4 i (k2.subset hi) hi
        exact ⟨y, l1, fun j hj hij => l2 j (by simpa using hj) hij, l3⟩
      · exact k5 i (by simpa using hi) hir x (by rw [s1]; exact hn) h3 fun j hj hij => h4 j (by simpa using hj) hij

/-- C179, when there is an answer: if the residual of `nnls` exceeds the smallest one by less than `1e-7` and the polyhedron has a point
of norm below about `1e7`, `minimal_facets` returns indices, and `remove_redundant_inequalities` keeps these inequalities -/
theorem C179_answers (L : Lib) (hL : LibSound L) (δ : ℝ) (hN : NnlsWithin L δ) (hδ : δ < 1e-7) (n : ℕ) (p : Poly) (hp : p.Inv n)
    (hr : p.HasRows) (hc : p.EmptyOk L) (hC : p.C.nr = 0) (hne : Spec.NearPoint n p.A p.b p.C p.d) (tol : ℝ) :
    ∃ r, Poly.minimal_facets L tol p = (.ok (some r), { p with _empty := some false }) ∧
      (tol = 1e-7 → Poly.remove_redundant_inequalities L p
        = (.ok (), { p with _empty := some false, A := p.A.rows r, b := p.b.take r })) := by
  obtain ⟨s1, s2, s3, s4⟩ := id hp
  obtain ⟨x0, hx0, hnear⟩ := hne
  obtain ⟨e, -, h1, -, h2⟩ := minimal_facets_sound hL hp hr hc hC tol
  cases e with
  | true =>
    have := h1 rfl x0 hx0
    rw [Real.sqrt_le_sqrt_iff (Finset.sum_nonneg fun _ _ => _root_.sq_nonneg _)] at this
    exact absurd this (not_le.2 hnear)
  | false =>
    obtain ⟨r, hsw⟩ := sweep_answers hL hN hδ s2 (tol := tol) (y0 := x0) hx0.1 (List.range p.A.nr) (List.range p.A.nr)
      List.nodup_range (fun i hi => hi) (fun i hi => by simpa using hi) List.nodup_range
    have hm := h2 rfl
    rw [hsw] at hm
    refine ⟨r, hm, ?_⟩
    rintro rfl
    refine Poly.remove_redundant_ok hm rfl rfl hp.2.1 fun i hi => ?_
    have : ∀ (is mf r : List ℕ), sweep L p.A p.b 1e-7 is mf = .ok r → ∀ i ∈ r, i ∈ mf := by
      intro is
      induction is with
      | nil => intro mf r h i hi; cases h; exact hi
      | cons k is ih =>
        intro mf r h i hi
        unfold sweep at h
        obtain ⟨m, -, h⟩ := Py.bind_eq_ok h
        have := ih _ r h i hi
        split_ifs at this
        · exact List.mem_of_mem_erase this
        · exact this
    simpa using this _ _ r hsw i hi

/-- the interval `[0, 2]` meets the hypotheses of `C179` with `R = 10` and of `C179_answers`, with the exact routine -/
example : ∃ (L : Lib) (r : List ℕ), LibSound L ∧ NnlsWithin L 0 ∧ (interval 2).Mem (fun _ => 1) ∧
    (1e-7 : ℝ) + 1e-7 * (1 + 10) ≤ 1 ∧ ∑ j ∈ range 1, |(fun _ => 1 : ℕ → ℝ) j| ≤ 10 ∧
    Poly.minimal_facets L 1e-7 (interval 2) = (.ok (some r), { interval 2 with _empty := some false }) ∧
    r.Sublist (List.range (interval 2).A.nr) := by
  obtain ⟨L, hL⟩ := exists_lib
  have h1 : (interval 2).Mem fun _ => 1 := by
    refine ⟨fun i hi => ?_, fun i hi => absurd hi (by simp [interval, Poly.fresh, Mat.zeros])⟩
    have : i < 2 := hi
    interval_cases i <;> simp [interval, Poly.fresh]
  have hrows : (interval 2).HasRows := .inl (by norm_num [interval, Poly.fresh])
  obtain ⟨r, hr, -⟩ := C179_answers L hL.sound 0 hL.within (by norm_num) 1 (interval 2) ⟨rfl, rfl, rfl, rfl⟩ hrows
    (fun e h => by cases h) rfl ⟨_, h1, by norm_num⟩ 1e-7
  refine ⟨L, r, hL.sound, hL.within, h1, by norm_num, by norm_num, hr, ?_⟩
  exact (C179 L hL.sound 1 (interval 2) _ ⟨rfl, rfl, rfl, rfl⟩ hrows (fun e h => by cases h) rfl 1e-7 10 (by norm_num) _ h1
    (by norm_num) r hr).2.1

end Verif.Props
