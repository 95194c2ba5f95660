import Verif.Proofs.PolyQueries
import Verif.Props.PolyhedronSets

/-
Properties of `empty`, `minimal_facets`, `remove_redundant_inequalities`, `is_included_in` and
`_remove_equalities` of `/repo/pympc/geometry/polyhedron.py` (C09 - C12, C15, C16, C19).

`p.EmptyOk L` says that the answer of `empty` in the cache, if any, is the one that would be computed
now.  A new polyhedron has no cached answers; C20 shows that this is kept by every operation.
-/
namespace Verif.Props
open Finset

/-- C15: `empty` answers `True` for a polyhedron without points, and `False` for a polyhedron given by at least one inequality or
equality with a point of norm below `sqrt (1 / tol ^ 2 - 1)`.  (Without any constraint it raises `RuntimeError`.) -/
theorem C15 (L : Lib) (hL : LibSpec L) (n : ℕ) (p : Poly) (hp : p.Inv n) (hc : p.EmptyOk L) :
    (¬ p.HasRows → Poly.empty L p = (.error .runtimeError, p)) ∧
    ((∀ x, ¬ p.Mem x) → ∃ q, Poly.empty L p = (.ok true, q)) ∧
    (p.HasRows → (∃ x, p.Mem x ∧ Real.sqrt (∑ i ∈ range n, x i ^ 2) < Real.sqrt (1 / (1e-7 : ℝ) ^ 2 - 1)) →
      ∃ q, Poly.empty L p = (.ok false, q)) := by
  refine ⟨fun hr => Poly.empty_no_rows hL hp hr hc, ?_, ?_⟩
  · intro h
    have hr : p.HasRows := by
      by_contra hr
      unfold Poly.HasRows at hr
      exact h (fun _ => 0) ⟨fun i hi => by omega, fun i hi => by omega⟩
    obtain ⟨e, he, hrun⟩ := Poly.empty_run hL hp hr hc
    have := (Poly.computeEmpty_true_iff hL hp hr).2 (fun ⟨x, hx, _⟩ => h x hx)
    rw [he] at this
    cases this
    exact ⟨_, hrun⟩
  · rintro hr ⟨x, hx, hlt⟩
    obtain ⟨e, he, hrun⟩ := Poly.empty_run hL hp hr hc
    have := (Poly.computeEmpty_false_iff hL hp hr).2
      ⟨x, hx, (Real.sqrt_lt_sqrt_iff (Finset.sum_nonneg fun _ _ => sq_nonneg _)).1 hlt⟩
    rw [he] at this
    cases this
    exact ⟨_, hrun⟩

/-- the interval `[-1, 2]`, a new polyhedron with the point 1 -/
example :
    let p := Poly.fresh ⟨2, 1, fun i _ => if i = 0 then 1 else -1⟩ ⟨2, fun i => if i = 0 then 2 else 1⟩
      (Mat.zeros 0 1) (Vec.zeros 0)
    p.Inv 1 ∧ (∀ L, p.EmptyOk L) ∧ p.HasRows ∧
      ∃ x, p.Mem x ∧ Real.sqrt (∑ i ∈ range 1, x i ^ 2) < Real.sqrt (1 / (1e-7 : ℝ) ^ 2 - 1) := by
  refine ⟨⟨rfl, rfl, rfl, rfl⟩, fun L e h => (by cases h), .inl (by norm_num [Poly.fresh]), fun _ => 1, ⟨fun i hi => ?_, fun i hi => ?_⟩, ?_⟩
  · have : i < 2 := hi
    interval_cases i <;> simp [Poly.fresh]
  · exact absurd hi (by simp [Poly.fresh, Mat.zeros])
  · apply Real.sqrt_lt_sqrt <;> norm_num

/-- C16 is false of the code: `{x | x ≥ 1e8}` has points, but `empty` is `True`. -/
theorem C16_false : ∃ p : Poly, p.Inv 1 ∧ (∃ x, p.Mem x) ∧ (∀ L, p.EmptyOk L) ∧
    ∀ L, LibSpec L → ∃ q, Poly.empty L p = (.ok true, q) := by
  have hp : (Poly.fresh (⟨1, 1, fun _ _ => -1⟩ : Mat ℝ) ⟨1, fun _ => -1e8⟩ (Mat.zeros 0 1) (Vec.zeros 0)).Inv 1 :=
    ⟨rfl, rfl, rfl, rfl⟩
  refine ⟨_, hp, ⟨fun _ => 1e8, fun i hi => by simp [Poly.fresh], fun i hi => absurd hi (by simp [Poly.fresh, Mat.zeros])⟩,
    fun L e h => (by cases h), fun L hL => ?_⟩
  obtain ⟨e, he, hrun⟩ := Poly.empty_run hL hp (.inl Nat.zero_lt_one) (fun e h => (by cases h))
  have := (Poly.computeEmpty_true_iff hL hp (.inl Nat.zero_lt_one)).2 (by
    rintro ⟨x, ⟨hx, -⟩, hlt⟩
    have := hx 0 (by norm_num [Poly.fresh])
    simp [Poly.fresh] at this hlt
    norm_num at this hlt
    nlinarith)
  rw [he] at this
  cases this
  exact ⟨_, hrun⟩

/-- C16, what holds: for a polyhedron with at least one inequality or equality, `empty` is `True` exactly when every point of the polyhedron is at least
`sqrt (1 / tol ^ 2 - 1)` (about 1e7) away from the origin.  The answer is stored and nothing else is
modified.  Missing with respect to C16: these points may exist, see `C16_false`. -/
theorem C16_partial (L : Lib) (hL : LibSpec L) (n : ℕ) (p : Poly) (hp : p.Inv n) (hr : p.HasRows) (hc : p.EmptyOk L) :
    ∃ e, Poly.empty L p = (.ok e, { p with _empty := some e }) ∧
      (e = true ↔ ∀ x, p.Mem x → Real.sqrt (1 / (1e-7 : ℝ) ^ 2 - 1) ≤ Real.sqrt (∑ i ∈ range n, x i ^ 2)) := by
  obtain ⟨e, he, hrun⟩ := Poly.empty_run hL hp hr hc
  obtain ⟨e', he', hiff⟩ := Poly.computeEmpty_iff hL hp hr
  rw [he] at he'
  cases he'
  refine ⟨e, hrun, hiff.trans (forall₂_congr fun x _ => ?_)⟩
  rw [Real.sqrt_le_sqrt_iff (Finset.sum_nonneg fun _ _ => sq_nonneg _)]

/-- the result of `minimal_facets` and of `remove_redundant_inequalities` -/
theorem redundancy_run {L : Lib} (hL : LibSpec L) {n : ℕ} {p : Poly} (hp : p.Inv n) (hrows : p.HasRows) (hc : p.EmptyOk L)
    (hne : Spec.NearPoint n p.A p.b p.C p.d) (heq : p.C.nr = 0 ∨ Spec.EqIndep n p.C) {tol : ℝ} (htol : tol ≤ 1) :
    ∃ r, Poly.minimal_facets L tol p = (.ok (some r), { p with _empty := some false }) ∧
      (tol = 1e-7 → Poly.remove_redundant_inequalities L p
        = (.ok (), { p with _empty := some false, A := p.A.rows r, b := p.b.take r })) ∧
      r.Sublist (List.range p.A.nr) ∧ (∀ i ∈ r, i < p.A.nr) ∧
      (∀ i ∈ r, ∃ x, Spec.EqHold p.C p.d x ∧ (∀ j ∈ r, j ≠ i → Spec.rowVal p.A j x ≤ p.b.e j) ∧
        (∀ j < p.A.nr, i < j → Spec.rowVal p.A j x ≤ p.b.e j) ∧ p.b.e i + tol ≤ Spec.rowVal p.A i x) ∧
      (∀ i < p.A.nr, i ∉ r → ∀ x, Spec.EqHold p.C p.d x → (∀ j ∈ r, Spec.rowVal p.A j x ≤ p.b.e j) →
        (∀ j < p.A.nr, i < j → Spec.rowVal p.A j x ≤ p.b.e j) → Spec.rowVal p.A i x < p.b.e i + tol) := by
  obtain ⟨r, h1, h2, h3, h4⟩ := Poly.minimal_facets_ok hL hp hc ((Poly.computeEmpty_false_iff hL hp hrows).2 hne)
    (heq.imp_right Poly.eqRank_iff.2) htol
  have hr : ∀ i ∈ r, i < p.A.nr := fun i hi => by simpa using h2.subset hi
  refine ⟨r, h1, ?_, h2, hr, h3, h4⟩
  rintro rfl
  exact Poly.remove_redundant_ok h1 rfl rfl hp.2.1 hr

/-- membership in the polyhedron with the selected inequalities -/
theorem mem_rows (p : Poly) (r : List ℕ) (x : ℕ → ℝ) (e : Option Bool) :
    Poly.Mem { p with _empty := e, A := p.A.rows r, b := p.b.take r } x ↔
      Spec.EqHold p.C p.d x ∧ ∀ j ∈ r, Spec.rowVal p.A j x ≤ p.b.e j := by
  have h := forall_getD (P := fun j => Spec.rowVal p.A j x ≤ p.b.e j) (l := r)
  rw [and_comm]
  exact and_congr_left fun _ => h

/-- C09: `remove_redundant_inequalities` (and `minimal_facets`, with any `tol ≤ 1`) keep a sublist of
the inequalities, so that no point is lost.  If the inequalities that are removed are not violated by
an amount strictly between 0 and `tol` subject to the inequalities that are still there when they are
removed (these are the ones that are never removed and the ones with larger index), then the set is
the same.  The polyhedron has at least one inequality or equality; `C09_errors` treats the other case. -/
theorem C09 (L : Lib) (hL : LibSpec L) (n : ℕ) (p : Poly) (hp : p.Inv n) (hrows : p.HasRows) (hc : p.EmptyOk L)
    (hne : Spec.NearPoint n p.A p.b p.C p.d) (heq : p.C.nr = 0 ∨ Spec.EqIndep n p.C) :
    (∀ tol ≤ (1 : ℝ), ∃ r q, Poly.minimal_facets L tol p = (.ok (some r), q) ∧ r.Sublist (List.range p.A.nr) ∧
      ((∀ i < p.A.nr, i ∉ r → Spec.GapAt p.A p.b p.C p.d tol {j | j ∈ r ∨ i < j} i) →
        ∀ x, Spec.EqHold p.C p.d x → (∀ j ∈ r, Spec.rowVal p.A j x ≤ p.b.e j) → p.Mem x)) ∧
    ∃ r q, Poly.remove_redundant_inequalities L p = (.ok (), q) ∧ r.Sublist (List.range p.A.nr) ∧
      q.A = p.A.rows r ∧ q.b = p.b.take r ∧ q.C = p.C ∧ q.d = p.d ∧
      (∀ x, p.Mem x → q.Mem x) ∧
      ((∀ i < p.A.nr, i ∉ r → Spec.GapAt p.A p.b p.C p.d 1e-7 {j | j ∈ r ∨ i < j} i) →
        ∀ x, q.Mem x ↔ p.Mem x) := by
  have key : ∀ (tol : ℝ) (r : List ℕ), (∀ i ∈ r, i < p.A.nr) →
      (∀ i < p.A.nr, i ∉ r → ∀ x, Spec.EqHold p.C p.d x → (∀ j ∈ r, Spec.rowVal p.A j x ≤ p.b.e j) →
        (∀ j < p.A.nr, i < j → Spec.rowVal p.A j x ≤ p.b.e j) → Spec.rowVal p.A i x < p.b.e i + tol) →
      (∀ i < p.A.nr, i ∉ r → Spec.GapAt p.A p.b p.C p.d tol {j | j ∈ r ∨ i < j} i) →
        ∀ x, Spec.EqHold p.C p.d x → (∀ j ∈ r, Spec.rowVal p.A j x ≤ p.b.e j) → p.Mem x := by
    intro tol r hr h4 hgap x hx hxr
    refine ⟨?_, hx⟩
    -- from the last inequality to the first one
    have : ∀ k ≤ p.A.nr, ∀ i < p.A.nr, p.A.nr - k ≤ i → Spec.rowVal p.A i x ≤ p.b.e i := by
      intro k
      induction k with
      | zero => intro _ i hi h; omega
      | succ k ih =>
        intro hk i hi hik
        by_cases hir : i ∈ r
        · exact hxr i hir
        by_contra hcon
        push Not at hcon
        obtain ⟨x', g1, g2, g3⟩ := hgap i hi hir ⟨x, hx, fun j hj hjS => by
          rcases hjS with hjr | hij
          · exact hxr j hjr
          · exact ih (by omega) j hj (by omega), hcon⟩
        have := h4 i hi hir x' g1 (fun j hj => g2 j (hr j hj) (.inl hj)) (fun j hj hij => g2 j hj (.inr hij))
        linarith
    exact fun i hi => this p.A.nr le_rfl i hi (by omega)
  constructor
  · intro tol htol
    obtain ⟨r, h1, -, h2, hr, -, h4⟩ := redundancy_run hL hp hrows hc hne heq htol
    exact ⟨r, _, h1, h2, key tol r hr h4⟩
  · obtain ⟨r, -, h1, h2, hr, -, h4⟩ := redundancy_run hL hp hrows hc hne heq (tol := 1e-7) (by norm_num)
    have hsup : ∀ x, p.Mem x →
        Poly.Mem { p with _empty := some false, A := p.A.rows r, b := p.b.take r } x :=
      fun x hx => (mem_rows p r x _).2 ⟨hx.2, fun j hj => hx.1 j (hr j hj)⟩
    refine ⟨r, _, h1 rfl, h2, rfl, rfl, rfl, rfl, hsup, fun hgap x => ⟨fun hx => ?_, hsup x⟩⟩
    obtain ⟨k1, k2⟩ := (mem_rows p r x _).1 hx
    exact key 1e-7 r hr h4 hgap x k1 k2

/-- C09, errors: for a polyhedron without points (or that has only far points, see C16) `minimal_facets`
answers `None` and `remove_redundant_inequalities` raises `ValueError`; dependent equalities raise
`ValueError` in both.  Without any inequality or equality both raise `RuntimeError`.  The inequalities and equalities are left as they are. -/
theorem C09_errors (L : Lib) (hL : LibSpec L) (n : ℕ) (p : Poly) (hp : p.Inv n) (hc : p.EmptyOk L) (tol : ℝ) :
    (¬ p.HasRows → Poly.minimal_facets L tol p = (.error .runtimeError, p) ∧
      Poly.remove_redundant_inequalities L p = (.error .runtimeError, p)) ∧
    (p.HasRows → (∀ x, ¬ p.Mem x) ∨ ¬ Spec.NearPoint n p.A p.b p.C p.d →
      Poly.minimal_facets L tol p = (.ok none, { p with _empty := some true }) ∧
      Poly.remove_redundant_inequalities L p = (.error .valueError, { p with _empty := some true })) ∧
    (Spec.NearPoint n p.A p.b p.C p.d → p.C.nr ≠ 0 → ¬ Spec.EqIndep n p.C →
      Poly.minimal_facets L tol p = (.error .valueError, { p with _empty := some false }) ∧
      Poly.remove_redundant_inequalities L p = (.error .valueError, { p with _empty := some false })) := by
  refine ⟨?_, ?_, ?_⟩
  · intro hr
    have h1 : ∀ tol, Poly.minimal_facets L tol p = (.error .runtimeError, p) := fun tol => by
      unfold Poly.minimal_facets
      rw [PyM.bind_error (Poly.empty_no_rows hL hp hr hc)]
    refine ⟨h1 tol, ?_⟩
    unfold Poly.remove_redundant_inequalities
    rw [PyM.bind_error (h1 1e-7)]
  · intro hr h
    have hno : ¬ Spec.NearPoint n p.A p.b p.C p.d := by
      rcases h with h | h
      · rintro ⟨x, hx, -⟩; exact h x hx
      · exact h
    have he := (Poly.computeEmpty_true_iff hL hp hr).2 hno
    refine ⟨Poly.minimal_facets_empty hL hp hc he tol, ?_⟩
    unfold Poly.remove_redundant_inequalities
    rw [PyM.bind_ok (Poly.minimal_facets_empty hL hp hc he 1e-7)]
    rfl
  · intro h h0 hrk
    have he := (Poly.computeEmpty_false_iff hL hp (.inr (by omega))).2 h
    have hrk' : ¬ Poly.EqRank n p := fun h => hrk (Poly.eqRank_iff.1 h)
    refine ⟨Poly.minimal_facets_error hL hp hc he h0 hrk' tol, ?_⟩
    unfold Poly.remove_redundant_inequalities
    rw [PyM.bind_error (Poly.minimal_facets_error hL hp hc he h0 hrk' 1e-7)]

/-- the interval `{x ≤ 1, x ≤ 2, x ≥ 0}`, whose second inequality is redundant, meets the hypotheses of
C09; there is a gap whatever is removed -/
example :
    let p := Poly.fresh ⟨3, 1, fun i _ => if i = 2 then -1 else 1⟩
      ⟨3, fun i => if i = 0 then 1 else if i = 1 then 2 else 0⟩ (Mat.zeros 0 1) (Vec.zeros 0)
    p.Inv 1 ∧ (∀ L, p.EmptyOk L) ∧ Spec.NearPoint 1 p.A p.b p.C p.d ∧ p.C.nr = 0 ∧
      ∀ r : List ℕ, ∀ i < p.A.nr, i ∉ r → Spec.GapAt p.A p.b p.C p.d 1e-7 {j | j ∈ r ∨ i < j} i := by
  intro p
  have heq : ∀ x, Spec.EqHold p.C p.d x := fun x i hi => absurd hi (by simp [p, Poly.fresh, Mat.zeros])
  have hnr : p.A.nr = 3 := rfl
  have v0 : ∀ x, Spec.rowVal p.A 0 x = x 0 := by intro x; simp [Spec.rowVal, p, Poly.fresh]
  have v1 : ∀ x, Spec.rowVal p.A 1 x = x 0 := by intro x; simp [Spec.rowVal, p, Poly.fresh]
  have v2 : ∀ x, Spec.rowVal p.A 2 x = -x 0 := by intro x; simp [Spec.rowVal, p, Poly.fresh]
  have b0 : p.b.e 0 = 1 := rfl
  have b1 : p.b.e 1 = 2 := rfl
  have b2 : p.b.e 2 = 0 := rfl
  refine ⟨⟨rfl, rfl, rfl, rfl⟩, fun L e h => (by cases h), ⟨fun _ => 1, ⟨fun i hi => ?_, heq _⟩, ?_⟩, rfl,
    fun r i hi hir hx => ?_⟩
  · have : i < 3 := hi
    interval_cases i
    · show Spec.rowVal p.A 0 _ ≤ p.b.e 0; rw [v0, b0]
    · show Spec.rowVal p.A 1 _ ≤ p.b.e 1; rw [v1, b1]; norm_num
    · show Spec.rowVal p.A 2 _ ≤ p.b.e 2; rw [v2, b2]; norm_num
  · norm_num
  · have : i < 3 := hi
    obtain ⟨x, -, h1, h2⟩ := hx
    interval_cases i
    · refine ⟨fun _ => 2, heq _, fun j hj hjS => ?_, ?_⟩
      · have : j < 3 := hj
        interval_cases j
        · rcases hjS with h | h
          · exact absurd h hir
          · exact absurd h (lt_irrefl _)
        · rw [v1, b1]
        · rw [v2, b2]; norm_num
      · rw [v0, b0]; norm_num
    · by_cases h0 : 0 ∈ r
      · exfalso
        have := h1 0 (by omega) (.inl h0)
        rw [v0, b0] at this
        rw [v1, b1] at h2
        linarith
      · refine ⟨fun _ => 3, heq _, fun j hj hjS => ?_, ?_⟩
        · have : j < 3 := hj
          interval_cases j
          · rcases hjS with h | h
            · exact absurd h h0
            · simp at h
          · rcases hjS with h | h
            · exact absurd h hir
            · exact absurd h (lt_irrefl _)
          · rw [v2, b2]; norm_num
        · rw [v1, b1]; norm_num
    · refine ⟨fun _ => -1, heq _, fun j hj hjS => ?_, ?_⟩
      · have : j < 3 := hj
        interval_cases j
        · rw [v0, b0]; norm_num
        · rw [v1, b1]; norm_num
        · rcases hjS with h | h
          · exact absurd h hir
          · exact absurd h (lt_irrefl _)
      · rw [v2, b2]; norm_num

/-- C10: for each index `i` returned by `minimal_facets` there is a point (on the equalities) that
satisfies the other returned inequalities and violates the `i`-th one by at least `tol`. -/
theorem C10 (L : Lib) (hL : LibSpec L) (n : ℕ) (p : Poly) (hp : p.Inv n) (hc : p.EmptyOk L) (tol : ℝ)
    (htol : tol ≤ 1) (r : List ℕ) (q : Poly) (hrun : Poly.minimal_facets L tol p = (.ok (some r), q)) :
    ∀ i ∈ r, ∃ x, Spec.EqHold p.C p.d x ∧ (∀ j ∈ r, j ≠ i → Spec.rowVal p.A j x ≤ p.b.e j) ∧
      p.b.e i + tol ≤ Spec.rowVal p.A i x := by
  by_cases hrows : p.HasRows
  swap
  · have := ((C09_errors L hL n p hp hc tol).1 hrows).1
    rw [hrun] at this
    cases this
  by_cases hne : Spec.NearPoint n p.A p.b p.C p.d
  · by_cases heq : p.C.nr = 0 ∨ Spec.EqIndep n p.C
    · obtain ⟨r', h1, -, -, -, h3, -⟩ := redundancy_run hL hp hrows hc hne heq htol
      rw [hrun] at h1
      cases h1
      intro i hi
      obtain ⟨x, k1, k2, -, k4⟩ := h3 i hi
      exact ⟨x, k1, k2, k4⟩
    · push Not at heq
      have := ((C09_errors L hL n p hp hc tol).2.2 hne heq.1 heq.2).1
      rw [hrun] at this
      cases this
  · have := ((C09_errors L hL n p hp hc tol).2.1 hrows (.inr hne)).1
    rw [hrun] at this
    cases this

/-- C11 is false of the code: `{x ≤ 0, x ≤ 0.6e-7, x ≤ 1.2e-7}` becomes `{x ≤ 1.2e-7}`, a point of
which violates the first inequality by more than `tol`. -/
theorem C11_false : ∃ p : Poly, p.Inv 1 ∧ (∀ L, p.EmptyOk L) ∧ Spec.NearPoint 1 p.A p.b p.C p.d ∧
    ∀ L, LibSpec L → ∃ q x, Poly.remove_redundant_inequalities L p = (.ok (), q) ∧ q.Mem x ∧
      ∃ i < p.A.nr, p.b.e i + 1e-7 < Spec.rowVal p.A i x := by
  let p := Poly.fresh ⟨3, 1, fun _ _ => 1⟩ ⟨3, fun i => i * 0.6e-7⟩ (Mat.zeros 0 1) (Vec.zeros 0)
  have hp : p.Inv 1 := ⟨rfl, rfl, rfl, rfl⟩
  have hc : ∀ L, p.EmptyOk L := fun L e h => (by cases h)
  have heq : ∀ x, Spec.EqHold p.C p.d x := fun x i hi => absurd hi (by simp [p, Poly.fresh, Mat.zeros])
  have v : ∀ i x, Spec.rowVal p.A i x = x 0 := by intro i x; simp [Spec.rowVal, p, Poly.fresh]
  have b : ∀ i, p.b.e i = i * 0.6e-7 := fun i => rfl
  have hnr : p.A.nr = 3 := rfl
  have hne : Spec.NearPoint 1 p.A p.b p.C p.d :=
    ⟨fun _ => 0, ⟨fun i hi => by
      show Spec.rowVal p.A i _ ≤ _; rw [v, b]; positivity, heq _⟩, by norm_num⟩
  refine ⟨p, hp, hc, hne, fun L hL => ?_⟩
  obtain ⟨r, -, h1, h2, hr, h3, h4⟩ := redundancy_run hL hp (.inl (by omega)) (hc L) hne (.inl rfl) (tol := 1e-7) (by norm_num)
  have m0 : 0 ∉ r := by
    intro h
    obtain ⟨x, -, -, k1, k2⟩ := h3 0 h
    have := k1 1 (by omega) (by omega)
    rw [v, b] at this k2
    norm_num at this k2
    linarith
  have m1 : 1 ∉ r := by
    intro h
    obtain ⟨x, -, -, k1, k2⟩ := h3 1 h
    have := k1 2 (by omega) (by omega)
    rw [v, b] at this k2
    norm_num at this k2
    linarith
  refine ⟨_, fun _ => 1.2e-7, h1 rfl, (mem_rows p r _ _).2 ⟨heq _, fun j hj => ?_⟩, 0, by omega, ?_⟩
  · have : j < 3 := hr j hj
    rw [v, b]
    interval_cases j
    · exact absurd hj m0
    · exact absurd hj m1
    · norm_num
  · rw [v, b]; norm_num

/-- C11 is false of the code by any amount: `{x ≤ 0, x ≤ M y, y ≤ 0, y ≤ 0.9e-7}` becomes `{x ≤ M y, y ≤ 0.9e-7}`, a point of which violates the first
inequality by `0.9e-7 M`. -/
theorem C11_any_false (E : ℝ) : ∃ p : Poly, p.Inv 2 ∧ (∀ L, p.EmptyOk L) ∧ Spec.NearPoint 2 p.A p.b p.C p.d ∧
    ∀ L, LibSpec L → ∃ q x, Poly.remove_redundant_inequalities L p = (.ok (), q) ∧ q.Mem x ∧
      ∃ i < p.A.nr, p.b.e i + E < Spec.rowVal p.A i x := by
  let M : ℝ := (|E| + 1) / 0.9e-7
  have hM : 0 ≤ M := by positivity
  let p := Poly.fresh ⟨4, 2, fun i j => if i = 0 then (if j = 0 then 1 else 0) else if i = 1 then (if j = 0 then 1 else -M) else if j = 0 then 0 else 1⟩
    ⟨4, fun i => if i = 3 then 0.9e-7 else 0⟩ (Mat.zeros 0 2) (Vec.zeros 0)
  have hp : p.Inv 2 := ⟨rfl, rfl, rfl, rfl⟩
  have hc : ∀ L, p.EmptyOk L := fun L e h => (by cases h)
  have heq : ∀ x, Spec.EqHold p.C p.d x := fun x i hi => absurd hi (by simp [p, Poly.fresh, Mat.zeros])
  have v0 : ∀ x, Spec.rowVal p.A 0 x = x 0 := by intro x; simp [Spec.rowVal, p, Poly.fresh, Finset.sum_range_succ]
  have v1 : ∀ x, Spec.rowVal p.A 1 x = x 0 - M * x 1 := by intro x; simp [Spec.rowVal, p, Poly.fresh, Finset.sum_range_succ]; ring
  have v2 : ∀ x, Spec.rowVal p.A 2 x = x 1 := by intro x; simp [Spec.rowVal, p, Poly.fresh, Finset.sum_range_succ]
  have v3 : ∀ x, Spec.rowVal p.A 3 x = x 1 := by intro x; simp [Spec.rowVal, p, Poly.fresh, Finset.sum_range_succ]
  have b0 : p.b.e 0 = 0 := rfl
  have b1 : p.b.e 1 = 0 := rfl
  have b2 : p.b.e 2 = 0 := rfl
  have b3 : p.b.e 3 = 0.9e-7 := rfl
  have hnr : p.A.nr = 4 := rfl
  have hne : Spec.NearPoint 2 p.A p.b p.C p.d := by
    refine ⟨fun _ => 0, ⟨fun i hi => ?_, heq _⟩, by norm_num⟩
    show Spec.rowVal p.A i _ ≤ _
    have : i < 4 := hi
    interval_cases i
    · rw [v0, b0]
    · rw [v1, b1]; norm_num
    · rw [v2, b2]
    · rw [v3, b3]; norm_num
  refine ⟨p, hp, hc, hne, fun L hL => ?_⟩
  obtain ⟨r, -, h1, h2, hr, h3, h4⟩ := redundancy_run hL hp (.inl (by omega)) (hc L) hne (.inl rfl) (tol := 1e-7) (by norm_num)
  have m0 : 0 ∉ r := by
    intro h
    obtain ⟨x, -, -, k1, k2⟩ := h3 0 h
    have a1 := k1 1 (by omega) (by omega)
    have a2 := k1 2 (by omega) (by omega)
    rw [v1, b1] at a1
    rw [v2, b2] at a2
    rw [v0, b0] at k2
    norm_num at k2
    nlinarith [mul_nonneg hM (sub_nonneg.2 a2)]
  have m2 : 2 ∉ r := by
    intro h
    obtain ⟨x, -, -, k1, k2⟩ := h3 2 h
    have := k1 3 (by omega) (by omega)
    rw [v3, b3] at this
    rw [v2, b2] at k2
    norm_num at this k2
    linarith
  have hval : M * 0.9e-7 = |E| + 1 := by simp only [M]; rw [div_mul_cancel₀]; norm_num
  refine ⟨_, fun j => if j = 0 then M * 0.9e-7 else 0.9e-7, h1 rfl, (mem_rows p r _ _).2 ⟨heq _, fun j hj => ?_⟩, 0, by omega, ?_⟩
  · have : j < 4 := hr j hj
    interval_cases j
    · exact absurd hj m0
    · rw [v1, b1]; norm_num
    · exact absurd hj m2
    · rw [v3, b3]; norm_num
  · rw [v0, b0, if_pos rfl, hval]; linarith [le_abs_self E]

/-- C11, what holds: the inequalities that are removed are violated by less than `tol` by the points
that satisfy all the inequalities that are kept and the original inequalities with larger index; in
particular the last inequality that is removed is violated by less than `tol` by all points of the
result.  Missing with respect to C11: the errors of different removals add up, see `C11_false`,
and can be amplified by any factor, see `C11_any_false`. -/
theorem C11_partial (L : Lib) (hL : LibSpec L) (n : ℕ) (p : Poly) (hp : p.Inv n) (hrows : p.HasRows) (hc : p.EmptyOk L)
    (hne : Spec.NearPoint n p.A p.b p.C p.d) (heq : p.C.nr = 0 ∨ Spec.EqIndep n p.C) :
    ∃ q, Poly.remove_redundant_inequalities L p = (.ok (), q) ∧
      ∀ x, q.Mem x → ∀ i < p.A.nr, (∀ j < p.A.nr, i < j → Spec.rowVal p.A j x ≤ p.b.e j) →
        Spec.rowVal p.A i x < p.b.e i + 1e-7 := by
  obtain ⟨r, -, h1, h2, hr, -, h4⟩ := redundancy_run hL hp hrows hc hne heq (tol := 1e-7) (by norm_num)
  refine ⟨_, h1 rfl, fun x hx i hi hlater => ?_⟩
  obtain ⟨k1, k2⟩ := (mem_rows p r x _).1 hx
  by_cases hir : i ∈ r
  · have := k2 i hir
    have : (0:ℝ) < 1e-7 := by norm_num
    linarith
  · exact h4 i hi hir x k1 k2 hlater

/-- `x` satisfies the inequalities `A x ≤ b` and the equalities `C x = d` (two sided) within `tol` -/
def WithinTol (A : Mat ℝ) (b : Vec ℝ) (C : Mat ℝ) (d : Vec ℝ) (tol : ℝ) (x : ℕ → ℝ) : Prop :=
  (∀ i < A.nr, Spec.rowVal A i x ≤ b.e i + tol) ∧ ∀ i < C.nr, |Spec.rowVal C i x - d.e i| ≤ tol

/-- C12 is false of the code (second part, default tolerance): the set `{x ≤ 0, x ≥ 1e-9}` is empty,
but the question whether it is included in `{x ≤ 1}` is answered. -/
theorem C12_false : ∃ p q : Poly, p.Inv 1 ∧ q.Inv 1 ∧ (∀ x, ¬ p.Mem x) ∧
    ∀ L, LibSpec L → Poly.is_included_in L p q = .ok true := by
  let p := Poly.fresh ⟨2, 1, fun i _ => if i = 0 then 1 else -1⟩ ⟨2, fun i => if i = 0 then 0 else -1e-9⟩
    (Mat.zeros 0 1) (Vec.zeros 0)
  let q := Poly.fresh ⟨1, 1, fun _ _ => 1⟩ ⟨1, fun _ => 1⟩ (Mat.zeros 0 1) (Vec.zeros 0)
  have hp : p.Inv 1 := ⟨rfl, rfl, rfl, rfl⟩
  have hq : q.Inv 1 := ⟨rfl, rfl, rfl, rfl⟩
  refine ⟨p, q, hp, hq, ?_, fun L hL => ?_⟩
  · rintro x ⟨h, -⟩
    have h0 := h 0 (by norm_num [p, Poly.fresh])
    have h1 := h 1 (by norm_num [p, Poly.fresh])
    simp [p, Poly.fresh] at h0 h1
    norm_num at h1
    linarith
  · rw [Poly.is_included_in_eq L hp hq]
    set A1 := p.A.vapp (p.C.vapp p.C.neg) with hA1
    set b1 := p.b.append (p.d.append p.d.neg) with hb1
    have hnr : A1.nr = 2 := rfl
    have hnc : A1.nc = 1 := rfl
    have a0 : A1.e 0 0 = 1 := rfl
    have a1 : A1.e 1 0 = -1 := rfl
    have c0 : b1.e 0 = 0 := rfl
    have c1 : b1.e 1 = -1e-9 := rfl
    have hlist : List.range (q.A.vapp (q.C.vapp q.C.neg)).nr = [0] := rfl
    rw [hlist]
    set A2 := q.A.vapp (q.C.vapp q.C.neg) with hA2
    set b2 := q.b.append (q.d.append q.d.neg) with hb2
    have g0 : A2.e 0 0 = 1 := rfl
    obtain ⟨x, lam, h1, h2, h3⟩ := lp_answers hL (n := 1) (f := (A2.row 0).neg) (A := A1) (b := b1) rfl rfl rfl (by omega)
      (tol := 1e-7) (by norm_num) (y := fun i => if i = 0 then 1 else 0) (s := fun _ => 0) (x' := fun _ => 0)
      (fun i _ => by split <;> norm_num) (fun _ _ => le_rfl) (by
        simp [lpRes, hnr, hnc, Finset.sum_range_succ, a0, a1, c0, c1, g0]
        norm_num)
    have h4 := h3 0 (by omega)
    simp [hnc, a0, c0] at h4
    unfold Poly.includedLoop lpDefault
    rw [h1, Py.ok_bind]
    have hcost : Spec.lpCost (A2.row 0).neg x = -x.e 0 := by
      simp only [Spec.lpCost]
      rw [show (A2.row 0).neg.n = 1 from rfl, Finset.sum_range_one]
      show -A2.e 0 0 * x.e 0 = _
      rw [g0]; ring
    simp only [Poly.negMin, hcost, neg_neg, Py.ok_bind]
    have hb20 : b2.e 0 = 1 := rfl
    rw [if_neg (by rw [hb20]; norm_num at h4 ⊢; linarith)]
    rfl

/-- C12, what holds: if `P1` has at least one inequality or equality, has a point and is bounded in the directions of the inequalities and
equalities of `P2`, the answer is `True` exactly when the points of `P1` satisfy the inequalities and
equalities of `P2` within `tol`, and `False` otherwise.  (No tolerance is needed in the hypotheses.)
Missing with respect to C12: for an empty `P1` there may be an answer, see `C12_false`. -/
theorem C12_partial (L : Lib) (hL : LibSpec L) (n : ℕ) (p q : Poly) (hp : p.Inv n) (hq : q.Inv n) (hr : p.HasRows) (tol : ℝ)
    (hne : ∃ x, p.Mem x)
    (hA : ∀ i < q.A.nr, ∃ M, ∀ x, p.Mem x → Spec.rowVal q.A i x ≤ M)
    (hC : ∀ i < q.C.nr, ∃ M, ∀ x, p.Mem x → |Spec.rowVal q.C i x| ≤ M) :
    ∃ r, Poly.is_included_in L p q tol = .ok r ∧
      (r = true ↔ ∀ x, p.Mem x → WithinTol q.A q.b q.C q.d tol x) := by
  obtain ⟨s1, s2, s3, s4⟩ := id hp
  obtain ⟨t1, t2, t3, t4⟩ := id hq
  have hpm := mem_stack3 s2 s4 (s1.trans s3.symm)
  obtain ⟨x0, hx0⟩ := hne
  -- bounds for all rows
  have hrow := fun x => forall_stack3 (b := q.b) (d := q.d) t2 t4 (t1.trans t3.symm)
    (P := fun a b => a ≤ b + tol) x
  have hM : ∀ i < (q.A.vapp (q.C.vapp q.C.neg)).nr, ∃ M, ∀ x,
      (∀ i < (p.A.vapp (p.C.vapp p.C.neg)).nr, Spec.rowVal (p.A.vapp (p.C.vapp p.C.neg)) i x ≤
        (p.b.append (p.d.append p.d.neg)).e i) → Spec.rowVal (q.A.vapp (q.C.vapp q.C.neg)) i x ≤ M := by
    have e1 : ∀ i < q.A.nr, ∀ x, Spec.rowVal (q.A.vapp (q.C.vapp q.C.neg)) i x = Spec.rowVal q.A i x :=
      fun i hi x => Finset.sum_congr rfl fun j _ => by rw [Mat.vapp_e_lt _ _ _ hi]
    have hnc : (q.A.vapp (q.C.vapp q.C.neg)).nc = q.C.nc := t1.trans t3.symm
    have e2 : ∀ i < q.C.nr, ∀ x, Spec.rowVal (q.A.vapp (q.C.vapp q.C.neg)) (q.A.nr + i) x
        = Spec.rowVal q.C i x := by
      intro i hi x
      unfold Spec.rowVal
      rw [hnc]
      exact Finset.sum_congr rfl fun j _ => by rw [Mat.vapp_e_add, Mat.vapp_e_lt _ _ _ hi]
    have e3 : ∀ i < q.C.nr, ∀ x, Spec.rowVal (q.A.vapp (q.C.vapp q.C.neg)) (q.A.nr + (q.C.nr + i)) x
        = -Spec.rowVal q.C i x := by
      intro i hi x
      unfold Spec.rowVal
      rw [hnc, ← Finset.sum_neg_distrib]
      exact Finset.sum_congr rfl fun j _ => by rw [Mat.vapp_e_add, Mat.vapp_e_add]; simp
    rw [show (q.A.vapp (q.C.vapp q.C.neg)).nr = q.A.nr + (q.C.nr + q.C.nr) from rfl, forall_lt_add, forall_lt_add]
    refine ⟨fun i hi => ?_, fun i hi => ?_, fun i hi => ?_⟩
    · obtain ⟨M, hM⟩ := hA i hi
      exact ⟨M, fun x hx => by rw [e1 i hi]; exact hM x ((hpm x).1 hx)⟩
    · obtain ⟨M, hM⟩ := hC i hi
      exact ⟨M, fun x hx => by rw [e2 i hi]; exact (abs_le.1 (hM x ((hpm x).1 hx))).2⟩
    · obtain ⟨M, hM⟩ := hC i hi
      exact ⟨M, fun x hx => by rw [e3 i hi]; linarith [(abs_le.1 (hM x ((hpm x).1 hx))).1]⟩
  obtain ⟨r, h1, h2⟩ := Poly.includedLoop_ok hL (A1 := p.A.vapp (p.C.vapp p.C.neg))
    (b1 := p.b.append (p.d.append p.d.neg)) (A2 := q.A.vapp (q.C.vapp q.C.neg))
    (b2 := q.b.append (q.d.append q.d.neg)) (tol := tol)
    (by show p.b.n + (p.d.n + p.d.n) = p.A.nr + (p.C.nr + p.C.nr); omega) (t1.trans s1.symm)
    (by unfold Poly.HasRows at hr; show 0 < p.A.nr + (p.C.nr + p.C.nr); omega) ((hpm x0).2 hx0)
    (List.range (q.A.vapp (q.C.vapp q.C.neg)).nr) (fun i hi => hM i (List.mem_range.1 hi))
  refine ⟨r, by rw [Poly.is_included_in_eq L hp hq, h1], h2.trans ⟨fun h x hx => ?_, fun h i hi x hx => ?_⟩⟩
  · obtain ⟨k1, k2, k3⟩ := (hrow x).1 (fun i hi => h i (List.mem_range.2 hi) x ((hpm x).2 hx))
    exact ⟨k1, fun i hi => abs_le.2 ⟨by have := k3 i hi; linarith, by have := k2 i hi; linarith⟩⟩
  · obtain ⟨k1, k2⟩ := h x ((hpm x).1 hx)
    refine (hrow x).2 ⟨k1, fun i hi => ?_, fun i hi => ?_⟩ i (List.mem_range.1 hi)
    · linarith [(abs_le.1 (k2 i hi)).2]
    · linarith [(abs_le.1 (k2 i hi)).1]

/-- C12 without any inequality or equality for `P1`: the question whether all points are in `P2` is answered by `RuntimeError`, unless `P2` is the
whole space in the same way. -/
theorem C12_no_rows (L : Lib) (hL : LibSpec L) (n : ℕ) (p q : Poly) (hp : p.Inv n) (hq : q.Inv n) (hr : ¬ p.HasRows) (tol : ℝ) :
    Poly.is_included_in L p q tol = if q.A.nr = 0 ∧ q.C.nr = 0 then .ok true else .error .runtimeError := by
  unfold Poly.HasRows at hr
  rw [Poly.is_included_in_eq L hp hq]
  have hnr : (p.A.vapp (p.C.vapp p.C.neg)).nr = 0 := by show p.A.nr + (p.C.nr + p.C.nr) = 0; omega
  split_ifs with h
  · rw [show (q.A.vapp (q.C.vapp q.C.neg)).nr = 0 by show q.A.nr + (q.C.nr + q.C.nr) = 0; omega]
    rfl
  · obtain ⟨k, hk⟩ : ∃ k, (q.A.vapp (q.C.vapp q.C.neg)).nr = k + 1 :=
      Nat.exists_eq_succ_of_ne_zero (by show q.A.nr + (q.C.nr + q.C.nr) ≠ 0; omega)
    rw [hk, List.range_succ_eq_map]
    unfold Poly.includedLoop lpDefault
    have hs : Spec.ConstrShape n (p.A.vapp (p.C.vapp p.C.neg)) (p.b.append (p.d.append p.d.neg)) none none :=
      ⟨hp.1, by rw [hnr]; show p.b.n + (p.d.n + p.d.n) = 0; rw [hp.2.1, hp.2.2.2]; omega⟩
    obtain ⟨_, _, _, _, _, _, -, -, -, -, -, -, -, -, h⟩ := lp_run hL (f := ((q.A.vapp (q.C.vapp q.C.neg)).row 0).neg) hq.1 hs 1e-7
    rw [h (by
      rintro (h | ⟨C', h, -⟩)
      · omega
      · cases h)]
    rfl

/-- the intervals `[0, 1]` and `[0, 2]` meet the hypotheses of `C12_partial` -/
example :
    let p := Poly.fresh ⟨2, 1, fun i _ => if i = 0 then 1 else -1⟩ ⟨2, fun i => if i = 0 then 1 else 0⟩
      (Mat.zeros 0 1) (Vec.zeros 0)
    let q := Poly.fresh ⟨2, 1, fun i _ => if i = 0 then 1 else -1⟩ ⟨2, fun i => if i = 0 then 2 else 0⟩
      (Mat.zeros 0 1) (Vec.zeros 0)
    p.Inv 1 ∧ q.Inv 1 ∧ p.HasRows ∧ (∃ x, p.Mem x) ∧ (∀ i < q.A.nr, ∃ M, ∀ x, p.Mem x → Spec.rowVal q.A i x ≤ M) ∧
      ∀ i < q.C.nr, ∃ M, ∀ x, p.Mem x → |Spec.rowVal q.C i x| ≤ M := by
  intro p q
  refine ⟨⟨rfl, rfl, rfl, rfl⟩, ⟨rfl, rfl, rfl, rfl⟩, .inl (by norm_num [p, Poly.fresh]), ⟨fun _ => 0, fun i hi => ?_, fun i hi => ?_⟩,
    fun i hi => ⟨if i = 0 then 1 else 0, fun x hx => hx.1 i hi⟩, fun i hi => ?_⟩
  · simp [p, Poly.fresh]
    split <;> norm_num
  · exact absurd hi (by simp [p, Poly.fresh, Mat.zeros])
  · exact absurd hi (by simp [q, Poly.fresh, Mat.zeros])

/-- C19: with independent equalities (fewer than the dimension) `_remove_equalities` returns
`E, f, N, R` such that `y ↦ x0 + N y` is a one to one map from all `y` onto the solutions of `C x = d`;
it preserves distances and the residuals of the inequalities, so that it maps `{y | E y ≤ f}` onto the
polyhedron.  The map is the one that `center` and `vertices` apply (`backToOriginal`).
Otherwise `ValueError` is raised.  (The code calls it only if there are equalities.) -/
theorem C19 (L : Lib) (hL : LibSpec L) (n : ℕ) (p : Poly) (hp : p.Inv n) (hC : 0 < p.C.nr) :
    (Spec.EqIndep n p.C → ∃ E f N R, ∃ x0 : ℕ → ℝ, Poly.removeEqualities L p = .ok (E, f, N, R) ∧
      E.nr = p.A.nr ∧ E.nc = N.nc ∧ f.n = p.A.nr ∧ N.nr = n ∧ N.nc + p.C.nr = n ∧
      -- onto the polyhedron
      (∀ y : ℕ → ℝ, (∀ i < E.nr, ∑ k ∈ range E.nc, E.e i k * y k ≤ f.e i) ↔
        p.Mem (fun j => x0 j + ∑ k ∈ range N.nc, N.e j k * y k)) ∧
      (∀ x, p.Mem x → ∃ y : ℕ → ℝ, ∀ j < n, x j = x0 j + ∑ k ∈ range N.nc, N.e j k * y k) ∧
      -- one to one, with the same distances
      (∀ y y' : ℕ → ℝ, (∀ j < n, x0 j + ∑ k ∈ range N.nc, N.e j k * y k = x0 j + ∑ k ∈ range N.nc, N.e j k * y' k) →
        ∀ k < N.nc, y k = y' k) ∧
      (∀ y : ℕ → ℝ, ∑ j ∈ range n, (∑ k ∈ range N.nc, N.e j k * y k) ^ 2 = ∑ k ∈ range N.nc, y k ^ 2) ∧
      -- the way back of `center` and `vertices`
      (∀ y : Vec ℝ, y.n = N.nc → ∃ x, Poly.backToOriginal p.C p.d N R y = .ok x ∧ x.n = n ∧
        ∀ j < n, x.e j = x0 j + ∑ k ∈ range N.nc, N.e j k * y.e k)) ∧
    (¬ Spec.EqIndep n p.C → Poly.removeEqualities L p = .error .valueError) := by
  constructor
  · intro h
    obtain ⟨E, f, N, R, x0, h1, -, h2⟩ := Poly.removeEqualities_ok hL hp hC (Poly.eqRank_iff.2 h)
    obtain ⟨s1, s2, s3, s4⟩ := hp
    refine ⟨E, f, N, R, x0, h1, h2.Enr, h2.Enc, h2.fn, h2.Nnr, h2.Nnc, fun y => ?_, fun x hx => ?_, fun y y' h => ?_,
      h2.iso, h2.back⟩
    · rw [h2.Enr, h2.Enc]
      refine ⟨fun h => ⟨fun i hi => ?_, fun i hi => ?_⟩, fun h i hi => ?_⟩
      · have k1 := h2.res y i hi
        have k2 := h i hi
        rw [s1]
        exact (show ∑ j ∈ range n, p.A.e i j * affine x0 N y j ≤ p.b.e i by linarith)
      · rw [s3]; exact h2.eqs y i hi
      · have k1 := h2.res y i hi
        have k2 := h.1 i hi
        rw [s1] at k2
        have k3 : ∑ j ∈ range n, p.A.e i j * affine x0 N y j ≤ p.b.e i := k2
        linarith
    · exact h2.surj x (fun i hi => by have := hx.2 i hi; rwa [s3] at this)
    · have k := h2.iso (fun k => y k - y' k)
      have hz : ∑ j ∈ range n, (∑ l ∈ range N.nc, N.e j l * (y l - y' l)) ^ 2 = 0 := by
        refine Finset.sum_eq_zero fun j hj => ?_
        have := h j (mem_range.1 hj)
        have e : ∑ l ∈ range N.nc, N.e j l * (y l - y' l) = 0 := by
          simp only [mul_sub, Finset.sum_sub_distrib]
          linarith
        rw [e]; ring
      rw [hz] at k
      intro l hl
      have := (Finset.sum_eq_zero_iff_of_nonneg (fun _ _ => sq_nonneg _)).1 k.symm l (mem_range.2 hl)
      have := pow_eq_zero_iff (two_ne_zero) |>.1 this
      linarith
  · intro h
    exact Poly.removeEqualities_error hL hp hC fun h' => h (Poly.eqRank_iff.1 h')

/-- one equality `x0 + x1 = 1` in `R^2` is independent; twice the same one is not -/
example : Spec.EqIndep 2 ⟨1, 2, fun _ _ => 1⟩ ∧ ¬ Spec.EqIndep 3 ⟨2, 3, fun _ _ => 1⟩ := by
  refine ⟨⟨by norm_num, fun w hw i hi => ?_⟩, fun h => ?_⟩
  · have h0 := hw 0 (by norm_num)
    have : i < 1 := hi
    interval_cases i
    simpa using h0
  · have := h.2 (fun i => if i = 0 then 1 else -1) (fun j _ => by simp [Finset.sum_range_succ]) 0 (by norm_num)
    simp at this

end Verif.Props
