import Verif.Props.PolyhedronSets

/- Bounds given as numbers (floats) instead of arrays (C150). -/
namespace Verif.Props
open Spec

/-- a list with one coordinate -/
theorem single_increasing {n i : ℕ} (hi : i < n) : ∀ l, some [i] = some l → Spec.Increasing n l := by
  rintro l ⟨⟩
  exact ⟨by simp, by simpa using hi⟩

/-- C150, partial (missing: floats in `from_bounds`, and without `n`; false, see `C150_false`): a float bounds the one selected coordinate in `add_lower_bound`, `add_upper_bound`, `add_bounds` of every
polyhedron, and in `from_lower_bound` and `from_upper_bound` with `n`. -/
theorem C150_partial (a b : ℝ) (n i : ℕ) (hi : i < n) :
    (∀ p : Poly, p.Inv n →
      (∃ q, Poly.add_lower_bound (.flt a) (some [i]) p = (.ok (), q) ∧ ∀ x, q.Mem x ↔ p.Mem x ∧ a ≤ x i) ∧
      (∃ q, Poly.add_upper_bound (.flt b) (some [i]) p = (.ok (), q) ∧ ∀ x, q.Mem x ↔ p.Mem x ∧ x i ≤ b) ∧
      ∃ q, Poly.add_bounds (.flt a) (.flt b) (some [i]) p = (.ok (), q) ∧ ∀ x, q.Mem x ↔ p.Mem x ∧ a ≤ x i ∧ x i ≤ b) ∧
    (∃ p, Poly.from_lower_bound (.flt a) (some [i]) (some n) = .ok p ∧ p.Inv n ∧ ∀ x, p.Mem x ↔ a ≤ x i) ∧
    ∃ p, Poly.from_upper_bound (.flt b) (some [i]) (some n) = .ok p ∧ p.Inv n ∧ ∀ x, p.Mem x ↔ x i ≤ b := by
  have low : ∀ p : Poly, p.Inv n → ∃ q, Poly.add_lower_bound (.flt a) (some [i]) p = (.ok (), q) ∧ q.Inv n ∧ ∀ x, q.Mem x ↔ p.Mem x ∧ a ≤ x i := by
    intro p hp
    obtain ⟨q, hq⟩ := (AddOp.call_ok hp (.lower (.flt a) (some [i])) (single_increasing hi)).2 ⟨_, rfl, rfl⟩
    obtain ⟨h1, h2⟩ := AddOp.call_mem hp (.lower (.flt a) (some [i])) (single_increasing hi) hq
    refine ⟨q, hq, h1, fun x => ?_⟩
    rw [h2]
    simp [AddOp.Holds, AddOp.idx, AddOp.BoundEntries]
  have upp : ∀ p : Poly, p.Inv n → ∃ q, Poly.add_upper_bound (.flt b) (some [i]) p = (.ok (), q) ∧ q.Inv n ∧ ∀ x, q.Mem x ↔ p.Mem x ∧ x i ≤ b := by
    intro p hp
    obtain ⟨q, hq⟩ := (AddOp.call_ok hp (.upper (.flt b) (some [i])) (single_increasing hi)).2 ⟨_, rfl, rfl⟩
    obtain ⟨h1, h2⟩ := AddOp.call_mem hp (.upper (.flt b) (some [i])) (single_increasing hi) hq
    refine ⟨q, hq, h1, fun x => ?_⟩
    rw [h2]
    simp [AddOp.Holds, AddOp.idx, AddOp.BoundEntries]
  refine ⟨fun p hp => ⟨?_, ?_, ?_⟩, ?_, ?_⟩
  · obtain ⟨q, h1, -, h2⟩ := low p hp
    exact ⟨q, h1, h2⟩
  · obtain ⟨q, h1, -, h2⟩ := upp p hp
    exact ⟨q, h1, h2⟩
  · obtain ⟨q, hq⟩ := (AddOp.call_ok hp (.bounds (.flt a) (.flt b) (some [i])) (single_increasing hi)).2 ⟨⟨_, rfl, rfl⟩, _, rfl, rfl⟩
    obtain ⟨-, h2⟩ := AddOp.call_mem hp (.bounds (.flt a) (.flt b) (some [i])) (single_increasing hi) hq
    refine ⟨q, hq, fun x => ?_⟩
    rw [h2]
    simp [AddOp.Holds, AddOp.idx, AddOp.BoundEntries]
  · obtain ⟨q, h1, h2, h3⟩ := low _ (Poly.empty_inv n)
    refine ⟨q, ?_, h2, fun x => ?_⟩
    · unfold Poly.from_lower_bound
      rw [show Poly.checkN (some [i]) (some n) = .ok () from if_neg (by simp), Py.ok_bind, show Poly.dimOf (.flt a) (some n) = .ok n from rfl, Py.ok_bind, Poly.init_empty, Py.ok_bind]
      exact runOn_ok.2 h1
    · rw [h3]
      simp [Poly.empty_mem n x]
  · obtain ⟨q, h1, h2, h3⟩ := upp _ (Poly.empty_inv n)
    refine ⟨q, ?_, h2, fun x => ?_⟩
    · unfold Poly.from_upper_bound
      rw [show Poly.checkN (some [i]) (some n) = .ok () from if_neg (by simp), Py.ok_bind, show Poly.dimOf (.flt b) (some n) = .ok n from rfl, Py.ok_bind, Poly.init_empty, Py.ok_bind]
      exact runOn_ok.2 h1
    · rw [h3]
      simp [Poly.empty_mem n x]

/-- C150 is false for the other constructors: `from_bounds` raises `AttributeError` for every two floats, also with one coordinate and `n`, where `add_bounds` adds the bounds (C150_partial); and
`from_lower_bound`, `from_upper_bound` raise it without `n`, although a float bounds the numbers `x` of a line -/
theorem C150_false (a b : ℝ) (i n : ℕ) :
    Poly.from_bounds (.flt a) (.flt b) (some [i]) (some n) = .error .attributeError ∧ Poly.from_bounds (.flt a) (.flt b) none (some n) = .error .attributeError ∧
      Poly.from_bounds (.flt a) (.flt b) none none = .error .attributeError ∧ Poly.from_lower_bound (.flt a) none none = .error .attributeError ∧
      Poly.from_upper_bound (.flt b) none none = .error .attributeError := ⟨rfl, rfl, rfl, rfl, rfl⟩

/-- C150_partial in the plane: `{x | 0 <= x_1 <= 1}` by two additions -/
example : ∃ p q, Poly.from_lower_bound (.flt 0) (some [1]) (some 2) = .ok p ∧ Poly.add_upper_bound (.flt 1) (some [1]) p = (.ok (), q) ∧
    ∀ x, q.Mem x ↔ 0 ≤ x 1 ∧ x 1 ≤ 1 := by
  obtain ⟨h, ⟨p, h1, h2, h3⟩, -⟩ := C150_partial 0 1 2 1 (by norm_num)
  obtain ⟨q, h4, h5⟩ := (h p h2).2.1
  exact ⟨p, q, h1, h4, fun x => by rw [h5, h3]⟩

end Verif.Props
