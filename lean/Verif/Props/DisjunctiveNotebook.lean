import Verif.Props.Disjunctive

/- The sets drawn in `/repo/examples/disjunctive_inequalities.ipynb` (C124, C125). -/
namespace Verif.Props
open Finset
namespace Disj

theorem emptyOk_of_fresh {p : Poly} (h : p = Poly.fresh p.A p.b p.C p.d) (L : Lib) : p.EmptyOk L := by
  rw [h]
  intro e h
  cases h

theorem bounded_of_fresh {p : Poly} (h : p = Poly.fresh p.A p.b p.C p.d) : p._bounded = none := by
  rw [h]
  rfl

theorem feasibleSet_eq {L : Lib} {Q : Qhull} {rand : List (Vec ℝ) → Vec ℝ} {fuel n : ℕ} {cs : Poly} {r : Option Poly} :
    Disjunctive.feasibleSet L Q rand fuel n (.ok cs) = .ok r ↔ ∃ q, Poly.project_to L Q rand fuel (List.range n) cs = (.ok r, q) := by
  show (Poly.project_to L Q rand fuel (List.range n) cs).1 = .ok r ↔ _
  constructor
  · intro h
    exact ⟨_, Prod.ext h rfl⟩
  · rintro ⟨q, h⟩
    rw [h]

theorem mem1 (x : ℕ → ℝ) : x ∈ Spec.halfspaces Disjunctive.A1 Disjunctive.b1 ↔ 1 / 10 ≤ x 0 ∧ 1 / 10 ≤ x 1 ∧ x 0 + x 1 ≤ 1 := by
  constructor
  · intro h
    have h0 := h 0 (by norm_num [Disjunctive.A1])
    have h1 := h 1 (by norm_num [Disjunctive.A1])
    have h2 := h 2 (by norm_num [Disjunctive.A1])
    norm_num [Spec.rowVal, Disjunctive.A1, Disjunctive.b1, Finset.sum_range_succ] at h0 h1 h2
    refine ⟨?_, ?_, ?_⟩ <;> linarith
  · rintro ⟨h0, h1, h2⟩ i hi
    have hi : i < 3 := hi
    interval_cases i <;> norm_num [Spec.rowVal, Disjunctive.A1, Disjunctive.b1, Finset.sum_range_succ] <;> linarith

theorem mem2 (x : ℕ → ℝ) : x ∈ Spec.halfspaces Disjunctive.A2 Disjunctive.b2 ↔ x 0 ≤ -1 / 20 ∧ x 1 ≤ -1 / 20 ∧ -1 / 2 ≤ x 0 + x 1 := by
  constructor
  · intro h
    have h0 := h 0 (by norm_num [Disjunctive.A2, Disjunctive.A1])
    have h1 := h 1 (by norm_num [Disjunctive.A2, Disjunctive.A1])
    have h2 := h 2 (by norm_num [Disjunctive.A2, Disjunctive.A1])
    norm_num [Spec.rowVal, Disjunctive.A2, Mat.neg, Disjunctive.A1, Disjunctive.b2, Disjunctive.b1, Finset.sum_range_succ] at h0 h1 h2
    refine ⟨?_, ?_, ?_⟩ <;> linarith
  · rintro ⟨h0, h1, h2⟩ i hi
    have hi : i < 3 := hi
    interval_cases i <;> norm_num [Spec.rowVal, Disjunctive.A2, Mat.neg, Disjunctive.A1, Disjunctive.b2, Disjunctive.b1, Finset.sum_range_succ] <;> linarith

theorem documented (x : ℕ → ℝ) (δ : ℝ) : Spec.BigM Disjunctive.A1 Disjunctive.b1 Disjunctive.A2 Disjunctive.b2 Disjunctive.M x δ ↔
    (1 / 10 - 95 / 100 * δ ≤ x 0 ∧ 1 / 10 - 95 / 100 * δ ≤ x 1 ∧ x 0 + x 1 ≤ 1) ∧
    x 0 ≤ 90 / 100 - 95 / 100 * δ ∧ x 1 ≤ 90 / 100 - 95 / 100 * δ ∧ -1 / 2 ≤ x 0 + x 1 := by
  constructor
  · intro h
    have a0 := h.1 0 (by norm_num [Disjunctive.A1])
    have a1 := h.1 1 (by norm_num [Disjunctive.A1])
    have a2 := h.1 2 (by norm_num [Disjunctive.A1])
    have h0 := h.2 0 (by norm_num [Disjunctive.A2, Disjunctive.A1])
    have h1 := h.2 1 (by norm_num [Disjunctive.A2, Disjunctive.A1])
    have h2 := h.2 2 (by norm_num [Disjunctive.A2, Disjunctive.A1])
    norm_num [Spec.rowVal, Disjunctive.A2, Mat.neg, Disjunctive.A1, Disjunctive.b2, Disjunctive.b1, Disjunctive.M, Finset.sum_range_succ] at a0 a1 a2 h0 h1 h2
    refine ⟨⟨?_, ?_, ?_⟩, ?_, ?_, ?_⟩ <;> linarith
  · rintro ⟨⟨a0, a1, a2⟩, h0, h1, h2⟩
    refine ⟨fun i hi => ?_, fun i hi => ?_⟩
    · have hi : i < 3 := hi
      interval_cases i <;> norm_num [Spec.rowVal, Disjunctive.A1, Disjunctive.b1, Disjunctive.M, Finset.sum_range_succ] <;> linarith
    · have hi : i < 3 := hi
      interval_cases i <;> norm_num [Spec.rowVal, Disjunctive.A2, Mat.neg, Disjunctive.A1, Disjunctive.b2, Disjunctive.b1, Disjunctive.M, Finset.sum_range_succ] <;> linarith

theorem sizes : Sizes 2 Disjunctive.A1 Disjunctive.b1 Disjunctive.A2 Disjunctive.b2 := ⟨rfl, rfl, rfl, rfl⟩

/-- the shadow of the big-M set of the notebook -/
theorem shadow (y : ℕ → ℝ) :
    ((∀ i < Disjunctive.A1.nr, Spec.rowVal Disjunctive.A1 i y ≤ Disjunctive.b1.e i + Disjunctive.M.e i) ∧
      ∀ i < Disjunctive.A2.nr, Spec.rowVal Disjunctive.A2 i y ≤ Disjunctive.b2.e i + Disjunctive.M.e i) ↔
    (-85 / 100 ≤ y 0 ∧ -85 / 100 ≤ y 1 ∧ y 0 + y 1 ≤ 1) ∧ y 0 ≤ 90 / 100 ∧ y 1 ≤ 90 / 100 ∧ -1 / 2 ≤ y 0 + y 1 := by
  constructor
  · intro h
    have a0 := h.1 0 (by norm_num [Disjunctive.A1])
    have a1 := h.1 1 (by norm_num [Disjunctive.A1])
    have a2 := h.1 2 (by norm_num [Disjunctive.A1])
    have h0 := h.2 0 (by norm_num [Disjunctive.A2, Disjunctive.A1])
    have h1 := h.2 1 (by norm_num [Disjunctive.A2, Disjunctive.A1])
    have h2 := h.2 2 (by norm_num [Disjunctive.A2, Disjunctive.A1])
    norm_num [Spec.rowVal, Disjunctive.A2, Mat.neg, Disjunctive.A1, Disjunctive.b2, Disjunctive.b1, Disjunctive.M, Finset.sum_range_succ] at a0 a1 a2 h0 h1 h2
    refine ⟨⟨?_, ?_, ?_⟩, ?_, ?_, ?_⟩ <;> linarith
  · rintro ⟨⟨a0, a1, a2⟩, h0, h1, h2⟩
    refine ⟨fun i hi => ?_, fun i hi => ?_⟩
    · have hi : i < 3 := hi
      interval_cases i <;> norm_num [Spec.rowVal, Disjunctive.A1, Disjunctive.b1, Disjunctive.M, Finset.sum_range_succ] <;> linarith
    · have hi : i < 3 := hi
      interval_cases i <;> norm_num [Spec.rowVal, Disjunctive.A2, Mat.neg, Disjunctive.A1, Disjunctive.b2, Disjunctive.b1, Disjunctive.M, Finset.sum_range_succ] <;> linarith

theorem M_nonneg : ∀ i < Disjunctive.M.n, 0 ≤ Disjunctive.M.e i := by
  intro i hi
  have hi : i < 3 := hi
  interval_cases i <;> norm_num [Disjunctive.M]

/-- the coordinates of a unit vector -/
theorem unit_le {m : ℕ} {a : ℕ → ℝ} (h : ∑ j ∈ range m, a j ^ 2 = 1) : ∀ j < m, |a j| ≤ 1 := by
  intro j hj
  have h1 := Finset.single_le_sum (f := fun j => a j ^ 2) (fun j _ => sq_nonneg _) (mem_range.2 hj)
  rw [h] at h1
  exact abs_le_one_iff_mul_self_le_one.2 (by rw [← sq]; exact h1)

end Disj

/-- C124 is false of the code.  The documented formulation of the notebook is right: `δ = 0` gives `P1` and `δ = 1` gives `P2`.  The
set that is built has no point with `δ = 0`, its points with `δ = 1` are not all in `P1` or `P2`, and the relaxation that is computed
and drawn (it is, with enough steps) has a point that is not in the documented relaxation. -/
theorem C124_false :
    (∀ x, Spec.BigM Disjunctive.A1 Disjunctive.b1 Disjunctive.A2 Disjunctive.b2 Disjunctive.M x 0 ↔ x ∈ Spec.halfspaces Disjunctive.A1 Disjunctive.b1) ∧
    (∀ x, Spec.BigM Disjunctive.A1 Disjunctive.b1 Disjunctive.A2 Disjunctive.b2 Disjunctive.M x 1 ↔ x ∈ Spec.halfspaces Disjunctive.A2 Disjunctive.b2) ∧
    ∃ cs, Disjunctive.bigM Disjunctive.A1 Disjunctive.b1 Disjunctive.A2 Disjunctive.b2 Disjunctive.M = .ok cs ∧
      (∀ w, cs.Mem w → w 2 ≠ 0) ∧
      (∃ w, cs.Mem w ∧ w 2 = 1 ∧ w ∉ Spec.halfspaces Disjunctive.A1 Disjunctive.b1 ∪ Spec.halfspaces Disjunctive.A2 Disjunctive.b2) ∧
      ∀ L, LibSpec L → ∀ Q, QhullSpec Q → ∀ rand, RandSpec rand → ∀ fuel,
        (∀ fs, Disjunctive.feasibleSet L Q rand fuel 2 (.ok cs) = .ok (some fs) →
          ∃ y, fs.Mem y ∧ ∀ δ, ¬ Spec.BigM Disjunctive.A1 Disjunctive.b1 Disjunctive.A2 Disjunctive.b2 Disjunctive.M y δ) ∧
        ((2 * 10 ^ 8 + 1) ^ 2 < fuel → ∃ fs, Disjunctive.feasibleSet L Q rand fuel 2 (.ok cs) = .ok (some fs)) := by
  refine ⟨fun x => ?_, fun x => ?_, ?_⟩
  · rw [Disj.documented, Disj.mem1]
    constructor
    · rintro ⟨⟨h0, h1, h2⟩, -⟩
      refine ⟨?_, ?_, ?_⟩ <;> linarith
    · rintro ⟨h0, h1, h2⟩
      refine ⟨⟨?_, ?_, ?_⟩, ?_, ?_, ?_⟩ <;> linarith
  · rw [Disj.documented, Disj.mem2]
    constructor
    · rintro ⟨-, h0, h1, h2⟩
      refine ⟨?_, ?_, ?_⟩ <;> linarith
    · rintro ⟨h0, h1, h2⟩
      refine ⟨⟨?_, ?_, ?_⟩, ?_, ?_, ?_⟩ <;> linarith
  obtain ⟨cs, e1, e2, e3, e4, e5⟩ := Disj.bigM_ok Disj.sizes (M := Disjunctive.M) rfl rfl
  obtain ⟨cs', e1', -, -, e6⟩ := C124_partial 2 _ _ _ _ Disjunctive.M Disj.sizes rfl rfl
  obtain rfl : cs' = cs := by rw [e1] at e1'; exact (Except.ok.inj e1').symm
  have hproj := fun y => ((e6 Disj.M_nonneg).1 y).trans (Disj.shadow y)
  clear e6 e1'
  let w0 : ℕ → ℝ := fun j => if j = 0 then 8 / 10 else if j = 1 then -7 / 10 else 1
  have hw0 : cs'.Mem w0 := by
    refine (e5 w0).2 ?_
    have hs := (Disj.shadow w0).2 (by norm_num [w0])
    have h2 : w0 2 = 1 := by norm_num [w0]
    rw [h2]
    simp only [mul_one]
    exact ⟨hs.1, hs.2, by norm_num, le_rfl⟩
  refine ⟨cs', e1, fun w hw h0 => ?_, ⟨w0, hw0, by norm_num [w0], ?_⟩, fun L hL Q hQ rand hr fuel => ?_⟩
  · obtain ⟨h1, h2, -⟩ := (e5 w).1 hw
    rw [h0] at h1 h2
    simp only [mul_zero, add_zero] at h1 h2
    have a := (Disj.mem1 w).1 h1
    have b := (Disj.mem2 w).1 h2
    linarith [a.1, b.1]
  · rintro (h | h)
    · have := (Disj.mem1 _).1 h
      norm_num [w0] at this
    · have := (Disj.mem2 _).1 h
      norm_num [w0] at this
  · have hne : Spec.NearPoint 3 cs'.A cs'.b cs'.C cs'.d := ⟨w0, hw0, by norm_num [w0, Finset.sum_range_succ]⟩
    have hbd : Spec.IsBounded 3 cs'.A cs'.b cs'.C cs'.d := by
      refine ⟨1, fun w hw j hj => ?_⟩
      have hs := (hproj w).1 ⟨w, hw, fun k hk => by rw [Poly.getD_range (by simpa using hk)]⟩
      obtain ⟨-, -, d0, d1⟩ := (e5 w).1 hw
      rw [abs_le]
      interval_cases j <;> constructor <;> linarith [hs.1.1, hs.1.2.1, hs.2.1, hs.2.2.1]
    have h22 := C22_partial L hL Q hQ rand hr 3 cs' e2 (Disj.emptyOk_of_fresh e4 L) (Or.inl (Disj.bounded_of_fresh e4)) hne hbd e3
      (List.range 2) (by simp) (by simp; omega) List.nodup_range fuel
    simp only [List.length_range] at h22
    constructor
    · intro fs hfs
      obtain ⟨q, hq⟩ := Disj.feasibleSet_eq.1 hfs
      obtain ⟨-, -, -, -, i1, i2, -, i4, -⟩ := h22.1 fs q hq
      have hD := i4 2 (fun y y' hy hy' j hj => by
        have a := (hproj y).1 hy
        have b := (hproj y').1 hy'
        rw [abs_le]
        interval_cases j <;> constructor <;> linarith [a.1.1, a.1.2.1, a.2.1, a.2.2.1, b.1.1, b.1.2.1, b.2.1, b.2.2.1])
      refine ⟨w0, ⟨fun i hi => ?_, ?_⟩, fun δ h => ?_⟩
      · have hu := Disj.unit_le (i2 i hi)
        let y : ℕ → ℝ := fun j => 1 * w0 j + 1 / 20 * fs.A.e i j
        have u0 := abs_le.1 (hu 0 (by norm_num))
        have u1 := abs_le.1 (hu 1 (by norm_num))
        have hy := (hD y ((hproj y).2 (by
          have y0 : y 0 = 8 / 10 + 1 / 20 * fs.A.e i 0 := by norm_num [y, w0]
          have y1 : y 1 = -7 / 10 + 1 / 20 * fs.A.e i 1 := by norm_num [y, w0]
          rw [y0, y1]
          refine ⟨⟨?_, ?_, ?_⟩, ?_, ?_, ?_⟩ <;> linarith [u0.1, u0.2, u1.1, u1.2]))).2 i hi
        rw [Disj.rowVal_lin] at hy
        have hn : Spec.rowVal fs.A i (fs.A.e i) = 1 := by
          rw [← i2 i hi]
          unfold Spec.rowVal
          rw [i1.1]
          exact sum_congr rfl fun j _ => by ring
        rw [hn] at hy
        show Spec.rowVal fs.A i w0 ≤ fs.b.e i
        norm_num at hy
        linarith
      · exact (hD w0 ⟨w0, hw0, fun k hk => by rw [Poly.getD_range (by simpa using hk)]⟩).1
      · have h' := (Disj.documented _ _).1 h
        norm_num [w0] at h'
        linarith [h'.1.2, h'.2.1]
    · intro hf
      obtain ⟨fs, q, hq⟩ := h22.2 (Or.inr ⟨hf, w0, 1 / 20, by norm_num, fun y hy => (hproj y).2 (by
        have u0 := abs_le.1 (hy 0 (by norm_num))
        have u1 := abs_le.1 (hy 1 (by norm_num))
        norm_num [w0] at u0 u1
        refine ⟨⟨?_, ?_, ?_⟩, ?_, ?_, ?_⟩ <;> linarith [u0.1, u0.2, u1.1, u1.2])⟩)
      exact ⟨fs, Disj.feasibleSet_eq.2 ⟨q, hq⟩⟩

/-- C125, the computed set: it is contained in the convex hull of the two polytopes, the points of the convex hull violate its facets by
at most the tolerances of `project_to`, and with enough steps it is found if the convex hull contains a box of side `1e-7`. -/
theorem C125_projection (n : ℕ) (A1 A2 : Mat ℝ) (b1 b2 : Vec ℝ) (h : Disj.Sizes n A1 b1 A2 b2) (hn : 0 < n)
    (hb1 : Spec.BoundedSet n (Spec.halfspaces A1 b1)) (hb2 : Spec.BoundedSet n (Spec.halfspaces A2 b2))
    (hn1 : ∃ a ∈ Spec.halfspaces A1 b1, 2 * ∑ j ∈ range n, a j ^ 2 < 1 / (1e-7 : ℝ) ^ 2 - 1) (hn2 : (Spec.halfspaces A2 b2).Nonempty)
    (L : Lib) (hL : LibSpec L) (Q : Qhull) (hQ : QhullSpec Q) (rand : List (Vec ℝ) → Vec ℝ) (hr : RandSpec rand) (fuel : ℕ) :
    (∀ fs, Disjunctive.feasibleSet L Q rand fuel n (Disjunctive.hull A1 b1 A2 b2) = .ok (some fs) → fs.Inv n ∧
      (∀ y, fs.Mem y → y ∈ convexHull ℝ (Spec.halfspaces A1 b1 ∪ Spec.halfspaces A2 b2)) ∧
      ∀ D, (∀ y ∈ convexHull ℝ (Spec.halfspaces A1 b1 ∪ Spec.halfspaces A2 b2), ∀ y' ∈ convexHull ℝ (Spec.halfspaces A1 b1 ∪ Spec.halfspaces A2 b2),
          ∀ j < n, |y j - y' j| ≤ D) →
        ∀ y ∈ convexHull ℝ (Spec.halfspaces A1 b1 ∪ Spec.halfspaces A2 b2), Spec.EqHold fs.C fs.d y ∧ ∀ i < fs.A.nr,
          Spec.rowVal fs.A i y ≤ fs.b.e i + 1e-7 + n * (1e-8 + 1e-5) * D) ∧
    (n = 1 ∨ (2 * 10 ^ 8 + 1) ^ n < fuel ∧
        (∃ (y0 : ℕ → ℝ) (ε : ℝ), 1e-7 ≤ 2 * ε ∧ ∀ y : ℕ → ℝ, (∀ j < n, |y j - y0 j| ≤ ε) →
          y ∈ convexHull ℝ (Spec.halfspaces A1 b1 ∪ Spec.halfspaces A2 b2)) →
      ∃ fs, Disjunctive.feasibleSet L Q rand fuel n (Disjunctive.hull A1 b1 A2 b2) = .ok (some fs)) := by
  obtain ⟨a, ha, han⟩ := hn1
  obtain ⟨cs, e1, e2, e3, e4, e5⟩ := Disj.hull_ok h
  obtain ⟨cs', e1', -, -, hproj, hbd⟩ := C125 n A1 A2 b1 b2 h hb1 hb2 ⟨a, ha⟩ hn2
  obtain rfl : cs' = cs := by rw [e1] at e1'; exact (Except.ok.inj e1').symm
  rw [e1]
  have hne : Spec.NearPoint (2 * n + 1) cs'.A cs'.b cs'.C cs'.d := by
    refine ⟨Disj.stack3 n a a 0, (e5 _).2 ?_, ?_⟩
    · rw [Disj.stack3_d]
      refine ⟨fun i hi => ?_, fun i hi => ?_, le_rfl, zero_le_one⟩
      · rw [Disj.rowVal_congr (y := a) (fun j hj => Disj.stack3_x1 _ _ _ (by rw [← h.c1]; exact hj))]
        simpa using ha i hi
      · rw [Disj.rowVal_congr (y := fun _ => 0) (fun j hj => by
          rw [h.c2] at hj
          rw [Disj.stack3_x1 _ _ _ hj, Disj.stack3_x _ _ _ hj, sub_self])]
        simp [Spec.rowVal]
    · rw [Finset.sum_range_succ, Disj.stack3_d, two_mul, Finset.sum_range_add]
      rw [Finset.sum_congr rfl (fun j hj => by rw [Disj.stack3_x _ _ _ (mem_range.1 hj)] : ∀ j ∈ range n, Disj.stack3 n a a 0 j ^ 2 = a j ^ 2),
        Finset.sum_congr rfl (fun j hj => by rw [Disj.stack3_x1 _ _ _ (mem_range.1 hj)] : ∀ j ∈ range n, Disj.stack3 n a a 0 (n + j) ^ 2 = a j ^ 2)]
      linarith
  have h22 := C22_partial L hL Q hQ rand hr (2 * n + 1) cs' e2 (Disj.emptyOk_of_fresh e4 L) (Or.inl (Disj.bounded_of_fresh e4)) hne hbd e3
    (List.range n) (by simp; omega) (by simp; omega) List.nodup_range fuel
  simp only [List.length_range] at h22
  refine ⟨fun fs hfs => ?_, fun hf => ?_⟩
  · obtain ⟨q, hq⟩ := Disj.feasibleSet_eq.1 hfs
    obtain ⟨-, -, -, -, i1, -, i3, i4, -⟩ := h22.1 fs q hq
    exact ⟨i1, fun y hy => (hproj y).1 (i3 y hy), fun D hD y hy => i4 D (fun y y' hy hy' => hD y ((hproj y).1 hy) y' ((hproj y').1 hy')) y ((hproj y).2 hy)⟩
  · obtain ⟨fs, q, hq⟩ := h22.2 (hf.imp_right fun ⟨h1, y0, ε, h2, h3⟩ => ⟨h1, y0, ε, h2, fun y hy => (hproj y).2 (h3 y hy)⟩)
    exact ⟨fs, Disj.feasibleSet_eq.2 ⟨q, hq⟩⟩

/-- the two triangles of the notebook meet the hypotheses of C124_partial, C125 and C125_projection -/
example : Disj.Sizes 2 Disjunctive.A1 Disjunctive.b1 Disjunctive.A2 Disjunctive.b2 ∧ Disjunctive.M.n = Disjunctive.A1.nr ∧
    Disjunctive.M.n = Disjunctive.A2.nr ∧ (∀ i < Disjunctive.M.n, 0 ≤ Disjunctive.M.e i) ∧
    Spec.BoundedSet 2 (Spec.halfspaces Disjunctive.A1 Disjunctive.b1) ∧ Spec.BoundedSet 2 (Spec.halfspaces Disjunctive.A2 Disjunctive.b2) ∧
    (∃ a ∈ Spec.halfspaces Disjunctive.A1 Disjunctive.b1, 2 * ∑ j ∈ range 2, a j ^ 2 < 1 / (1e-7 : ℝ) ^ 2 - 1) ∧
    (Spec.halfspaces Disjunctive.A2 Disjunctive.b2).Nonempty ∧
    ∃ (y0 : ℕ → ℝ) (ε : ℝ), 1e-7 ≤ 2 * ε ∧ ∀ y : ℕ → ℝ, (∀ j < 2, |y j - y0 j| ≤ ε) →
      y ∈ convexHull ℝ (Spec.halfspaces Disjunctive.A1 Disjunctive.b1 ∪ Spec.halfspaces Disjunctive.A2 Disjunctive.b2) := by
  refine ⟨Disj.sizes, rfl, rfl, Disj.M_nonneg, ⟨1, fun x hx j hj => ?_⟩, ⟨1, fun x hx j hj => ?_⟩, ⟨fun _ => 1 / 4, ?_, ?_⟩, ⟨fun _ => -1 / 10, ?_⟩,
    fun _ => 1 / 4, 1 / 10, by norm_num, fun y hy => subset_convexHull ℝ _ (Or.inl ?_)⟩
  · have := (Disj.mem1 x).1 hx
    rw [abs_le]
    interval_cases j <;> constructor <;> linarith
  · have := (Disj.mem2 x).1 hx
    rw [abs_le]
    interval_cases j <;> constructor <;> linarith
  · exact (Disj.mem1 _).2 (by norm_num)
  · norm_num
  · exact (Disj.mem2 _).2 (by norm_num)
  · have u0 := abs_le.1 (hy 0 (by norm_num))
    have u1 := abs_le.1 (hy 1 (by norm_num))
    exact (Disj.mem1 _).2 ⟨by linarith, by linarith, by linarith⟩

end Verif.Props
