import Verif.Model.Disjunctive
import Verif.Spec.Disjunctive
import Verif.Props.PolyhedronSets
import Verif.Props.Projection
import Mathlib.Analysis.Convex.Join

/- Properties of the two formulations of a disjunction in `/repo/examples/disjunctive_inequalities.ipynb` (C124, C125). -/
namespace Verif.Props
open Finset
namespace Disj

theorem rowVal_happ (A B : Mat ℝ) (i : ℕ) (x : ℕ → ℝ) :
    Spec.rowVal (A.happ B) i x = Spec.rowVal A i x + Spec.rowVal B i fun j => x (A.nc + j) := by
  unfold Spec.rowVal
  rw [Mat.happ_nc, Finset.sum_range_add]
  refine congrArg₂ _ (sum_congr rfl fun j hj => ?_) (sum_congr rfl fun j _ => ?_)
  · rw [Mat.happ_e_lt _ _ _ (mem_range.1 hj)]
  · rw [Mat.happ_e_add]

theorem rowVal_ofCol (v : Vec ℝ) (i : ℕ) (x : ℕ → ℝ) : Spec.rowVal (Mat.ofCol v) i x = v.e i * x 0 := by
  show ∑ j ∈ range 1, v.e i * x j = _
  rw [Finset.sum_range_one]

theorem rowVal_neg (A : Mat ℝ) (i : ℕ) (x : ℕ → ℝ) : Spec.rowVal A.neg i x = - Spec.rowVal A i x := by
  unfold Spec.rowVal
  rw [← Finset.sum_neg_distrib]
  exact sum_congr rfl fun j _ => by show -A.e i j * x j = _; ring

theorem rowVal_zeros (m n i : ℕ) (x : ℕ → ℝ) : Spec.rowVal (Mat.zeros m n) i x = 0 :=
  Finset.sum_eq_zero fun j _ => zero_mul _

theorem rowVal_lin (A : Mat ℝ) (i : ℕ) (s t : ℝ) (x y : ℕ → ℝ) :
    Spec.rowVal A i (fun j => s * x j + t * y j) = s * Spec.rowVal A i x + t * Spec.rowVal A i y := by
  unfold Spec.rowVal
  rw [Finset.mul_sum, Finset.mul_sum, ← Finset.sum_add_distrib]
  exact sum_congr rfl fun j _ => by ring

theorem rowVal_congr {A : Mat ℝ} {i : ℕ} {x y : ℕ → ℝ} (h : ∀ j < A.nc, x j = y j) : Spec.rowVal A i x = Spec.rowVal A i y :=
  sum_congr rfl fun j hj => by rw [h j (mem_range.1 hj)]

/-- a polyhedron with bounds 0 and 1 on coordinate `k` -/
theorem relaxed_ok {A : Mat ℝ} {b : Vec ℝ} {k : ℕ} (hb : b.n = A.nr) (hk : k < A.nc) :
    ∃ p, Disjunctive.relaxed A b k = .ok p ∧ p.Inv A.nc ∧ p.C.nr = 0 ∧
      ∀ w, p.Mem w ↔ (∀ i < A.nr, Spec.rowVal A i w ≤ b.e i) ∧ 0 ≤ w k ∧ w k ≤ 1 := by
  let p0 := Poly.fresh A b (Mat.zeros 0 A.nc) (Vec.zeros 0)
  have h0 : p0.Inv A.nc := ⟨rfl, hb, rfl, rfl⟩
  have hsel : Poly.sel A.nc (some [k]) = [k] := Poly.sel_some ⟨by simp, by simpa using hk⟩
  obtain ⟨p1, h1⟩ := Poly.add_lower_bound_ok h0 (.flt 0) (some [k]) (v := Vec.single 0) rfl (by rw [hsel]; rfl)
  obtain ⟨i1, v, hv, -, m1⟩ := Poly.add_lower_bound_spec h0 _ _ _ h1
  cases hv
  obtain ⟨p2, h2⟩ := Poly.add_upper_bound_ok i1 (.flt 1) (some [k]) (v := Vec.single 1) rfl (by rw [hsel]; rfl)
  obtain ⟨i2, v, hv, -, m2⟩ := Poly.add_upper_bound_spec i1 _ _ _ h2
  cases hv
  refine ⟨p2, ?_, i2, ?_, fun w => ?_⟩
  · unfold Disjunctive.relaxed
    rw [(Poly.init_eq_ok (p := p0)).2 ⟨b, rfl, hb, Or.inl ⟨rfl, rfl, rfl⟩⟩, Py.ok_bind]
    refine runOn_ok.2 ?_
    unfold Poly.add_bounds
    rw [PyM.bind_ok h1]
    exact h2
  · rw [Poly.add_lower_bound_eq] at h1
    rw [Poly.add_upper_bound_eq] at h2
    obtain ⟨_, _, _, _, e1⟩ := (Poly.add_inequality_ok h0 _ _ _ _).1 h1
    obtain ⟨_, _, _, _, e2⟩ := (Poly.add_inequality_ok i1 _ _ _ _).1 h2
    rw [e2, e1]
    rfl
  · rw [m2, m1, hsel]
    have e : p0.Mem w ↔ ∀ i < A.nr, Spec.rowVal A i w ≤ b.e i :=
      ⟨fun h => h.1, fun h => ⟨h, fun i hi => absurd hi (Nat.not_lt_zero i)⟩⟩
    rw [e]
    simp [Vec.single, and_assoc]

theorem intersection_eqs {p q r : Poly} {n : ℕ} (hp : p.Inv n) (hq : q.Inv n) (h : p.intersection q = .ok r) : r.C.nr = q.C.nr + p.C.nr := by
  have h' := runOn_ok.1 h
  obtain ⟨⟨⟩, q1, h1, h2⟩ : ∃ a q1, Poly.add_inequality p.A (.d1 p.b) none q = (.ok a, q1) ∧ Poly.add_equality p.C (.d1 p.d) none q1 = (.ok (), r) := by
    rcases h1 : Poly.add_inequality p.A (.d1 p.b) none q with ⟨e | a, q1⟩
    · rw [PyM.bind_error h1] at h'; cases h'
    · rw [PyM.bind_ok h1] at h'; exact ⟨a, q1, rfl, h'⟩
  have i1 := (Poly.add_inequality_spec hq h1).1
  obtain ⟨_, _, _, _, e1⟩ := (Poly.add_inequality_ok hq _ _ _ _).1 h1
  obtain ⟨_, _, _, _, e2⟩ := (Poly.add_equality_ok i1 _ _ _ _).1 h2
  rw [e2, e1]
  rfl

/-- the sizes of the data of two polyhedra in `R^n` -/
structure Sizes (n : ℕ) (A1 : Mat ℝ) (b1 : Vec ℝ) (A2 : Mat ℝ) (b2 : Vec ℝ) : Prop where
  c1 : A1.nc = n
  r1 : b1.n = A1.nr
  c2 : A2.nc = n
  r2 : b2.n = A2.nr

/-- the constraint set of the big-M formulation -/
theorem bigM_ok {n : ℕ} {A1 A2 : Mat ℝ} {b1 b2 M : Vec ℝ} (h : Sizes n A1 b1 A2 b2) (h1 : M.n = A1.nr) (h2 : M.n = A2.nr) :
    ∃ cs, Disjunctive.bigM A1 b1 A2 b2 M = .ok cs ∧ cs.Inv (n + 1) ∧ cs.C.nr = 0 ∧ cs = Poly.fresh cs.A cs.b cs.C cs.d ∧
      ∀ w, cs.Mem w ↔ (∀ i < A1.nr, Spec.rowVal A1 i w ≤ b1.e i + M.e i * w n) ∧
        (∀ i < A2.nr, Spec.rowVal A2 i w ≤ b2.e i + M.e i * w n) ∧ 0 ≤ w n ∧ w n ≤ 1 := by
  obtain ⟨c1, r1, c2, r2⟩ := h
  have key : ∀ (A : Mat ℝ) (b : Vec ℝ), A.nc = n → b.n = A.nr → M.n = A.nr →
      ∃ p, np.hstack [A, Mat.ofCol M.neg] = .ok (A.happ (Mat.ofCol M.neg)) ∧
        Disjunctive.relaxed (A.happ (Mat.ofCol M.neg)) b n = .ok p ∧ p.Inv (n + 1) ∧ p.C.nr = 0 ∧
        ∀ w, p.Mem w ↔ (∀ i < A.nr, Spec.rowVal A i w ≤ b.e i + M.e i * w n) ∧ 0 ≤ w n ∧ w n ≤ 1 := by
    intro A b c r hM
    have hs : np.hstack [A, Mat.ofCol M.neg] = .ok (A.happ (Mat.ofCol M.neg)) := if_pos hM.symm
    have hc : (A.happ (Mat.ofCol M.neg)).nc = n + 1 := by rw [Mat.happ_nc, c]; rfl
    obtain ⟨p, p1, p2, p3, p4⟩ := relaxed_ok (A := A.happ (Mat.ofCol M.neg)) (b := b) (k := n) r (by omega)
    refine ⟨p, hs, p1, by rw [← hc]; exact p2, p3, fun w => ?_⟩
    rw [p4]
    refine and_congr_left fun _ => forall_congr' fun i => forall_congr' fun _ => ?_
    rw [rowVal_happ, rowVal_ofCol, c, Nat.add_zero]
    show Spec.rowVal A i w + -M.e i * w n ≤ _ ↔ _
    constructor <;> intro <;> linarith
  obtain ⟨p, p0, p1, p2, p3, p4⟩ := key A1 b1 c1 r1 h1
  obtain ⟨q, q0, q1, q2, q3, q4⟩ := key A2 b2 c2 r2 h2
  obtain ⟨r, e1, e2, e3, e4⟩ := (C13 _ _ p q p2 q2).1 rfl
  refine ⟨r, ?_, e2, by rw [intersection_eqs p2 q2 e1, p3, q3], e4, fun w => ?_⟩
  · unfold Disjunctive.bigM
    rw [p0, Py.ok_bind, c1, p1, Py.ok_bind, q0, Py.ok_bind, q1, Py.ok_bind, e1]
  · rw [e3, p4, q4]
    tauto

/-- the constraint set of the convex hull formulation -/
theorem hull_ok {n : ℕ} {A1 A2 : Mat ℝ} {b1 b2 : Vec ℝ} (h : Sizes n A1 b1 A2 b2) :
    ∃ cs, Disjunctive.hull A1 b1 A2 b2 = .ok cs ∧ cs.Inv (2 * n + 1) ∧ cs.C.nr = 0 ∧ cs = Poly.fresh cs.A cs.b cs.C cs.d ∧
      ∀ w, cs.Mem w ↔ (∀ i < A1.nr, Spec.rowVal A1 i (fun j => w (n + j)) ≤ b1.e i * (1 - w (2 * n))) ∧
        (∀ i < A2.nr, Spec.rowVal A2 i (fun j => w j - w (n + j)) ≤ b2.e i * w (2 * n)) ∧ 0 ≤ w (2 * n) ∧ w (2 * n) ≤ 1 := by
  obtain ⟨c1, r1, c2, r2⟩ := h
  let B1 := (Mat.zeros A1.nr A1.nc).happ (A1.happ (Mat.ofCol b1))
  let B2 := A2.happ (A2.neg.happ (Mat.ofCol b2.neg))
  have s1 : np.hstack [Mat.zeros A1.nr A1.nc, A1, Mat.ofCol b1] = .ok B1 := by
    show (np.hstack [A1, Mat.ofCol b1] >>= fun C => np.hstack2 (Mat.zeros A1.nr A1.nc) C) = _
    rw [show np.hstack [A1, Mat.ofCol b1] = .ok (A1.happ (Mat.ofCol b1)) from if_pos r1.symm, Py.ok_bind]
    exact if_pos rfl
  have s2 : np.hstack [A2, A2.neg, Mat.ofCol b2.neg] = .ok B2 := by
    show (np.hstack [A2.neg, Mat.ofCol b2.neg] >>= fun C => np.hstack2 A2 C) = _
    rw [show np.hstack [A2.neg, Mat.ofCol b2.neg] = .ok (A2.neg.happ (Mat.ofCol b2.neg)) from if_pos r2.symm, Py.ok_bind]
    exact if_pos rfl
  have d1 : B1.nc = 2 * n + 1 := by show A1.nc + (A1.nc + 1) = _; omega
  have d2 : B2.nc = 2 * n + 1 := by show A2.nc + (A2.nc + 1) = _; omega
  obtain ⟨p, p1, p2, p3, p4⟩ := relaxed_ok (A := B1) (b := b1) (k := 2 * n) r1 (by omega)
  obtain ⟨q, q1, q2, q3, q4⟩ := relaxed_ok (A := B2) (b := Vec.zeros b2.n) (k := 2 * n) r2 (by omega)
  rw [d1] at p2
  rw [d2] at q2
  obtain ⟨r, e1, e2, e3, e4⟩ := (C13 _ _ p q p2 q2).1 rfl
  refine ⟨r, ?_, e2, by rw [intersection_eqs p2 q2 e1, p3, q3], e4, fun w => ?_⟩
  · unfold Disjunctive.hull
    rw [s1, Py.ok_bind, c1, p1, Py.ok_bind, s2, Py.ok_bind, q1, Py.ok_bind, e1]
  · rw [e3, p4, q4]
    have f1 : (∀ i < B1.nr, Spec.rowVal B1 i w ≤ b1.e i) ↔
        ∀ i < A1.nr, Spec.rowVal A1 i (fun j => w (n + j)) ≤ b1.e i * (1 - w (2 * n)) := by
      refine forall_congr' fun i => forall_congr' fun _ => ?_
      rw [show Spec.rowVal B1 i w = Spec.rowVal A1 i (fun j => w (n + j)) + b1.e i * w (2 * n) from ?_]
      · constructor <;> intro <;> linarith
      · show Spec.rowVal ((Mat.zeros A1.nr A1.nc).happ (A1.happ (Mat.ofCol b1))) i w = _
        rw [rowVal_happ, rowVal_happ, rowVal_zeros, rowVal_ofCol, zero_add]
        show Spec.rowVal A1 i (fun j => w (A1.nc + j)) + b1.e i * w (A1.nc + (A1.nc + 0)) = _
        rw [c1, show n + (n + 0) = 2 * n by omega]
    have f2 : (∀ i < B2.nr, Spec.rowVal B2 i w ≤ (Vec.zeros b2.n).e i) ↔
        ∀ i < A2.nr, Spec.rowVal A2 i (fun j => w j - w (n + j)) ≤ b2.e i * w (2 * n) := by
      refine forall_congr' fun i => forall_congr' fun _ => ?_
      have e : Spec.rowVal A2 i (fun j => w j - w (n + j)) = Spec.rowVal A2 i w - Spec.rowVal A2 i fun j => w (n + j) := by
        have := rowVal_lin A2 i 1 (-1) w fun j => w (n + j)
        rw [show (fun j => w j - w (n + j)) = fun j => 1 * w j + -1 * w (n + j) from funext fun j => by ring, this]
        ring
      rw [show Spec.rowVal B2 i w = Spec.rowVal A2 i (fun j => w j - w (n + j)) - b2.e i * w (2 * n) from ?_]
      · show _ ≤ (0 : ℝ) ↔ _
        constructor <;> intro <;> linarith
      · show Spec.rowVal (A2.happ (A2.neg.happ (Mat.ofCol b2.neg))) i w = _
        rw [rowVal_happ, rowVal_happ, rowVal_neg, rowVal_ofCol, e]
        show Spec.rowVal A2 i w + (- Spec.rowVal A2 i (fun j => w (A2.nc + j)) + -b2.e i * w (A2.nc + (A2.nc + 0))) = _
        rw [c2, show n + (n + 0) = 2 * n by omega]
        ring
    rw [f1, f2]
    tauto

theorem convex_halfspaces (A : Mat ℝ) (b : Vec ℝ) : Convex ℝ (Spec.halfspaces A b) := by
  intro x hx y hy s t hs ht hst i hi
  have e : Spec.rowVal A i (s • x + t • y) = s * Spec.rowVal A i x + t * Spec.rowVal A i y := rowVal_lin A i s t x y
  rw [e]
  have h1 := mul_le_mul_of_nonneg_left (hx i hi) hs
  have h2 := mul_le_mul_of_nonneg_left (hy i hi) ht
  have : s * b.e i + t * b.e i = b.e i := by rw [← add_mul, hst, one_mul]
  linarith

theorem halfspaces_congr {A : Mat ℝ} {b : Vec ℝ} {x y : ℕ → ℝ} (h : ∀ j < A.nc, x j = y j) (hx : x ∈ Spec.halfspaces A b) : y ∈ Spec.halfspaces A b :=
  fun i hi => by rw [← rowVal_congr h]; exact hx i hi

/-- a bounded polyhedron has no direction of recession -/
theorem recession_zero {A : Mat ℝ} {b : Vec ℝ} (hb : Spec.BoundedSet A.nc (Spec.halfspaces A b)) (hne : (Spec.halfspaces A b).Nonempty) {v : ℕ → ℝ}
    (hv : ∀ i < A.nr, Spec.rowVal A i v ≤ 0) : ∀ j < A.nc, v j = 0 := by
  obtain ⟨R, hR⟩ := hb
  obtain ⟨x, hx⟩ := hne
  intro j hj
  by_contra h0
  have hm : ∀ t : ℝ, 0 ≤ t → |x j + t * v j| ≤ R := by
    intro t ht
    refine hR (fun j => 1 * x j + t * v j) (fun i hi => ?_) j hj |>.trans' (by rw [one_mul])
    rw [rowVal_lin]
    have h1 := hx i hi
    have h2 := mul_nonpos_of_nonneg_of_nonpos ht (hv i hi)
    linarith
  have hpos : 0 < |v j| := abs_pos.2 h0
  have h1 := hm ((R + |x j| + 1) / |v j|) (div_nonneg (by have := hm 0 le_rfl; have := abs_nonneg (x j + 0 * v j); have := abs_nonneg (x j); linarith) hpos.le)
  have h2 : |(R + |x j| + 1) / |v j| * v j| = |R + |x j| + 1| := by
    rw [abs_mul, abs_div, abs_abs, div_mul_cancel₀ _ hpos.ne']
  have h3 := abs_sub_abs_le_abs_sub ((R + |x j| + 1) / |v j| * v j) (-x j)
  rw [h2, abs_neg, sub_neg_eq_add, add_comm _ (x j)] at h3
  have h4 := le_abs_self (R + |x j| + 1)
  linarith

/-- the auxiliary variables are multiples of points of the two polytopes -/
theorem hull_split {A1 A2 : Mat ℝ} {b1 b2 : Vec ℝ} {n : ℕ} (c1 : A1.nc = n) (c2 : A2.nc = n)
    (hb1 : Spec.BoundedSet n (Spec.halfspaces A1 b1)) (hb2 : Spec.BoundedSet n (Spec.halfspaces A2 b2))
    (hn1 : (Spec.halfspaces A1 b1).Nonempty) (hn2 : (Spec.halfspaces A2 b2).Nonempty) {u v : ℕ → ℝ} {δ : ℝ} (h0 : 0 ≤ δ) (h1 : δ ≤ 1)
    (hu : ∀ i < A1.nr, Spec.rowVal A1 i u ≤ b1.e i * (1 - δ)) (hv : ∀ i < A2.nr, Spec.rowVal A2 i v ≤ b2.e i * δ) :
    ∃ a ∈ Spec.halfspaces A1 b1, ∃ c ∈ Spec.halfspaces A2 b2, ∀ j < n, u j = (1 - δ) * a j ∧ v j = δ * c j := by
  have key : ∀ (A : Mat ℝ) (b : Vec ℝ) (s : ℝ) (w : ℕ → ℝ), A.nc = n → Spec.BoundedSet n (Spec.halfspaces A b) → (Spec.halfspaces A b).Nonempty →
      0 ≤ s → (∀ i < A.nr, Spec.rowVal A i w ≤ b.e i * s) → ∃ a ∈ Spec.halfspaces A b, ∀ j < n, w j = s * a j := by
    intro A b s w c hb hne hs hw
    rcases hs.eq_or_lt with rfl | hs
    · obtain ⟨a, ha⟩ := hne
      refine ⟨a, ha, fun j hj => ?_⟩
      rw [zero_mul]
      exact recession_zero (by rw [c]; exact hb) ⟨a, ha⟩ (fun i hi => by simpa using hw i hi) j (by omega)
    · refine ⟨fun j => s⁻¹ * w j + 0 * w j, fun i hi => ?_, fun j _ => ?_⟩
      · rw [rowVal_lin, zero_mul, add_zero, inv_mul_le_iff₀ hs, mul_comm]
        exact hw i hi
      · field_simp
        ring
  obtain ⟨a, ha, ha'⟩ := key A1 b1 (1 - δ) u c1 hb1 hn1 (by linarith) hu
  obtain ⟨c, hc, hc'⟩ := key A2 b2 δ v c2 hb2 hn2 h0 hv
  exact ⟨a, ha, c, hc, fun j hj => ⟨ha' j hj, hc' j hj⟩⟩

/-- the variables `(x, x1, δ)` of the convex hull formulation -/
def stack3 (n : ℕ) (x x1 : ℕ → ℝ) (δ : ℝ) : ℕ → ℝ := fun j => if j < n then x j else if j < 2 * n then x1 (j - n) else δ

theorem stack3_x {n : ℕ} (x x1 : ℕ → ℝ) (δ : ℝ) {j : ℕ} (h : j < n) : stack3 n x x1 δ j = x j := if_pos h
theorem stack3_x1 {n : ℕ} (x x1 : ℕ → ℝ) (δ : ℝ) {j : ℕ} (h : j < n) : stack3 n x x1 δ (n + j) = x1 j := by
  unfold stack3
  rw [if_neg (by omega), if_pos (by omega), Nat.add_sub_cancel_left]
theorem stack3_d (n : ℕ) (x x1 : ℕ → ℝ) (δ : ℝ) : stack3 n x x1 δ (2 * n) = δ := by
  unfold stack3
  rw [if_neg (by omega), if_neg (by omega)]

end Disj

/-- C124, what holds: the notebook builds `A1 x ≤ b1 + M δ`, `A2 x ≤ b2 + M δ`, `0 ≤ δ ≤ 1`.  For nonnegative `M` the shadow of
this set is `A1 x ≤ b1 + M`, `A2 x ≤ b2 + M`, which contains the shadow of the documented formulation. -/
theorem C124_partial (n : ℕ) (A1 A2 : Mat ℝ) (b1 b2 M : Vec ℝ) (h : Disj.Sizes n A1 b1 A2 b2) (h1 : M.n = A1.nr) (h2 : M.n = A2.nr) :
    ∃ cs, Disjunctive.bigM A1 b1 A2 b2 M = .ok cs ∧ cs.Inv (n + 1) ∧
      (∀ w, cs.Mem w ↔ (∀ i < A1.nr, Spec.rowVal A1 i w ≤ b1.e i + M.e i * w n) ∧
        (∀ i < A2.nr, Spec.rowVal A2 i w ≤ b2.e i + M.e i * w n) ∧ 0 ≤ w n ∧ w n ≤ 1) ∧
      ((∀ i < M.n, 0 ≤ M.e i) →
        (∀ y, Spec.InProj cs.A cs.b cs.C cs.d (List.range n) y ↔
          (∀ i < A1.nr, Spec.rowVal A1 i y ≤ b1.e i + M.e i) ∧ ∀ i < A2.nr, Spec.rowVal A2 i y ≤ b2.e i + M.e i) ∧
        ∀ y δ, 0 ≤ δ → δ ≤ 1 → Spec.BigM A1 b1 A2 b2 M y δ → Spec.InProj cs.A cs.b cs.C cs.d (List.range n) y) := by
  obtain ⟨cs, e1, e2, -, -, e3⟩ := Disj.bigM_ok h h1 h2
  refine ⟨cs, e1, e2, e3, fun hM => ?_⟩
  have hM1 : ∀ i < A1.nr, 0 ≤ M.e i := fun i hi => hM i (by omega)
  have hM2 : ∀ i < A2.nr, 0 ≤ M.e i := fun i hi => hM i (by omega)
  have key : ∀ y, Spec.InProj cs.A cs.b cs.C cs.d (List.range n) y ↔
      (∀ i < A1.nr, Spec.rowVal A1 i y ≤ b1.e i + M.e i) ∧ ∀ i < A2.nr, Spec.rowVal A2 i y ≤ b2.e i + M.e i := by
    intro y
    constructor
    · rintro ⟨w, hw, hy⟩
      obtain ⟨a1, a2, a3, a4⟩ := (e3 w).1 hw
      have hy' : ∀ j < n, y j = w j := fun j hj => by
        rw [hy j (by simpa using hj), Poly.getD_range hj]
      refine ⟨fun i hi => ?_, fun i hi => ?_⟩
      · rw [Disj.rowVal_congr (y := w) (by rw [h.c1]; exact hy')]
        have := mul_le_mul_of_nonneg_left a4 (hM1 i hi)
        linarith [a1 i hi]
      · rw [Disj.rowVal_congr (y := w) (by rw [h.c2]; exact hy')]
        have := mul_le_mul_of_nonneg_left a4 (hM2 i hi)
        linarith [a2 i hi]
    · rintro ⟨a1, a2⟩
      obtain ⟨w, hy', hn⟩ : ∃ w : ℕ → ℝ, (∀ j < n, w j = y j) ∧ w n = 1 :=
        ⟨fun j => if j < n then y j else 1, fun j hj => if_pos hj, if_neg (lt_irrefl n)⟩
      refine ⟨w, (e3 _).2 ?_, fun k hk => ?_⟩
      · rw [hn]
        refine ⟨fun i hi => ?_, fun i hi => ?_, by norm_num, by norm_num⟩
        · rw [Disj.rowVal_congr (by rw [h.c1]; exact hy'), mul_one]
          exact a1 i hi
        · rw [Disj.rowVal_congr (by rw [h.c2]; exact hy'), mul_one]
          exact a2 i hi
      · have hk' : k < n := by simpa using hk
        rw [Poly.getD_range hk', hy' k hk']
  refine ⟨key, fun y δ d0 d1 hy => (key y).2 ⟨fun i hi => ?_, fun i hi => ?_⟩⟩
  · have := mul_le_mul_of_nonneg_left d1 (hM1 i hi)
    linarith [hy.1 i hi]
  · have := mul_le_mul_of_nonneg_left (by linarith : 1 - δ ≤ 1) (hM2 i hi)
    linarith [hy.2 i hi]

/-- C125: the convex hull formulation of two nonempty polytopes.  With `δ` in `{0, 1}` the set has exactly the points of the
union, with `δ` in `[0, 1]` exactly the points of the convex hull. -/
theorem C125 (n : ℕ) (A1 A2 : Mat ℝ) (b1 b2 : Vec ℝ) (h : Disj.Sizes n A1 b1 A2 b2)
    (hb1 : Spec.BoundedSet n (Spec.halfspaces A1 b1)) (hb2 : Spec.BoundedSet n (Spec.halfspaces A2 b2))
    (hn1 : (Spec.halfspaces A1 b1).Nonempty) (hn2 : (Spec.halfspaces A2 b2).Nonempty) :
    ∃ cs, Disjunctive.hull A1 b1 A2 b2 = .ok cs ∧ cs.Inv (2 * n + 1) ∧
      (∀ y, (∃ w, cs.Mem w ∧ (w (2 * n) = 0 ∨ w (2 * n) = 1) ∧ ∀ j < n, w j = y j) ↔
        y ∈ Spec.halfspaces A1 b1 ∪ Spec.halfspaces A2 b2) ∧
      (∀ y, Spec.InProj cs.A cs.b cs.C cs.d (List.range n) y ↔
        y ∈ convexHull ℝ (Spec.halfspaces A1 b1 ∪ Spec.halfspaces A2 b2)) ∧
      Spec.IsBounded (2 * n + 1) cs.A cs.b cs.C cs.d := by
  obtain ⟨cs, e1, e2, -, -, e3⟩ := Disj.hull_ok h
  have split : ∀ w, cs.Mem w → 0 ≤ w (2 * n) ∧ w (2 * n) ≤ 1 ∧ ∃ a ∈ Spec.halfspaces A1 b1, ∃ c ∈ Spec.halfspaces A2 b2,
      ∀ j < n, w (n + j) = (1 - w (2 * n)) * a j ∧ w j - w (n + j) = w (2 * n) * c j := fun w hw => by
    obtain ⟨a1, a2, a3, a4⟩ := (e3 w).1 hw
    exact ⟨a3, a4, Disj.hull_split h.c1 h.c2 hb1 hb2 hn1 hn2 a3 a4 a1 a2⟩
  have join : ∀ (a c y : ℕ → ℝ) (δ : ℝ), 0 ≤ δ → δ ≤ 1 → a ∈ Spec.halfspaces A1 b1 → c ∈ Spec.halfspaces A2 b2 →
      (∀ j < n, y j = (1 - δ) * a j + δ * c j) → cs.Mem (Disj.stack3 n y (fun j => (1 - δ) * a j) δ) := by
    intro a c y δ h0 h1 ha hc hy
    refine (e3 _).2 ?_
    rw [Disj.stack3_d]
    refine ⟨fun i hi => ?_, fun i hi => ?_, h0, h1⟩
    · rw [Disj.rowVal_congr (y := fun j => (1 - δ) * a j + 0 * a j) (fun j hj => by
        rw [Disj.stack3_x1 _ _ _ (by rw [← h.c1]; exact hj)]; ring), Disj.rowVal_lin, zero_mul, add_zero, mul_comm]
      exact mul_le_mul_of_nonneg_right (ha i hi) (by linarith)
    · rw [Disj.rowVal_congr (y := fun j => δ * c j + 0 * c j) (fun j hj => by
        rw [h.c2] at hj
        rw [Disj.stack3_x1 _ _ _ hj, Disj.stack3_x _ _ _ hj, hy j hj]; ring), Disj.rowVal_lin, zero_mul, add_zero, mul_comm]
      exact mul_le_mul_of_nonneg_right (hc i hi) h0
  have range_iff : ∀ (w y : ℕ → ℝ), (∀ k < (List.range n).length, y k = w ((List.range n).getD k 0)) ↔ ∀ j < n, w j = y j := by
    intro w y
    rw [List.length_range]
    exact forall_congr' fun k => forall_congr' fun hk => by rw [Poly.getD_range hk]; exact eq_comm
  refine ⟨cs, e1, e2, fun y => ⟨?_, ?_⟩, fun y => ?_, ?_⟩
  · rintro ⟨w, hw, hd, hy⟩
    obtain ⟨-, -, a, ha, c, hc, hac⟩ := split w hw
    rcases hd with hd | hd
    · refine Or.inl (Disj.halfspaces_congr (x := a) (fun j hj => ?_) ha)
      rw [h.c1] at hj
      have := hac j hj
      rw [hd] at this
      rw [← hy j hj]
      linarith [this.1, this.2]
    · refine Or.inr (Disj.halfspaces_congr (x := c) (fun j hj => ?_) hc)
      rw [h.c2] at hj
      have := hac j hj
      rw [hd] at this
      rw [← hy j hj]
      linarith [this.1, this.2]
  · obtain ⟨a, ha⟩ := hn1
    obtain ⟨c, hc⟩ := hn2
    rintro (hy | hy)
    · exact ⟨_, join y c y 0 le_rfl zero_le_one hy hc (fun j _ => by ring), Or.inl (Disj.stack3_d _ _ _ _),
        fun j hj => Disj.stack3_x _ _ _ hj⟩
    · exact ⟨_, join a y y 1 zero_le_one le_rfl ha hy (fun j _ => by ring), Or.inr (Disj.stack3_d _ _ _ _),
        fun j hj => Disj.stack3_x _ _ _ hj⟩
  · rw [Convex.convexHull_union (Disj.convex_halfspaces A1 b1) (Disj.convex_halfspaces A2 b2) hn1 hn2, mem_convexJoin]
    constructor
    · rintro ⟨w, hw, hy⟩
      rw [range_iff] at hy
      obtain ⟨d0, d1, a, ha, c, hc, hac⟩ := split w hw
      let ext : (ℕ → ℝ) → ℕ → ℝ := fun v j => if j < n then v j else y j
      refine ⟨ext a, Disj.halfspaces_congr (fun j hj => (if_pos (by rw [← h.c1]; exact hj)).symm) ha,
        ext c, Disj.halfspaces_congr (fun j hj => (if_pos (by rw [← h.c2]; exact hj)).symm) hc, 1 - w (2 * n), w (2 * n), by linarith, d0, by ring, ?_⟩
      funext j
      show (1 - w (2 * n)) * ext a j + w (2 * n) * ext c j = y j
      by_cases hj : j < n
      · rw [show ext a j = a j from if_pos hj, show ext c j = c j from if_pos hj, ← hy j hj]
        linarith [(hac j hj).1, (hac j hj).2]
      · rw [show ext a j = y j from if_neg hj, show ext c j = y j from if_neg hj]
        ring
    · rintro ⟨a, ha, c, hc, s, t, hs, ht, hst, rfl⟩
      have e : s = 1 - t := by linarith
      subst e
      exact ⟨_, join a c _ t ht (by linarith) ha hc (fun j _ => rfl), (range_iff _ _).2 fun j hj => Disj.stack3_x _ _ _ hj⟩
  · obtain ⟨R1, hR1⟩ := hb1
    obtain ⟨R2, hR2⟩ := hb2
    refine ⟨|R1| + |R2| + 1, fun w hw j hj => ?_⟩
    obtain ⟨d0, d1, a, ha, c, hc, hac⟩ := split w hw
    have b1 : ∀ j < n, |w (n + j)| ≤ |R1| := fun j hj => by
      rw [(hac j hj).1, abs_mul, abs_of_nonneg (by linarith : 0 ≤ 1 - w (2 * n))]
      have h1 := (hR1 a ha j hj).trans (le_abs_self R1)
      have h2 := abs_nonneg (a j)
      nlinarith
    have b2 : ∀ j < n, |w j - w (n + j)| ≤ |R2| := fun j hj => by
      rw [(hac j hj).2, abs_mul, abs_of_nonneg d0]
      have h1 := (hR2 c hc j hj).trans (le_abs_self R2)
      have h2 := abs_nonneg (c j)
      nlinarith
    have n1 := abs_nonneg R1
    have n2 := abs_nonneg R2
    by_cases h1 : j < n
    · have := abs_add_le (w j - w (n + j)) (w (n + j))
      rw [sub_add_cancel] at this
      linarith [b1 j h1, b2 j h1]
    · by_cases h2 : j < 2 * n
      · have := b1 (j - n) (by omega)
        rw [show n + (j - n) = j by omega] at this
        linarith
      · rw [show j = 2 * n by omega, abs_of_nonneg d0]
        linarith

end Verif.Props
