import Mathlib.Algebra.BigOperators.Field
import Verif.Model.Polyhedron
import Verif.Spec.Geom
import Verif.Proofs.GeomUtils

/- Lemmas on the constructors and the additions of `Polyhedron`. -/
namespace Verif
open Finset

namespace Poly

/-- the represented set -/
def Mem (p : Poly) (x : ℕ → ℝ) : Prop := Spec.InPoly p.A p.b p.C p.d x

/-- the sizes agree -/
def Inv (n : ℕ) (p : Poly) : Prop := Spec.PolyShape n p.A p.b p.C p.d

/-- the coordinates selected by `_selection_matrix` -/
def sel (n : ℕ) (indices : Option (List ℕ)) : List ℕ :=
  (List.range n).filter (· ∈ indices.getD (List.range n))

theorem selectionMatrix_eq (n : ℕ) (indices : Option (List ℕ)) :
    selectionMatrix n indices = (Mat.eye n).rows (sel n indices) := rfl

theorem sel_none (n : ℕ) : sel n none = List.range n :=
  List.filter_eq_self.2 fun i hi => by simpa using hi

theorem sel_increasing (n : ℕ) (idx) : Spec.Increasing n (sel n idx) :=
  ⟨List.Pairwise.filter _ List.pairwise_lt_range,
    fun i hi => List.mem_range.1 (List.mem_filter.1 hi).1⟩

theorem sel_some {n : ℕ} {l : List ℕ} (h : Spec.Increasing n l) : sel n (some l) = l := by
  refine List.Pairwise.eq_of_mem_iff (sel_increasing n (some l)).1 h.1 fun i => ?_
  simp only [sel, Option.getD_some, List.mem_filter, List.mem_range, decide_eq_true_eq]
  exact ⟨fun h => h.2, fun h' => ⟨h.2 i h', h'⟩⟩

theorem sel_getD_lt {n : ℕ} {idx} {k : ℕ} (hk : k < (sel n idx).length) : (sel n idx).getD k 0 < n := by
  rw [List.getD_eq_getElem?_getD, List.getElem?_eq_getElem hk]
  exact (sel_increasing n idx).2 _ (List.getElem_mem hk)

theorem eye_sum {n k : ℕ} (hk : k < n) (x : ℕ → ℝ) :
    ∑ j ∈ range n, (Mat.eye n : Mat ℝ).e k j * x j = x k := by
  simp only [Mat.eye_e, ite_mul, one_mul, zero_mul]
  rw [Finset.sum_ite_eq]
  simp [hk]

/-- `(A S) x = A x[sel]` -/
theorem mulSel {n : ℕ} (A : Mat ℝ) (idx) (hA : A.nc = (sel n idx).length) (x : ℕ → ℝ) (i : ℕ) :
    ∑ j ∈ range n, (A.mul (selectionMatrix n idx)).e i j * x j
      = ∑ k ∈ range A.nc, A.e i k * x ((sel n idx).getD k 0) := by
  simp only [Mat.mul_e, Finset.sum_mul]
  rw [Finset.sum_comm]
  refine Finset.sum_congr rfl fun k hk => ?_
  rw [← eye_sum (sel_getD_lt (by rw [← hA]; exact mem_range.1 hk)) x, Finset.mul_sum]
  exact Finset.sum_congr rfl fun j _ => by rw [mul_assoc]; rfl

theorem negSel {n : ℕ} (idx) (x : ℕ → ℝ) (i : ℕ) (hi : i < (sel n idx).length) :
    ∑ j ∈ range n, (selectionMatrix n idx).e i j * x j = x ((sel n idx).getD i 0) :=
  eye_sum (sel_getD_lt hi) x

/-- what `add_inequality` does -/
theorem add_inequality_run (p : Poly) (A : Mat ℝ) (b : NDArr ℝ) (idx : Option (List ℕ)) :
    add_inequality A b idx p =
      if A.nr ≠ b.size then (.error .valueError, p)
      else if A.nc ≠ (sel p.A.nc idx).length then (.error .valueError, p.deleteAttributes)
      else match b with
        | .d1 v => (.ok (), { p.deleteAttributes with
            A := p.A.vapp (A.mul (selectionMatrix p.A.nc idx)), b := p.b.append v })
        | .d2 _ => (.error .valueError, { p.deleteAttributes with
            A := p.A.vapp (A.mul (selectionMatrix p.A.nc idx)) }) := by
  unfold add_inequality sameNumberRows
  split_ifs with h1 h2
  · rfl
  · have e : np.dotMM A (selectionMatrix p.A.nc idx) = .error .valueError := if_neg h2
    simp only [PyM.bind_apply, PyM.lift_apply, PyM.modify_apply, PyM.get_apply]
    rw [show p.deleteAttributes.A = p.A from rfl, e]
  · have e : np.dotMM A (selectionMatrix p.A.nc idx) = .ok (A.mul (selectionMatrix p.A.nc idx)) :=
      if_pos (not_not.1 h2)
    have e2 : np.vstack [p.A, A.mul (selectionMatrix p.A.nc idx)]
        = .ok (p.A.vapp (A.mul (selectionMatrix p.A.nc idx))) := if_pos rfl
    simp only [PyM.bind_apply, PyM.lift_apply, PyM.modify_apply, PyM.get_apply]
    rw [show p.deleteAttributes.A = p.A from rfl, e]
    simp only []
    rw [e2]
    cases b <;> rfl

/-- what `add_equality` does -/
theorem add_equality_run (p : Poly) (C : Mat ℝ) (d : NDArr ℝ) (idx : Option (List ℕ))
    (hC : p.C.nc = p.A.nc) :
    add_equality C d idx p =
      if C.nr ≠ d.size then (.error .valueError, p)
      else if C.nc ≠ (sel p.A.nc idx).length then (.error .valueError, p.deleteAttributes)
      else match d with
        | .d1 v => (.ok (), { p.deleteAttributes with
            C := p.C.vapp (C.mul (selectionMatrix p.A.nc idx)), d := p.d.append v })
        | .d2 _ => (.error .valueError, { p.deleteAttributes with
            C := p.C.vapp (C.mul (selectionMatrix p.A.nc idx)) }) := by
  unfold add_equality sameNumberRows
  split_ifs with h1 h2
  · rfl
  · have e : np.dotMM C (selectionMatrix p.A.nc idx) = .error .valueError := if_neg h2
    simp only [PyM.bind_apply, PyM.lift_apply, PyM.modify_apply, PyM.get_apply]
    rw [show p.deleteAttributes.A = p.A from rfl, e]
  · have e : np.dotMM C (selectionMatrix p.A.nc idx) = .ok (C.mul (selectionMatrix p.A.nc idx)) :=
      if_pos (not_not.1 h2)
    have e2 : np.vstack [p.C, C.mul (selectionMatrix p.A.nc idx)]
        = .ok (p.C.vapp (C.mul (selectionMatrix p.A.nc idx))) := if_pos hC
    simp only [PyM.bind_apply, PyM.lift_apply, PyM.modify_apply, PyM.get_apply]
    rw [show p.deleteAttributes.A = p.A from rfl, e]
    simp only []
    rw [show p.deleteAttributes.C = p.C from rfl, e2]
    cases d <;> rfl

/-- the set after `add_inequality` -/
theorem mem_vapp {p : Poly} {n : ℕ} (hp : p.Inv n) {A : Mat ℝ} {v : Vec ℝ} {idx}
    (hA : A.nc = (sel n idx).length) (x : ℕ → ℝ) (q : Poly)
    (hqA : q.A = p.A.vapp (A.mul (selectionMatrix n idx))) (hqb : q.b = p.b.append v)
    (hqC : q.C = p.C) (hqd : q.d = p.d) :
    q.Mem x ↔ p.Mem x ∧ Spec.IneqAt A v.e (sel n idx) x := by
  obtain ⟨h1, h2, h3, h4⟩ := hp
  unfold Mem Spec.InPoly
  rw [hqA, hqb, hqC, hqd]
  simp only [Mat.vapp_nr, Mat.vapp_nc, forall_lt_add, Mat.mul_nr]
  have e1 : (∀ i < p.A.nr, ∑ j ∈ range p.A.nc, (p.A.vapp (A.mul (selectionMatrix n idx))).e i j * x j
      ≤ (p.b.append v).e i) ↔ ∀ i < p.A.nr, ∑ j ∈ range p.A.nc, p.A.e i j * x j ≤ p.b.e i := by
    refine forall_congr' fun i => forall_congr' fun hi => ?_
    rw [Vec.append_e_lt _ _ (by omega)]
    simp only [Mat.vapp_e_lt _ _ _ hi]
  have e2 : (∀ i < A.nr, ∑ j ∈ range p.A.nc,
      (p.A.vapp (A.mul (selectionMatrix n idx))).e (p.A.nr + i) j * x j
      ≤ (p.b.append v).e (p.A.nr + i)) ↔ Spec.IneqAt A v.e (sel n idx) x := by
    refine forall_congr' fun i => forall_congr' fun hi => ?_
    rw [← h2, Vec.append_e_add, h2]
    simp only [Mat.vapp_e_add]
    rw [h1, mulSel A idx hA]
  rw [e1, e2]
  tauto

theorem mem_vappC {p : Poly} {n : ℕ} (hp : p.Inv n) {C : Mat ℝ} {v : Vec ℝ} {idx}
    (hC : C.nc = (sel n idx).length) (x : ℕ → ℝ) (q : Poly)
    (hqC : q.C = p.C.vapp (C.mul (selectionMatrix n idx))) (hqd : q.d = p.d.append v)
    (hqA : q.A = p.A) (hqb : q.b = p.b) :
    q.Mem x ↔ p.Mem x ∧ Spec.EqAt C v.e (sel n idx) x := by
  obtain ⟨h1, h2, h3, h4⟩ := hp
  unfold Mem Spec.InPoly
  rw [hqA, hqb, hqC, hqd]
  simp only [Mat.vapp_nr, Mat.vapp_nc, forall_lt_add, Mat.mul_nr]
  have e1 : (∀ i < p.C.nr, ∑ j ∈ range p.C.nc, (p.C.vapp (C.mul (selectionMatrix n idx))).e i j * x j
      = (p.d.append v).e i) ↔ ∀ i < p.C.nr, ∑ j ∈ range p.C.nc, p.C.e i j * x j = p.d.e i := by
    refine forall_congr' fun i => forall_congr' fun hi => ?_
    rw [Vec.append_e_lt _ _ (by omega)]
    simp only [Mat.vapp_e_lt _ _ _ hi]
  have e2 : (∀ i < C.nr, ∑ j ∈ range p.C.nc,
      (p.C.vapp (C.mul (selectionMatrix n idx))).e (p.C.nr + i) j * x j
      = (p.d.append v).e (p.C.nr + i)) ↔ Spec.EqAt C v.e (sel n idx) x := by
    refine forall_congr' fun i => forall_congr' fun hi => ?_
    rw [← h4, Vec.append_e_add, h4]
    simp only [Mat.vapp_e_add]
    rw [h3, mulSel C idx hC]
  rw [e1, e2]
  tauto

/-- a call of `add_inequality` succeeds exactly on data of matching sizes -/
theorem add_inequality_ok {p : Poly} {n : ℕ} (hp : p.Inv n) (A : Mat ℝ) (b : NDArr ℝ) (idx) (q : Poly) :
    add_inequality A b idx p = (.ok (), q) ↔ ∃ v, b = .d1 v ∧ v.n = A.nr ∧ A.nc = (sel n idx).length ∧
      q = { p.deleteAttributes with A := p.A.vapp (A.mul (selectionMatrix n idx)), b := p.b.append v } := by
  rw [add_inequality_run, hp.1]
  constructor
  · intro h
    split_ifs at h with h1 h2
    · simp at h
    · simp at h
    · cases b with
      | d1 v =>
        simp only [Prod.mk.injEq, true_and] at h
        exact ⟨v, rfl, (not_not.1 h1).symm, not_not.1 h2, h.symm⟩
      | d2 v => simp at h
  · rintro ⟨v, rfl, h1, h2, rfl⟩
    rw [if_neg (by simp [NDArr.size, h1]), if_neg (by simp [h2])]

theorem add_equality_ok {p : Poly} {n : ℕ} (hp : p.Inv n) (C : Mat ℝ) (d : NDArr ℝ) (idx) (q : Poly) :
    add_equality C d idx p = (.ok (), q) ↔ ∃ v, d = .d1 v ∧ v.n = C.nr ∧ C.nc = (sel n idx).length ∧
      q = { p.deleteAttributes with C := p.C.vapp (C.mul (selectionMatrix n idx)), d := p.d.append v } := by
  rw [add_equality_run _ _ _ _ (hp.2.2.1.trans hp.1.symm), hp.1]
  constructor
  · intro h
    split_ifs at h with h1 h2
    · simp at h
    · simp at h
    · cases d with
      | d1 v =>
        simp only [Prod.mk.injEq, true_and] at h
        exact ⟨v, rfl, (not_not.1 h1).symm, not_not.1 h2, h.symm⟩
      | d2 v => simp at h
  · rintro ⟨v, rfl, h1, h2, rfl⟩
    rw [if_neg (by simp [NDArr.size, h1]), if_neg (by simp [h2])]

theorem inv_vapp {p : Poly} {n : ℕ} (hp : p.Inv n) {A : Mat ℝ} {v : Vec ℝ} {S : Mat ℝ} (hv : v.n = A.nr) :
    Inv n { p.deleteAttributes with A := p.A.vapp (A.mul S), b := p.b.append v } :=
  ⟨hp.1, by show p.b.n + v.n = p.A.nr + A.nr; rw [hp.2.1, hv], hp.2.2.1, hp.2.2.2⟩

theorem inv_vappC {p : Poly} {n : ℕ} (hp : p.Inv n) {A : Mat ℝ} {v : Vec ℝ} {S : Mat ℝ} (hv : v.n = A.nr) :
    Inv n { p.deleteAttributes with C := p.C.vapp (A.mul S), d := p.d.append v } :=
  ⟨hp.1, hp.2.1, hp.2.2.1, by show p.d.n + v.n = p.C.nr + A.nr; rw [hp.2.2.2, hv]⟩

/-- the set represented after a successful `add_inequality` -/
theorem add_inequality_spec {p q : Poly} {n : ℕ} (hp : p.Inv n) {A : Mat ℝ} {b : NDArr ℝ} {idx}
    (h : add_inequality A b idx p = (.ok (), q)) :
    q.Inv n ∧ ∃ v, b = .d1 v ∧ v.n = A.nr ∧ A.nc = (sel n idx).length ∧
      ∀ x, q.Mem x ↔ p.Mem x ∧ Spec.IneqAt A v.e (sel n idx) x := by
  obtain ⟨v, h1, h2, h3, rfl⟩ := (add_inequality_ok hp A b idx q).1 h
  exact ⟨inv_vapp hp h2, v, h1, h2, h3, fun x => mem_vapp hp h3 x _ rfl rfl rfl rfl⟩

theorem add_equality_spec {p q : Poly} {n : ℕ} (hp : p.Inv n) {C : Mat ℝ} {d : NDArr ℝ} {idx}
    (h : add_equality C d idx p = (.ok (), q)) :
    q.Inv n ∧ ∃ v, d = .d1 v ∧ v.n = C.nr ∧ C.nc = (sel n idx).length ∧
      ∀ x, q.Mem x ↔ p.Mem x ∧ Spec.EqAt C v.e (sel n idx) x := by
  obtain ⟨v, h1, h2, h3, rfl⟩ := (add_equality_ok hp C d idx q).1 h
  exact ⟨inv_vappC hp h2, v, h1, h2, h3, fun x => mem_vappC hp h3 x _ rfl rfl rfl rfl⟩

theorem add_lower_bound_eq (p : Poly) (x : Bound) (idx) :
    add_lower_bound x idx p
      = add_inequality (selectionMatrix p.A.nc idx).neg (Bound.toArr x).neg none p := rfl

theorem add_upper_bound_eq (p : Poly) (x : Bound) (idx) :
    add_upper_bound x idx p = add_inequality (selectionMatrix p.A.nc idx) (Bound.toArr x) none p := rfl

theorem getD_range {n k : ℕ} (h : k < n) : (List.range n).getD k 0 = k := by
  rw [List.getD_eq_getElem?_getD, List.getElem?_eq_getElem (by simpa using h)]
  simp

/-- a call of `add_lower_bound` succeeds exactly on data of matching sizes -/
theorem add_lower_bound_spec {p : Poly} {n : ℕ} (hp : p.Inv n) (xb : Bound) (idx) (q : Poly)
    (h : add_lower_bound xb idx p = (.ok (), q)) :
    q.Inv n ∧ ∃ v, Bound.toArr xb = .d1 v ∧ v.n = (sel n idx).length ∧
      ∀ x, q.Mem x ↔ p.Mem x ∧ ∀ k < (sel n idx).length, v.e k ≤ x ((sel n idx).getD k 0) := by
  rw [add_lower_bound_eq, hp.1] at h
  obtain ⟨h0, v', h1, h2, h3, h4⟩ := add_inequality_spec hp h
  refine ⟨h0, ?_⟩
  cases hb : Bound.toArr xb with
  | d2 w => rw [hb] at h1; simp [NDArr.neg] at h1
  | d1 v =>
    rw [hb] at h1
    simp only [NDArr.neg, NDArr.d1.injEq] at h1
    subst h1
    refine ⟨v, rfl, h2, fun x => ?_⟩
    rw [h4, sel_none]
    refine and_congr_right fun _ => ?_
    refine forall_congr' fun k => forall_congr' fun hk => ?_
    have e : ∑ j ∈ range (selectionMatrix n idx).neg.nc, (selectionMatrix n idx).neg.e k j
        * x ((List.range n).getD j 0) = - x ((sel n idx).getD k 0) := by
      rw [← negSel idx x k hk, ← Finset.sum_neg_distrib]
      refine Finset.sum_congr rfl fun j hj => ?_
      rw [getD_range (mem_range.1 hj), Mat.neg_e, neg_mul]
    rw [e]
    exact neg_le_neg_iff

theorem add_upper_bound_spec {p : Poly} {n : ℕ} (hp : p.Inv n) (xb : Bound) (idx) (q : Poly)
    (h : add_upper_bound xb idx p = (.ok (), q)) :
    q.Inv n ∧ ∃ v, Bound.toArr xb = .d1 v ∧ v.n = (sel n idx).length ∧
      ∀ x, q.Mem x ↔ p.Mem x ∧ ∀ k < (sel n idx).length, x ((sel n idx).getD k 0) ≤ v.e k := by
  rw [add_upper_bound_eq, hp.1] at h
  obtain ⟨h0, v, h1, h2, h3, h4⟩ := add_inequality_spec hp h
  refine ⟨h0, v, h1, h2, fun x => ?_⟩
  rw [h4, sel_none]
  refine and_congr_right fun _ => ?_
  refine forall_congr' fun k => forall_congr' fun hk => ?_
  have e : ∑ j ∈ range (selectionMatrix n idx).nc, (selectionMatrix n idx).e k j
      * x ((List.range n).getD j 0) = x ((sel n idx).getD k 0) := by
    rw [← negSel idx x k hk]
    refine Finset.sum_congr rfl fun j hj => ?_
    rw [getD_range (mem_range.1 hj)]
  rw [e]

theorem add_lower_bound_ok {p : Poly} {n : ℕ} (hp : p.Inv n) (xb : Bound) (idx) {v : Vec ℝ}
    (hv : Bound.toArr xb = .d1 v) (hn : v.n = (sel n idx).length) :
    ∃ q, add_lower_bound xb idx p = (.ok (), q) := by
  rw [add_lower_bound_eq, hp.1]
  refine ⟨_, (add_inequality_ok hp _ _ _ _).2 ⟨v.neg, by rw [hv]; rfl, hn, ?_, rfl⟩⟩
  rw [sel_none, List.length_range]; rfl

theorem add_upper_bound_ok {p : Poly} {n : ℕ} (hp : p.Inv n) (xb : Bound) (idx) {v : Vec ℝ}
    (hv : Bound.toArr xb = .d1 v) (hn : v.n = (sel n idx).length) :
    ∃ q, add_upper_bound xb idx p = (.ok (), q) := by
  rw [add_upper_bound_eq, hp.1]
  refine ⟨_, (add_inequality_ok hp _ _ _ _).2 ⟨v, hv, hn, ?_, rfl⟩⟩
  rw [sel_none, List.length_range]; rfl


theorem sel_eq {n : ℕ} {idx : Option (List ℕ)} (h : ∀ l, idx = some l → Spec.Increasing n l) :
    sel n idx = idx.getD (List.range n) := by
  cases idx with
  | none => exact sel_none n
  | some l => exact sel_some (h l rfl)

theorem init_eq_ok {A : Mat ℝ} {b : NDArr ℝ} {C : Option (Mat ℝ)} {d : Option (NDArr ℝ)} {p : Poly} :
    init A b C d = .ok p ↔ ∃ v, b = .d1 v ∧ v.n = A.nr ∧
      ((C = none ∧ d = none ∧ p = fresh A v (Mat.zeros 0 A.nc) (Vec.zeros 0)) ∨
        ∃ C' w, C = some C' ∧ d = some (.d1 w) ∧ w.n = C'.nr ∧ p = fresh A v C' w) := by
  cases b with
  | d2 M => simp [init, oneDim]
  | d1 v =>
    by_cases h : A.nr = v.n
    · have e1 : sameNumberRows A (.d1 v) = .ok () := if_neg (by simp [NDArr.size, h])
      cases C with
      | none =>
        cases d with
        | none =>
          simp only [init, oneDim, e1, Py.ok_bind]
          constructor
          · intro hh
            injection hh with hh
            exact ⟨v, rfl, h.symm, Or.inl ⟨trivial, trivial, hh.symm⟩⟩
          · rintro ⟨v', hv, -, ⟨-, -, hp⟩ | ⟨C', w, h1, -⟩⟩
            · cases hv; rw [hp]; rfl
            · simp at h1
        | some d => simp [init, oneDim, e1]
      | some C' =>
        cases d with
        | none => simp [init, oneDim, e1]
        | some d =>
          cases d with
          | d2 M => simp [init, oneDim, e1]
          | d1 w =>
            by_cases h2 : C'.nr = w.n
            · have e2 : sameNumberRows C' (.d1 w) = .ok () := if_neg (by simp [NDArr.size, h2])
              simp only [init, oneDim, e1, e2, Py.ok_bind]
              constructor
              · intro hh
                injection hh with hh
                exact ⟨v, rfl, h.symm, Or.inr ⟨C', w, rfl, rfl, h2.symm, hh.symm⟩⟩
              · rintro ⟨v', hv, -, ⟨h1, -⟩ | ⟨C'', w', h1, h3, -, hp⟩⟩
                · simp at h1
                · cases hv; cases h1; cases h3; rw [hp]; rfl
            · have e2 : sameNumberRows C' (.d1 w) = .error .valueError := if_pos (by simp [NDArr.size, h2])
              simp only [init, oneDim, e1, e2, Py.ok_bind, Py.error_bind]
              constructor
              · intro hh; simp at hh
              · rintro ⟨v', hv, -, ⟨h1, -⟩ | ⟨C'', w', h1, h3, h4, hp⟩⟩
                · simp at h1
                · cases hv; cases h1; cases h3; exact absurd h4.symm h2
    · have e1 : sameNumberRows A (.d1 v) = .error .valueError := if_pos (by simp [NDArr.size, h])
      simp only [init, oneDim, e1, Py.ok_bind, Py.error_bind]
      constructor
      · intro hh; simp at hh
      · rintro ⟨v', hv, h4, -⟩; cases hv; exact absurd h4.symm h

theorem init_error {A : Mat ℝ} {b : NDArr ℝ} {C : Option (Mat ℝ)} {d : Option (NDArr ℝ)} {e : PyErr}
    (h : init A b C d = .error e) : e = .valueError := by
  unfold init oneDim sameNumberRows at h
  rcases b with v | v
  · simp only [Py.ok_bind] at h
    split_ifs at h with h1
    · simp at h; exact h.symm
    · simp only [Py.ok_bind] at h
      rcases C with _ | C <;> rcases d with _ | d
      · simp [pure, Except.pure] at h
      · simp at h; exact h.symm
      · simp at h; exact h.symm
      · rcases d with w | w
        · simp only [Py.ok_bind] at h
          split_ifs at h with h1
          · simp at h; exact h.symm
          · simp [pure, Except.pure] at h
        · simp at h; exact h.symm
  · simp at h; exact h.symm

theorem empty_inv (n : ℕ) :
    Inv n (fresh (Mat.zeros 0 n) (Vec.zeros 0) (Mat.zeros 0 n) (Vec.zeros 0)) := ⟨rfl, rfl, rfl, rfl⟩

theorem empty_mem (n : ℕ) (x : ℕ → ℝ) :
    Mem (fresh (Mat.zeros 0 n) (Vec.zeros 0) (Mat.zeros 0 n) (Vec.zeros 0)) x := by
  constructor
  · intro i hi; exact absurd hi (by show ¬ i < 0; omega)
  · intro i hi; exact absurd hi (by show ¬ i < 0; omega)

theorem init_empty (n : ℕ) : init (Mat.zeros 0 n) (.d1 (Vec.zeros 0))
    = .ok (fresh (Mat.zeros 0 n) (Vec.zeros 0) (Mat.zeros 0 n) (Vec.zeros 0)) := rfl

/-! ### normalize -/

/-- the rows already visited -/
theorem normalizeRow_foldl (tol : ℝ) (A : Mat ℝ) (b : Vec ℝ) (m : ℕ) :
    let Ab := (List.range m).foldl (normalizeRow tol) (A, b)
    Ab.1.nr = A.nr ∧ Ab.1.nc = A.nc ∧ Ab.2.n = b.n ∧
    (∀ i j, Ab.1.e i j = if i < m ∧ vnorm (A.row i) > tol then A.e i j / vnorm (A.row i) else A.e i j) ∧
    ∀ i, Ab.2.e i = if i < m ∧ vnorm (A.row i) > tol then b.e i / vnorm (A.row i) else b.e i := by
  induction m with
  | zero => simp
  | succ m ih =>
    obtain ⟨h1, h2, h3, h4, h5⟩ := ih
    simp only [List.range_succ, List.foldl_append, List.foldl_cons, List.foldl_nil]
    generalize hAb : (List.range m).foldl (normalizeRow tol) (A, b) = Ab at h1 h2 h3 h4 h5
    have hrow : Ab.1.row m = A.row m := by
      have : ∀ j, Ab.1.e m j = A.e m j := fun j => by rw [h4, if_neg (by simp)]
      simp only [Mat.row, h2]
      congr 1
      funext j
      exact this j
    have hr : vnorm (Ab.1.row m) = vnorm (A.row m) := by rw [hrow]
    unfold normalizeRow
    simp only [hr]
    by_cases hc : vnorm (A.row m) > tol
    · rw [if_pos hc]
      refine ⟨h1, h2, h3, fun i j => ?_, fun i => ?_⟩
      · show (if i = m then Ab.1.e m j / _ else Ab.1.e i j) = _
        by_cases him : i = m
        · subst him
          rw [if_pos rfl, if_pos ⟨by omega, hc⟩, h4, if_neg (by simp)]
        · rw [if_neg him, h4]
          have : i < m + 1 ↔ i < m := by omega
          simp only [this]
      · show (if i = m then Ab.2.e m / _ else Ab.2.e i) = _
        by_cases him : i = m
        · subst him
          rw [if_pos rfl, if_pos ⟨by omega, hc⟩, h5, if_neg (by simp)]
        · rw [if_neg him, h5]
          have : i < m + 1 ↔ i < m := by omega
          simp only [this]
    · rw [if_neg hc]
      refine ⟨h1, h2, h3, fun i j => ?_, fun i => ?_⟩
      · rw [h4]
        by_cases him : i = m
        · subst him; rw [if_neg (by simp), if_neg (by simp [hc])]
        · have : i < m + 1 ↔ i < m := by omega
          simp only [this]
      · rw [h5]
        by_cases him : i = m
        · subst him; rw [if_neg (by simp), if_neg (by simp [hc])]
        · have : i < m + 1 ↔ i < m := by omega
          simp only [this]

theorem normalizeRow_idem {tol : ℝ} (htol : 0 ≤ tol) (A : Mat ℝ) (b : Vec ℝ) :
    let Ab := (List.range A.nr).foldl (normalizeRow tol) (A, b)
    (List.range Ab.1.nr).foldl (normalizeRow tol) Ab = Ab := by
  intro Ab
  have key : ∀ l : List ℕ, (∀ i ∈ l, i < A.nr) → l.foldl (normalizeRow tol) Ab = Ab := by
    obtain ⟨h1, h2, h3, h4, h5⟩ := normalizeRow_foldl tol A b A.nr
    intro l
    induction l with
    | nil => intro _; rfl
    | cons i l ih =>
      intro hl
      have hi := hl i (by simp)
      have hstep : normalizeRow tol Ab i = Ab := by
        unfold normalizeRow
        by_cases hc : vnorm (A.row i) > tol
        · have hpos : 0 < vnorm (A.row i) := lt_of_le_of_lt htol hc
          have hr : vnorm (Ab.1.row i) = 1 := by
            have : vnorm (Ab.1.row i) ^ 2 = 1 := by
              rw [vnorm_sq]
              have : ∑ j ∈ range (Ab.1.row i).n, (Ab.1.row i).e j ^ 2
                  = (∑ j ∈ range A.nc, A.e i j ^ 2) / vnorm (A.row i) ^ 2 := by
                rw [Finset.sum_div]
                refine Finset.sum_congr (by rw [Mat.row_n, h2]) fun j _ => ?_
                rw [Mat.row_e, h4, if_pos ⟨hi, hc⟩, div_pow]
              rw [this, vnorm_sq]
              refine div_self ?_
              have := vnorm_sq (A.row i)
              rw [Mat.row_n] at this
              simp only [Mat.row_e] at this ⊢
              rw [← this]
              positivity
            have h0 := vnorm_nonneg (Ab.1.row i)
            nlinarith
          rw [hr]
          simp only [div_one]
          split_ifs
          · refine Prod.ext ?_ ?_
            · show (⟨Ab.1.nr, Ab.1.nc, _⟩ : Mat ℝ) = Ab.1
              congr 1
              funext k j
              by_cases hk : k = i <;> simp [hk]
            · show (⟨Ab.2.n, _⟩ : Vec ℝ) = Ab.2
              congr 1
              funext k
              by_cases hk : k = i <;> simp [hk]
          · rfl
        · have hr : Ab.1.row i = A.row i := by
            simp only [Mat.row]
            rw [h2]
            congr 1
            funext j
            rw [h4, if_neg (by simp [hc])]
          simp only [hr]
          rw [if_neg hc]
      rw [List.foldl_cons, hstep]
      exact ih fun i hi => hl i (by simp [hi])
  exact key _ fun i hi => by
    have := (normalizeRow_foldl tol A b A.nr).1
    rw [List.mem_range] at hi
    exact lt_of_lt_of_eq hi this

end Poly
end Verif
