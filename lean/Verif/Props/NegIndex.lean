import Verif.Model.NegIndex
import Verif.Props.Projection
import Verif.Props.PolyhedronSets
import Verif.Proofs.LibExists

/- Negative indices: C141 of properties.jsonl. -/
namespace Verif.Props
open Finset

theorem position_nonneg {n : ℕ} {i : ℕ} (h : i < n) : np.position n (i : ℤ) = .ok i := by
  unfold np.position
  rw [if_pos ⟨by omega, by omega⟩, Int.toNat_natCast]

theorem position_neg {n : ℕ} {i : ℤ} (h : i < 0) (h' : 0 ≤ n + i) : np.position n i = .ok (n + i).toNat := by
  unfold np.position
  rw [if_neg (by omega), if_pos ⟨h, h'⟩]

/-- the entries of the list that are natural numbers -/
def nonneg (l : List ℤ) : List ℕ := l.filterMap fun i => if 0 ≤ i then some i.toNat else none

theorem mem_nonneg {l : List ℤ} {i : ℕ} : i ∈ nonneg l ↔ (i : ℤ) ∈ l := by
  unfold nonneg
  rw [List.mem_filterMap]
  constructor
  · rintro ⟨a, h1, h2⟩
    split_ifs at h2 with h
    cases h2
    rwa [Int.toNat_of_nonneg h]
  · exact fun h => ⟨i, h, by rw [if_pos (by omega), Int.toNat_natCast]⟩

theorem selectionMatrixZ_eq (n : ℕ) (l : Option (List ℤ)) : Poly.selectionMatrixZ n l = Poly.selectionMatrix n (l.map nonneg) := by
  unfold Poly.selectionMatrixZ Poly.selectionMatrix
  cases l with
  | none => simp
  | some l => simp [mem_nonneg]

theorem add_inequalityZ_eq (A : Mat ℝ) (b : NDArr ℝ) (l : Option (List ℤ)) : Poly.add_inequalityZ A b l = Poly.add_inequality A b (l.map nonneg) := by
  unfold Poly.add_inequalityZ Poly.add_inequality
  simp only [selectionMatrixZ_eq]

theorem add_lower_boundZ_eq (x : Bound) (l : Option (List ℤ)) : Poly.add_lower_boundZ x l = Poly.add_lower_bound x (l.map nonneg) := by
  unfold Poly.add_lower_boundZ Poly.add_lower_bound
  simp only [selectionMatrixZ_eq, add_inequalityZ_eq]
  rfl

theorem add_upper_boundZ_eq (x : Bound) (l : Option (List ℤ)) : Poly.add_upper_boundZ x l = Poly.add_upper_bound x (l.map nonneg) := by
  unfold Poly.add_upper_boundZ Poly.add_upper_bound
  simp only [selectionMatrixZ_eq, add_inequalityZ_eq]
  rfl

/-- two equal columns, the first of which is the first one: the first coordinate has no minimum -/
theorem twoVertices_dup {L : Lib} (hL : LibSpec L) {A : Mat ℝ} {b : Vec ℝ} (hb : b.n = A.nr) (hr : 0 < A.nr) {m : ℕ} (h0 : 0 < m) (hm : m < A.nc)
    (he : ∀ i < A.nr, A.e i m = A.e i 0) (n : ℕ) : Geom.getTwoVertices L A b n = .error .typeError := by
  unfold Geom.getTwoVertices
  rw [if_neg (by omega)]
  set a : Vec ℝ := (Vec.ones 1).append (Vec.zeros (A.nc - 1)) with ha
  have e1 : np.concatenate [Vec.ones 1, Vec.zeros (A.nc - 1)] = .ok a := rfl
  rw [e1, Py.ok_bind]
  have han : a.n = A.nc := by
    show 1 + (A.nc - 1) = _
    omega
  have a0 : a.e 0 = 1 := by simp [ha, Vec.append, Vec.ones]
  have am : a.e m = 0 := by
    simp [ha, Vec.append, Vec.ones, Vec.zeros]
    omega
  have hs : Spec.ConstrShape A.nc A b none none := ⟨rfl, hb⟩
  obtain ⟨s, s1, -, s3⟩ := (C31 L hL A.nc a A b none none han hs 1e-7 (by norm_num)).1 (Or.inl hr)
  have s1' : lpDefault L a A b = .ok s := s1
  rw [s1', Py.ok_bind]
  have hnone : s = Sol.none := by
    refine s3.1 ?_
    rcases hmin : s.min with _ | v
    · rfl
    · exfalso
      obtain ⟨x, lam, ε, h1, -, -, -, -, -, h7, -⟩ := C32_partial L hL A.nc a A b none none han hs 1e-7 s v s1 hmin
      have k0 := h7 0 (by omega)
      have km := h7 m hm
      rw [a0] at k0
      rw [am, Finset.sum_congr rfl fun i hi => by rw [he i (mem_range.1 hi)]] at km
      simp only [Spec.eqGrad] at k0 km
      have := (abs_le.1 k0).2
      have := (abs_le.1 km).1
      linarith
  rw [hnone]
  rfl

/-- the position of a valid index -/
def pos (n : ℕ) (i : ℤ) : ℕ := if 0 ≤ i then i.toNat else (n + i).toNat

theorem position_ok {n : ℕ} {i : ℤ} (h1 : -(n : ℤ) ≤ i) (h2 : i < n) : np.position n i = .ok (pos n i) := by
  unfold np.position pos
  by_cases h : 0 ≤ i
  · rw [if_pos ⟨h, h2⟩, if_pos h]
  · rw [if_neg (by omega), if_pos ⟨by omega, by omega⟩, if_neg h]

theorem pos_natCast (n i : ℕ) : pos n (i : ℤ) = i := by
  unfold pos
  rw [if_pos (by omega), Int.toNat_natCast]

theorem colsAtZ_ok {A : Mat ℝ} {dims : List ℤ} (h : ∀ i ∈ dims, -(A.nc : ℤ) ≤ i ∧ i < A.nc) : Geom.colsAtZ A dims = .ok (A.cols (dims.map (pos A.nc))) := by
  unfold Geom.colsAtZ
  rw [mapM_ok fun i hi => position_ok (h i hi).1 (h i hi).2, Py.ok_bind]
  rfl

theorem colsAtZ_error {A : Mat ℝ} {dims : List ℤ} {k : ℤ} (hk : k ∈ dims) (h : k < -(A.nc : ℤ) ∨ A.nc ≤ k) : Geom.colsAtZ A dims = .error .indexError := by
  have : ∀ l : List ℤ, k ∈ l → l.mapM (np.position A.nc) = .error .indexError := by
    intro l
    induction l with
    | nil => intro h; cases h
    | cons a l ih =>
      intro hm
      rw [List.mapM_cons]
      by_cases ha : -(A.nc : ℤ) ≤ a ∧ a < A.nc
      · rw [position_ok ha.1 ha.2, Py.ok_bind, ih ((List.mem_cons.1 hm).resolve_left (by omega))]
        rfl
      · have : np.position A.nc a = .error .indexError := by
          unfold np.position
          rw [if_neg (by omega), if_neg (by omega)]
        rw [this]
        rfl
  unfold Geom.colsAtZ
  rw [this dims hk]
  rfl

/-- with nonnegative dimensions the method is the one of `Model/Projection` -/
theorem methodZ_nonneg (L : Lib) (Q : Qhull) (rand : List (Vec ℝ) → Vec ℝ) (fuel : ℕ) (A : Mat ℝ) (b : Vec ℝ) (dims : List ℕ) :
    Geom.convex_hull_methodZ L Q rand fuel A b (dims.map fun i : ℕ => (i : ℤ)) = Geom.convex_hull_method L Q rand fuel A b dims := by
  have e : Geom.colsAtZ A (dims.map fun i : ℕ => (i : ℤ)) = Geom.colsAt A dims := by
    by_cases h : ∀ i ∈ dims, i < A.nc
    · rw [colsAtZ_ok fun i hi => by
        obtain ⟨j, hj, rfl⟩ := List.mem_map.1 hi
        have := h j hj
        omega]
      unfold Geom.colsAt
      rw [if_pos h, List.map_map, show (pos A.nc ∘ fun i : ℕ => (i : ℤ)) = id from funext fun i => pos_natCast _ _, List.map_id]
    · unfold Geom.colsAt
      rw [if_neg h]
      push Not at h
      obtain ⟨i, hi, hlt⟩ := h
      exact colsAtZ_error (k := (i : ℤ)) (List.mem_map.2 ⟨i, hi, rfl⟩) (Or.inr (by omega))
  unfold Geom.convex_hull_methodZ Geom.convex_hull_method
  rw [e]
  simp

theorem happ_left {X Y : Mat ℝ} {k m : ℕ} (h : m < X.nc) : (X.happ Y).e k m = X.e k m := if_pos h

theorem happ_right {X Y : Mat ℝ} {k m : ℕ} (h : ¬ m < X.nc) : (X.happ Y).e k m = Y.e k (m - X.nc) := if_neg h

/-- a negative first dimension: its column is there twice, and the first coordinate is unbounded -/
theorem methodZ_neg {L : Lib} (hL : LibSpec L) (Q : Qhull) (rand : List (Vec ℝ) → Vec ℝ) (fuel : ℕ) {A : Mat ℝ} {b : Vec ℝ} (hb : b.n = A.nr) (hr : 0 < A.nr)
    {i : ℤ} {dims : List ℤ} (hi : i < 0) (hd : ∀ k ∈ i :: dims, -(A.nc : ℤ) ≤ k ∧ k < A.nc) :
    Geom.convex_hull_methodZ L Q rand fuel A b (i :: dims) = .error .typeError := by
  set dr := (List.range A.nc).filter fun k : ℕ => (k : ℤ) ∉ i :: dims with hdr
  set l := (i :: dims).map (pos A.nc) with hl
  have e1 := colsAtZ_ok hd
  have e2 : Geom.colsAt A dr = .ok (A.cols dr) := if_pos fun k hk => List.mem_range.1 (List.mem_filter.1 hk).1
  have e3 : np.hstack [A.cols l, A.cols dr] = .ok ((A.cols l).happ (A.cols dr)) := if_pos rfl
  unfold Geom.convex_hull_methodZ
  rw [e1, Py.ok_bind, ← hdr, e2, Py.ok_bind, ← hl, e3, Py.ok_bind]
  have hll : l.length = dims.length + 1 := by simp [hl]
  have hj : pos A.nc i = (A.nc + i).toNat := by
    unfold pos
    rw [if_neg (by omega)]
  have hv := hd i (by simp)
  have hj' : (pos A.nc i : ℤ) = A.nc + i := by rw [hj, Int.toNat_of_nonneg (by omega)]
  have l0 : l.getD 0 0 = pos A.nc i := by simp [hl]
  have key : ∃ m, 0 < m ∧ m < l.length + dr.length ∧ ∀ k < A.nr, ((A.cols l).happ (A.cols dr)).e k m = ((A.cols l).happ (A.cols dr)).e k 0 := by
    have c0 : ∀ k, ((A.cols l).happ (A.cols dr)).e k 0 = A.e k (pos A.nc i) := fun k => by
      rw [happ_left (show 0 < l.length by omega)]
      show A.e k (l.getD 0 0) = _
      rw [l0]
    by_cases hin : (pos A.nc i : ℤ) ∈ i :: dims
    · have hin : (pos A.nc i : ℤ) ∈ dims := (List.mem_cons.1 hin).resolve_left (by omega)
      obtain ⟨t, ht, hte⟩ := List.getElem_of_mem hin
      refine ⟨t + 1, by omega, by omega, fun k _ => ?_⟩
      rw [c0]
      rw [happ_left (show t + 1 < l.length by omega)]
      show A.e k (l.getD (t + 1) 0) = _
      rw [List.getD_eq_getElem _ 0 (by omega)]
      congr 1
      simp only [hl, List.map_cons, List.getElem_cons_succ, List.getElem_map, hte]
      exact pos_natCast _ _
    · have hmem : pos A.nc i ∈ dr := List.mem_filter.2 ⟨List.mem_range.2 (by omega), by simpa using hin⟩
      obtain ⟨t, ht, hte⟩ := List.getElem_of_mem hmem
      refine ⟨l.length + t, by omega, by omega, fun k _ => ?_⟩
      rw [c0]
      rw [happ_right (show ¬ l.length + t < l.length by omega)]
      show A.e k (dr.getD (l.length + t - l.length) 0) = _
      rw [Nat.add_sub_cancel_left, List.getD_eq_getElem _ 0 ht, hte]
  obtain ⟨m, m0, m1, m2⟩ := key
  unfold Geom.hullMethod
  rw [twoVertices_dup hL (A := (A.cols l).happ (A.cols dr)) hb hr m0 m1 m2]
  rfl

/-- C141, what holds: `add_lower_bound` and `add_upper_bound` apply to the coordinates `i < n` with `i in indices` (`l'`, in increasing order) and raise
`ValueError` if there are not as many bounds, and `add_bounds` applies both; with natural numbers `project_to` is the method of C22, a negative first
dimension raises `TypeError`, and one out of range `IndexError`.
Missing with respect to C141: negative indices count from the end (false, see `C141_false`). -/
theorem C141_partial (L : Lib) (hL : LibSpec L) (Q : Qhull) (rand : List (Vec ℝ) → Vec ℝ) (fuel : ℕ) (n : ℕ) (p : Poly) (hp : p.Inv n) :
    (∀ (l : List ℤ) (l' : List ℕ) (v : Vec ℝ), Spec.Increasing n l' → (∀ i < n, i ∈ l' ↔ (i : ℤ) ∈ l) →
      (v.n = l'.length → ∃ q r, Poly.add_lower_boundZ (.arr (.d1 v)) (some l) p = (.ok (), q) ∧ Poly.add_upper_boundZ (.arr (.d1 v)) (some l) p = (.ok (), r) ∧
        (∀ x, q.Mem x ↔ p.Mem x ∧ ∀ k < l'.length, v.e k ≤ x (l'.getD k 0)) ∧ ∀ x, r.Mem x ↔ p.Mem x ∧ ∀ k < l'.length, x (l'.getD k 0) ≤ v.e k) ∧
      (v.n ≠ l'.length → Poly.add_lower_boundZ (.arr (.d1 v)) (some l) p = (.error .valueError, p) ∧
        Poly.add_upper_boundZ (.arr (.d1 v)) (some l) p = (.error .valueError, p)) ∧
      (v.n = l'.length → ∀ w : Vec ℝ, w.n = l'.length → ∃ q, Poly.add_boundsZ (.arr (.d1 v)) (.arr (.d1 w)) (some l) p = (.ok (), q) ∧
        ∀ x, q.Mem x ↔ p.Mem x ∧ ∀ k < l'.length, v.e k ≤ x (l'.getD k 0) ∧ x (l'.getD k 0) ≤ w.e k)) ∧
    (∀ dims : List ℕ, Poly.project_toZ L Q rand fuel (dims.map fun i : ℕ => (i : ℤ)) = Poly.project_to L Q rand fuel dims) ∧
    (p.EmptyOk L → p._bounded = none → Spec.NearPoint n p.A p.b p.C p.d → Spec.IsBounded n p.A p.b p.C p.d → p.C.nr = 0 → 0 < p.A.nr →
      (∀ (i : ℤ) (dims : List ℤ), i < 0 → (∀ k ∈ i :: dims, -(n : ℤ) ≤ k ∧ k < n) →
        ∃ q, Poly.project_toZ L Q rand fuel (i :: dims) p = (.error .typeError, q) ∧ q.A = p.A ∧ q.b = p.b ∧ q.C = p.C ∧ q.d = p.d) ∧
      (0 < n → ∀ dims : List ℤ, (∃ k ∈ dims, k < -(n : ℤ) ∨ n ≤ k) → ∃ q, Poly.project_toZ L Q rand fuel dims p = (.error .indexError, q))) := by
  refine ⟨fun l l' v hl' hm => ?_, fun dims => ?_, fun hc hb hne hbd hC hr => ⟨fun i dims hi hd => ?_, fun hn dims hd => ?_⟩⟩
  · have hs : Poly.sel n (some (nonneg l)) = l' := by
      rw [← Poly.sel_some hl']
      simp only [Poly.sel, Option.getD_some]
      refine List.filter_congr fun i hi => ?_
      rw [decide_eq_decide, mem_nonneg]
      exact (hm i (List.mem_range.1 hi)).symm
    have hS : (Poly.selectionMatrix n (some (nonneg l))).nr = l'.length := by
      rw [← hs]
      rfl
    have hnr : (Poly.sel n none).length = n := by rw [Poly.sel_none, List.length_range]
    have lower : ∀ {p : Poly} {v : Vec ℝ}, p.Inv n → v.n = l'.length → ∃ q, Poly.add_lower_boundZ (.arr (.d1 v)) (some l) p = (.ok (), q) ∧ q.Inv n ∧
        ∀ x, q.Mem x ↔ p.Mem x ∧ ∀ k < l'.length, v.e k ≤ x (l'.getD k 0) := fun {p v} hp hv => by
      have h1 : ∃ q, Poly.add_lower_bound (.arr (.d1 v)) (some (nonneg l)) p = (.ok (), q) := by
        rw [Poly.add_lower_bound_eq, hp.1, Poly.add_inequality_run, if_neg, if_neg]
        · exact ⟨_, rfl⟩
        · rw [hp.1, hnr]; exact fun h => h rfl
        · exact fun h => h (hS.trans hv.symm)
      obtain ⟨q, h1⟩ := h1
      obtain ⟨k0, w, k1, -, k2⟩ := Poly.add_lower_bound_spec hp _ _ q h1
      cases k1
      rw [hs] at k2
      exact ⟨q, by rw [add_lower_boundZ_eq]; exact h1, k0, k2⟩
    have upper : ∀ {p : Poly} {v : Vec ℝ}, p.Inv n → v.n = l'.length → ∃ q, Poly.add_upper_boundZ (.arr (.d1 v)) (some l) p = (.ok (), q) ∧ q.Inv n ∧
        ∀ x, q.Mem x ↔ p.Mem x ∧ ∀ k < l'.length, x (l'.getD k 0) ≤ v.e k := fun {p v} hp hv => by
      have h1 : ∃ q, Poly.add_upper_bound (.arr (.d1 v)) (some (nonneg l)) p = (.ok (), q) := by
        rw [Poly.add_upper_bound_eq, hp.1, Poly.add_inequality_run, if_neg, if_neg]
        · exact ⟨_, rfl⟩
        · rw [hp.1, hnr]; exact fun h => h rfl
        · exact fun h => h (hS.trans hv.symm)
      obtain ⟨q, h1⟩ := h1
      obtain ⟨k0, w, k1, -, k2⟩ := Poly.add_upper_bound_spec hp _ _ q h1
      cases k1
      rw [hs] at k2
      exact ⟨q, by rw [add_upper_boundZ_eq]; exact h1, k0, k2⟩
    refine ⟨fun hv => ?_, fun hv => ?_, fun hv w hw => ?_⟩
    · obtain ⟨q, h1, -, h2⟩ := lower hp hv
      obtain ⟨r, h3, -, h4⟩ := upper hp hv
      exact ⟨q, r, h1, h3, h2, h4⟩
    · rw [add_lower_boundZ_eq, add_upper_boundZ_eq]
      constructor
      · rw [Option.map_some, Poly.add_lower_bound_eq, hp.1, Poly.add_inequality_run, if_pos]
        exact fun h => hv (h.symm.trans hS)
      · rw [Option.map_some, Poly.add_upper_bound_eq, hp.1, Poly.add_inequality_run, if_pos]
        exact fun h => hv (h.symm.trans hS)
    · obtain ⟨q, h1, h2, h3⟩ := lower hp hv
      obtain ⟨r, h4, -, h5⟩ := upper h2 hw
      refine ⟨r, ?_, fun x => ?_⟩
      · unfold Poly.add_boundsZ
        rw [PyM.bind_ok h1]
        exact h4
      · rw [h5, h3, and_assoc]
        exact and_congr_right fun _ => ⟨fun h k hk => ⟨h.1 k hk, h.2 k hk⟩, fun h => ⟨fun k hk => (h k hk).1, fun k hk => (h k hk).2⟩⟩
  · unfold Poly.project_toZ Poly.project_to
    simp only [methodZ_nonneg]
  · have hn : 0 < n := by
      have := hd i (by simp)
      omega
    obtain ⟨q, q1, q2, q3, q4, -, q6, -⟩ := projectWith_run hL hp (Or.inl hr) hn hc hne (Or.inl ⟨hb, hbd⟩) hC
      fun A b => Geom.convex_hull_methodZ L Q rand fuel A b (i :: dims)
    exact ⟨q, q6 _ (methodZ_neg hL Q rand fuel hp.2.1 hr hi (by rw [hp.1]; exact hd)), q1, q2, q3, q4⟩
  · obtain ⟨k, hk, hlt⟩ := hd
    obtain ⟨q, -, -, -, -, -, q6, -⟩ := projectWith_run hL hp (Or.inl hr) hn hc hne (Or.inl ⟨hb, hbd⟩) hC
      fun A b => Geom.convex_hull_methodZ L Q rand fuel A b dims
    refine ⟨q, q6 _ ?_⟩
    show Geom.convex_hull_methodZ L Q rand fuel p.A p.b dims = _
    unfold Geom.convex_hull_methodZ
    rw [colsAtZ_error hk (by rw [hp.1]; exact hlt)]
    rfl

/-- the square `[0, 1]^2` -/
def unitSquare : Poly := Poly.fresh ⟨4, 2, fun i j => if i = j then 1 else if i = j + 2 then -1 else 0⟩ ⟨4, fun i => if i < 2 then 1 else 0⟩ (Mat.zeros 0 2) (Vec.zeros 0)

theorem unitSquare_mem (x : ℕ → ℝ) : unitSquare.Mem x ↔ ∀ j < 2, 0 ≤ x j ∧ x j ≤ 1 := by
  have heq : Spec.EqHold unitSquare.C unitSquare.d x := fun i hi => absurd hi (Nat.not_lt_zero i)
  constructor
  · rintro ⟨h, -⟩ j hj
    have h1 := h j (by show j < 4; omega)
    have h2 := h (j + 2) (by show j + 2 < 4; omega)
    simp only [unitSquare, Poly.fresh, Finset.sum_range_succ, Finset.sum_range_zero, zero_add] at h1 h2
    interval_cases j <;> norm_num at h1 h2 <;> constructor <;> linarith
  · intro h
    refine ⟨fun i hi => ?_, heq⟩
    have h0 := h 0 (by norm_num)
    have h1 := h 1 (by norm_num)
    have : i < 4 := hi
    simp only [unitSquare, Poly.fresh, Spec.rowVal, Finset.sum_range_succ, Finset.sum_range_zero, zero_add]
    interval_cases i <;> norm_num <;> linarith

/-- C141 is false of the code: in the plane the coordinates `[0, -1]` are all the coordinates, but `add_lower_bound([0, 0], [0, -1])` raises; with one bound it
is accepted and the last coordinate is not bounded; and the unit square is not projected on `[-1]`. -/
theorem C141_false : ∃ p : Poly, p.Inv 2 ∧
    (∀ v : Vec ℝ, v.n = 2 → Poly.add_lower_boundZ (.arr (.d1 v)) (some [0, -1]) p = (.error .valueError, p)) ∧
    (∃ q x, Poly.add_lower_boundZ (.arr (.d1 ⟨1, fun _ => 1⟩)) (some [0, -1]) p = (.ok (), q) ∧ q.Mem x ∧ x 1 < 1) ∧
    ∀ L, LibSpec L → ∀ Q rand fuel, ∃ q, Poly.project_toZ L Q rand fuel [-1] p = (.error .typeError, q) := by
  have hinv : unitSquare.Inv 2 := ⟨rfl, rfl, rfl, rfl⟩
  obtain ⟨L0, hL0⟩ := exists_lib
  have hl : ∀ i : ℕ, i < 2 → (i ∈ [0] ↔ (i : ℤ) ∈ [(0 : ℤ), -1]) := fun i _ => by
    simp
  have h1 := fun v => (C141_partial L0 hL0 ⟨fun _ => .error .valueError, fun _ _ => .error .valueError⟩ (fun _ => Vec.zeros 0) 0 2 unitSquare hinv).1 [0, -1] [0] v
    ⟨by simp, by simp⟩ hl
  refine ⟨unitSquare, hinv, fun v hv => ((h1 v).2.1 (by rw [hv]; simp)).1, ?_, fun L hL Q rand fuel => ?_⟩
  · obtain ⟨q, -, k1, -, k2, -⟩ := (h1 ⟨1, fun _ => 1⟩).1 rfl
    refine ⟨q, fun j => if j = 0 then 1 else 0, k1, (k2 _).2 ⟨(unitSquare_mem _).2 fun j _ => ?_, fun k hk => ?_⟩, by norm_num⟩
    · split_ifs <;> norm_num
    · have : k = 0 := by simpa using hk
      subst this
      simp
  · obtain ⟨q, k, -⟩ := ((C141_partial L hL Q rand fuel 2 unitSquare hinv).2.2 (fun e h => by cases h) rfl
      ⟨fun _ => 0, (unitSquare_mem _).2 (by norm_num), by norm_num⟩ ⟨1, fun x hx j hj => abs_le.2 ⟨by linarith [((unitSquare_mem x).1 hx j hj).1], ((unitSquare_mem x).1 hx j hj).2⟩⟩
      rfl (by show 0 < 4; norm_num)).1 (-1) [] (by norm_num) (by simp)
    exact ⟨q, k⟩

end Verif.Props
