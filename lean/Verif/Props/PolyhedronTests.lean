import Verif.Model.TestSuite
import Verif.Props.PolyhedronBounded
import Verif.Proofs.Mcais

/- Tests of `/repo/pympc/test/test_geometry/test_polyhedron.py` pass (C158). -/
namespace Verif.Props
open Finset Spec TestSuite

/-- the polyhedron is in `n` dimensions, its inequalities are `I` and its equalities `E`, as functions with right-hand sides -/
structure Rep (n : ℕ) (p : Poly) (I E : List (((ℕ → ℝ) → ℝ) × ℝ)) : Prop where
  inv : p.Inv n
  ineq : (List.range p.A.nr).map (fun i => (rowVal p.A i, p.b.e i)) = I
  eqs : (List.range p.C.nr).map (fun i => (rowVal p.C i, p.d.e i)) = E

theorem rep_forall {m : ℕ} {A : Mat ℝ} {b : Vec ℝ} {I : List (((ℕ → ℝ) → ℝ) × ℝ)} (h : (List.range m).map (fun i => (rowVal A i, b.e i)) = I)
    (P : ℝ → ℝ → Prop) (z : ℕ → ℝ) : (∀ i < m, P (rowVal A i z) (b.e i)) ↔ ∀ r ∈ I, P (r.1 z) r.2 := by
  subst h
  simp

theorem Rep.mem {n : ℕ} {p : Poly} {I E} (h : Rep n p I E) (z : ℕ → ℝ) : p.Mem z ↔ (∀ r ∈ I, r.1 z ≤ r.2) ∧ ∀ r ∈ E, r.1 z = r.2 := by
  rw [← rep_forall h.ineq (· ≤ ·) z, ← rep_forall h.eqs (· = ·) z]
  rfl

theorem Rep.len {n : ℕ} {p : Poly} {I E} (h : Rep n p I E) : p.A.nr = I.length ∧ p.C.nr = E.length := by
  constructor
  · rw [← h.ineq]; simp
  · rw [← h.eqs]; simp

theorem Rep.within {n : ℕ} {p : Poly} {I E} (h : Rep n p I E) (tol : ℝ) (z : ℕ → ℝ) :
    WithinTol p.A p.b p.C p.d tol z ↔ (∀ r ∈ I, r.1 z ≤ r.2 + tol) ∧ ∀ r ∈ E, |r.1 z - r.2| ≤ tol := by
  rw [← rep_forall h.ineq (fun a b => a ≤ b + tol) z, ← rep_forall h.eqs (fun a b => |a - b| ≤ tol) z]
  rfl

/-- the rows after an addition -/
theorem rep_append {n : ℕ} {A F : Mat ℝ} {b v : Vec ℝ} {idx} {I : List (((ℕ → ℝ) → ℝ) × ℝ)} (hA : A.nc = n) (hb : b.n = A.nr) (hF : F.nc = (Poly.sel n idx).length)
    (h : (List.range A.nr).map (fun i => (rowVal A i, b.e i)) = I) :
    (List.range (A.vapp (F.mul (Poly.selectionMatrix n idx))).nr).map (fun i => (rowVal (A.vapp (F.mul (Poly.selectionMatrix n idx))) i, (b.append v).e i)) =
      I ++ (List.range F.nr).map (fun i => ((fun z => ∑ k ∈ range F.nc, F.e i k * z ((Poly.sel n idx).getD k 0)), v.e i)) := by
  rw [Mat.vapp_nr, Mat.mul_nr, List.range_add, List.map_append, ← h]
  congr 1
  · refine List.map_congr_left fun i hi => ?_
    have hi := List.mem_range.1 hi
    refine Prod.ext (funext fun z => ?_) ?_
    · show ∑ j ∈ range A.nc, (A.vapp (F.mul (Poly.selectionMatrix n idx))).e i j * z j = ∑ j ∈ range A.nc, A.e i j * z j
      exact Finset.sum_congr rfl fun j _ => by rw [Mat.vapp_e_lt _ _ _ hi]
    · exact Vec.append_e_lt _ _ (by omega)
  · rw [List.map_map]
    refine List.map_congr_left fun i _ => ?_
    refine Prod.ext (funext fun z => ?_) ?_
    · show ∑ j ∈ range A.nc, (A.vapp (F.mul (Poly.selectionMatrix n idx))).e (A.nr + i) j * z j = ∑ k ∈ range F.nc, F.e i k * z ((Poly.sel n idx).getD k 0)
      rw [← Poly.mulSel F idx hF z i, hA]
      exact Finset.sum_congr rfl fun j _ => by rw [Mat.vapp_e_add]
    · show (b.append v).e (A.nr + i) = v.e i
      rw [← hb, Vec.append_e_add]

theorem rep_ineq {n : ℕ} {p : Poly} {I E} (h : Rep n p I E) {F : Mat ℝ} {f : Vec ℝ} {idx} (hf : f.n = F.nr) (hF : F.nc = (Poly.sel n idx).length) :
    ∃ q, Poly.runOn p (Poly.add_inequality F (.d1 f) idx) = .ok q ∧ q = Poly.fresh q.A q.b q.C q.d ∧
      Rep n q (I ++ (List.range F.nr).map (fun i => ((fun z => ∑ k ∈ range F.nc, F.e i k * z ((Poly.sel n idx).getD k 0)), f.e i))) E := by
  have k := (Poly.add_inequality_ok h.inv F (.d1 f) idx _).2 ⟨f, rfl, hf, hF, rfl⟩
  exact ⟨_, runOn_ok.2 k, rfl, (Poly.add_inequality_spec h.inv k).1, rep_append h.inv.1 h.inv.2.1 hF h.ineq, h.eqs⟩

theorem rep_eq {n : ℕ} {p : Poly} {I E} (h : Rep n p I E) {F : Mat ℝ} {f : Vec ℝ} {idx} (hf : f.n = F.nr) (hF : F.nc = (Poly.sel n idx).length) :
    ∃ q, Poly.runOn p (Poly.add_equality F (.d1 f) idx) = .ok q ∧ q = Poly.fresh q.A q.b q.C q.d ∧
      Rep n q I (E ++ (List.range F.nr).map (fun i => ((fun z => ∑ k ∈ range F.nc, F.e i k * z ((Poly.sel n idx).getD k 0)), f.e i))) := by
  have k := (Poly.add_equality_ok h.inv F (.d1 f) idx _).2 ⟨f, rfl, hf, hF, rfl⟩
  exact ⟨_, runOn_ok.2 k, rfl, (Poly.add_equality_spec h.inv k).1, h.ineq, rep_append h.inv.2.2.1 h.inv.2.2.2 hF h.eqs⟩

/-- the rows of a lower or upper bound -/
theorem bound_rows (n : ℕ) (idx) (s : ℝ) (v : Vec ℝ) (F : Mat ℝ) (hr : F.nr = (Poly.sel n idx).length) (hc : F.nc = n) (hF : ∀ i j, F.e i j = s * (Poly.selectionMatrix n idx).e i j) :
    (List.range F.nr).map (fun i => ((fun z : ℕ → ℝ => ∑ k ∈ range F.nc, F.e i k * z ((Poly.sel n none).getD k 0)), v.e i)) =
      (List.range (Poly.sel n idx).length).map (fun i => ((fun z : ℕ → ℝ => s * z ((Poly.sel n idx).getD i 0)), v.e i)) := by
  rw [hr]
  refine List.map_congr_left fun i hi => ?_
  have hi := List.mem_range.1 hi
  refine Prod.ext (funext fun z => ?_) rfl
  show ∑ k ∈ range F.nc, F.e i k * z ((Poly.sel n none).getD k 0) = s * z ((Poly.sel n idx).getD i 0)
  rw [← Poly.negSel idx z i hi, Finset.mul_sum, hc]
  refine Finset.sum_congr rfl fun k hk => ?_
  rw [hF, Poly.sel_none, Poly.getD_range (mem_range.1 hk), mul_assoc]

theorem rep_lower {n : ℕ} {p : Poly} {I E} (h : Rep n p I E) (v : Vec ℝ) (idx) (hv : v.n = (Poly.sel n idx).length) :
    ∃ q, Poly.runOn p (Poly.add_lower_bound (.arr (.d1 v)) idx) = .ok q ∧ q = Poly.fresh q.A q.b q.C q.d ∧
      Rep n q (I ++ (List.range (Poly.sel n idx).length).map (fun i => ((fun z : ℕ → ℝ => -1 * z ((Poly.sel n idx).getD i 0)), -v.e i))) E := by
  have hs : (Poly.sel n none).length = n := by rw [Poly.sel_none]; simp
  obtain ⟨q, h1, h2, h3⟩ := rep_ineq h (F := (Poly.selectionMatrix n idx).neg) (f := v.neg) (idx := none) hv (by rw [hs]; rfl)
  rw [bound_rows n idx (-1) v.neg _ rfl rfl (fun i j => (neg_one_mul _).symm)] at h3
  refine ⟨q, ?_, h2, h3⟩
  rw [← h1]
  unfold Poly.runOn
  rw [Poly.add_lower_bound_eq, h.inv.1]
  rfl

theorem rep_upper {n : ℕ} {p : Poly} {I E} (h : Rep n p I E) (v : Vec ℝ) (idx) (hv : v.n = (Poly.sel n idx).length) :
    ∃ q, Poly.runOn p (Poly.add_upper_bound (.arr (.d1 v)) idx) = .ok q ∧ q = Poly.fresh q.A q.b q.C q.d ∧
      Rep n q (I ++ (List.range (Poly.sel n idx).length).map (fun i => ((fun z : ℕ → ℝ => 1 * z ((Poly.sel n idx).getD i 0)), v.e i))) E := by
  have hs : (Poly.sel n none).length = n := by rw [Poly.sel_none]; simp
  obtain ⟨q, h1, h2, h3⟩ := rep_ineq h (F := Poly.selectionMatrix n idx) (f := v) (idx := none) hv (by rw [hs]; rfl)
  rw [bound_rows n idx 1 v _ rfl rfl (fun i j => (one_mul _).symm)] at h3
  refine ⟨q, ?_, h2, h3⟩
  rw [← h1]
  unfold Poly.runOn
  rw [Poly.add_upper_bound_eq, h.inv.1]
  rfl

theorem rep_empty (n : ℕ) : Rep n (Poly.fresh (Mat.zeros 0 n) (Vec.zeros 0) (Mat.zeros 0 n) (Vec.zeros 0)) [] [] := ⟨Poly.empty_inv n, rfl, rfl⟩

theorem rep_from_lower (n : ℕ) (v : Vec ℝ) (idx) (N) (hN : N = some n ∨ (N = none ∧ idx = none ∧ n = v.n)) (hv : v.n = (Poly.sel n idx).length) :
    ∃ q, Poly.from_lower_bound (.arr (.d1 v)) idx N = .ok q ∧ q = Poly.fresh q.A q.b q.C q.d ∧
      Rep n q ((List.range (Poly.sel n idx).length).map (fun i => ((fun z : ℕ → ℝ => -1 * z ((Poly.sel n idx).getD i 0)), -v.e i))) [] := by
  obtain ⟨q, h1, h2, h3⟩ := rep_lower (rep_empty n) v idx hv
  refine ⟨q, ?_, h2, h3⟩
  rw [← h1]
  rcases hN with rfl | ⟨rfl, rfl, rfl⟩
  · unfold Poly.from_lower_bound
    rw [show Poly.checkN idx (some n) = .ok () from if_neg (by simp), Py.ok_bind]
    rfl
  · rfl

theorem rep_from_bounds (n : ℕ) (v w : Vec ℝ) (idx) (N) (hN : N = some n ∨ (N = none ∧ idx = none ∧ n = v.n)) (hv : v.n = (Poly.sel n idx).length) (hw : w.n = v.n) :
    ∃ q, Poly.from_bounds (.arr (.d1 v)) (.arr (.d1 w)) idx N = .ok q ∧ q = Poly.fresh q.A q.b q.C q.d ∧
      Rep n q ((List.range (Poly.sel n idx).length).map (fun i => ((fun z : ℕ → ℝ => -1 * z ((Poly.sel n idx).getD i 0)), -v.e i)) ++
        (List.range (Poly.sel n idx).length).map (fun i => ((fun z : ℕ → ℝ => 1 * z ((Poly.sel n idx).getD i 0)), w.e i))) [] := by
  obtain ⟨q, h1, h2, h3⟩ := rep_lower (rep_empty n) v idx hv
  obtain ⟨r, r1, r2, r3⟩ := rep_upper h3 w idx (hw.trans hv)
  refine ⟨r, ?_, r2, r3⟩
  have e : Poly.runOn (Poly.fresh (Mat.zeros 0 n) (Vec.zeros 0) (Mat.zeros 0 n) (Vec.zeros 0)) (Poly.add_bounds (.arr (.d1 v)) (.arr (.d1 w)) idx) = .ok r := by
    rw [runOn_ok] at h1 r1 ⊢
    unfold Poly.add_bounds
    rw [PyM.bind_ok h1]
    exact r1
  rw [← e]
  unfold Poly.from_bounds
  rcases hN with rfl | ⟨rfl, rfl, rfl⟩
  · rw [show Poly.checkN idx (some n) = .ok () from if_neg (by simp), Py.ok_bind]
    show (if v.n ≠ w.n then _ else _) = _
    rw [if_neg (by simp [hw])]
    rfl
  · rw [show Poly.checkN none none = .ok () from rfl, Py.ok_bind]
    show (if v.n ≠ w.n then _ else _) = _
    rw [if_neg (by simp [hw])]
    rfl

theorem fresh_emptyOk {L : Lib} {p : Poly} (h : p = Poly.fresh p.A p.b p.C p.d) : p.EmptyOk L := fun e he => by
  rw [h] at he
  cases he

theorem fresh_bounded {p : Poly} (h : p = Poly.fresh p.A p.b p.C p.d) : p._bounded = none := by
  rw [h]
  rfl

/-- `empty` on a polyhedron with a point near the origin -/
theorem ask_empty_false {L : Lib} (hL : LibSpec L) {n : ℕ} {p : Poly} {I E} (h : Rep n p I E) (hf : p = Poly.fresh p.A p.b p.C p.d) (hI : 0 < I.length) (z : ℕ → ℝ)
    (hz : (∀ r ∈ I, r.1 z ≤ r.2) ∧ ∀ r ∈ E, r.1 z = r.2) (hn : ∑ i ∈ range n, z i ^ 2 < 1 / (1e-7 : ℝ) ^ 2 - 1) :
    ∃ q, ask p (Poly.empty L) = .ok (false, q) ∧ Rep n q I E := by
  obtain ⟨e, h1, h2⟩ := C16_partial L hL n p h.inv (Or.inl (by rw [h.len.1]; exact hI)) (fresh_emptyOk hf)
  cases e with
  | false => exact ⟨{ p with _empty := some false }, by unfold ask; rw [h1], h.inv, h.ineq, h.eqs⟩
  | true =>
    have := h2.1 rfl z ((h.mem z).2 hz)
    exact absurd this (not_le.2 (Real.sqrt_lt_sqrt (Finset.sum_nonneg fun _ _ => sq_nonneg _) hn))

/-- `empty` on a polyhedron without points -/
theorem ask_empty_true {L : Lib} (hL : LibSpec L) {n : ℕ} {p : Poly} {I E} (h : Rep n p I E) (hf : p = Poly.fresh p.A p.b p.C p.d)
    (hz : ∀ z, (∀ r ∈ I, r.1 z ≤ r.2) → (∀ r ∈ E, r.1 z = r.2) → False) : ∃ q, ask p (Poly.empty L) = .ok (true, q) := by
  obtain ⟨q, h1⟩ := (C15 L hL n p h.inv (fresh_emptyOk hf)).2.1 fun z k => hz z ((h.mem z).1 k).1 ((h.mem z).1 k).2
  exact ⟨q, by unfold ask; rw [h1]⟩

/-- `bounded` on a polyhedron without points -/
theorem ask_bounded_empty {L : Lib} (hL : LibSpec L) {n : ℕ} {p : Poly} {I E} (h : Rep n p I E) (hf : p = Poly.fresh p.A p.b p.C p.d)
    (hz : ∀ z, (∀ r ∈ I, r.1 z ≤ r.2) → (∀ r ∈ E, r.1 z = r.2) → False) : ∃ q, ask p (Poly.bounded L) = .ok (true, q) := by
  obtain ⟨q, h1⟩ := (C17 L hL n p h.inv (fresh_emptyOk hf) (fresh_bounded hf)).2.1 fun ⟨z, k, _⟩ => hz z ((h.mem z).1 k).1 ((h.mem z).1 k).2
  exact ⟨q, by unfold ask; rw [h1]⟩

/-- `bounded` on a polyhedron with a point near the origin, if it is bounded in all directions, or has a line or an edge direction that recedes enough -/
theorem ask_bounded {L : Lib} (hL : LibSpec L) {n : ℕ} {p : Poly} {I E} (h : Rep n p I E) (hf : p = Poly.fresh p.A p.b p.C p.d) (hI : 0 < I.length) (hn : 0 < n) (z : ℕ → ℝ)
    (hz : (∀ r ∈ I, r.1 z ≤ r.2) ∧ ∀ r ∈ E, r.1 z = r.2) (hs : ∑ i ∈ range n, z i ^ 2 < 1 / (1e-7 : ℝ) ^ 2 - 1) :
    ((∃ R, ∀ w, (∀ r ∈ I, r.1 w ≤ r.2) → (∀ r ∈ E, r.1 w = r.2) → ∀ j < n, |w j| ≤ R) →
      ∃ q, ask p (Poly.bounded L) = .ok (true, q) ∧ Rep n q I E) ∧
    ∀ v : ℕ → ℝ, (∀ r ∈ I, r.1 v ≤ 0) → (∀ r ∈ E, r.1 v = 0) → (∃ j < n, v j ≠ 0) →
      ((∀ r ∈ I, r.1 v = 0) ∨ 2e-7 * ∑ j ∈ range n, |v j| < (I.map fun r => |r.1 v|).sum) → ∃ q, ask p (Poly.bounded L) = .ok (false, q) ∧ Rep n q I E := by
  have hne : NearPoint n p.A p.b p.C p.d := ⟨z, (h.mem z).2 hz, hs⟩
  have hrows : 0 < p.A.nr := by rw [h.len.1]; exact hI
  have hio := (C17 L hL n p h.inv (fresh_emptyOk hf) (fresh_bounded hf)).1 (Or.inl hrows) hn hne
  have st : ∀ {r q}, Poly.bounded L p = (.ok r, q) → Rep n q I E := by
    intro r q hq
    obtain ⟨a1, a2, a3, a4, -⟩ := Dyn.bounded_state hL h.inv (fresh_emptyOk hf) hne hq
    refine ⟨?_, ?_, ?_⟩
    · have := h.inv
      unfold Poly.Inv at this ⊢
      rw [a1, a2, a3, a4]
      exact this
    · rw [a1, a2]; exact h.ineq
    · rw [a3, a4]; exact h.eqs
  constructor
  · rintro ⟨R, hR⟩
    have hb : IsBounded n p.A p.b p.C p.d := ⟨R, fun w hw => hR w ((h.mem w).1 hw).1 ((h.mem w).1 hw).2⟩
    have hw : WellScaled 2e-7 n p.A p.C := by
      rintro ⟨v, hv, j, hj, hne'⟩
      exact absurd ((Poly.isBounded_iff h.inv ((h.mem z).2 hz)).1 hb v hv j hj) hne'
    obtain ⟨r, q, h1, h2⟩ := hio hw
    rw [h2.2 hb] at h1
    exact ⟨q, by unfold ask; rw [h1], st h1⟩
  · intro v v1 v2 v3 v4
    have hrec : Recession p.A p.C v := ⟨fun i hi => (rep_forall h.ineq (fun a _ => a ≤ 0) v).2 v1 i hi, fun i hi => (rep_forall h.eqs (fun a _ => a = 0) v).2 v2 i hi⟩
    have hsum : ∑ i ∈ range p.A.nr, |rowVal p.A i v| = (I.map fun r => |r.1 v|).sum := by
      rw [← h.ineq, List.map_map, Finset.sum_range, ← List.sum_ofFn, List.ofFn_eq_map, ← List.map_coe_finRange_eq_range, List.map_map]
      rfl
    obtain ⟨r, q, h1, h2⟩ := hio fun _ => ⟨v, hrec, v3, v4.imp (fun k i hi => (rep_forall h.ineq (fun a _ => a = 0) v).2 k i hi) (fun k => by rw [hsum]; exact k)⟩
    cases r with
    | false => exact ⟨q, by unfold ask; rw [h1], st h1⟩
    | true =>
      obtain ⟨j, hj, hne'⟩ := v3
      exact absurd ((Poly.isBounded_iff h.inv ((h.mem z).2 hz)).1 (h2.1 rfl) v hrec j hj) hne'

/-- `contains` with at most one equality -/
theorem rep_contains {n : ℕ} {p : Poly} {I E} (h : Rep n p I E) (hI : 0 < I.length) (hE : E.length ≤ 1) (x : Vec ℝ) (hx : x.n = n) :
    ((∀ r ∈ I, r.1 x.e ≤ r.2 + 1e-7) → (∀ r ∈ E, |r.1 x.e - r.2| ≤ 1e-7) → p.contains x = .ok true) ∧
    ((∃ r ∈ I, r.2 + 1e-7 < r.1 x.e) ∨ (∃ r ∈ E, 1e-7 < |r.1 x.e - r.2|) → p.contains x = .ok false) := by
  obtain ⟨r, h1, h2, h3⟩ := C08_partial n p h.inv (by rw [h.len.1]; exact hI) x hx 1e-7
  have e1 : (∀ i < p.A.nr, ∑ j ∈ range n, p.A.e i j * x.e j - p.b.e i ≤ 1e-7) ↔ ∀ r ∈ I, r.1 x.e ≤ r.2 + 1e-7 := by
    rw [← rep_forall h.ineq (fun a b => a ≤ b + 1e-7) x.e]
    unfold rowVal
    rw [h.inv.1]
    exact forall₂_congr fun i _ => by rw [sub_le_iff_le_add, add_comm]
  have e2 : (∀ i < p.C.nr, |∑ j ∈ range n, p.C.e i j * x.e j - p.d.e i| ≤ 1e-7) ↔ ∀ r ∈ E, |r.1 x.e - r.2| ≤ 1e-7 := by
    rw [← rep_forall h.eqs (fun a b => |a - b| ≤ 1e-7) x.e]
    unfold rowVal
    rw [h.inv.2.2.1]
  constructor
  · intro k1 k2
    rw [h1, h2 (e1.2 k1) (e2.2 k2)]
  · intro k
    cases r with
    | false => exact h1
    | true =>
      obtain ⟨g1, -, g3⟩ := h3 rfl
      have g3 := g3 (by rw [h.len.2]; exact hE)
      rw [e1] at g1
      rw [e2] at g3
      rcases k with ⟨r, hr, hk⟩ | ⟨r, hr, hk⟩
      · exact absurd (g1 r hr) (not_le.2 hk)
      · exact absurd (g3 r hr) (not_le.2 hk)

theorem row_size_le (A : Mat ℝ) {n : ℕ} (hA : A.nc = n) (i : ℕ) (R : ℝ) (w : ℕ → ℝ) (hw : ∀ j < n, |w j| ≤ R) : |rowVal A i w| ≤ ∑ j ∈ range n, |A.e i j| * R := by
  unfold rowVal
  rw [hA]
  refine (Finset.abs_sum_le_sum_abs _ _).trans (Finset.sum_le_sum fun j hj => ?_)
  rw [abs_mul]
  exact mul_le_mul_of_nonneg_left (hw j (mem_range.1 hj)) (abs_nonneg _)

/-- `is_included_in` for a bounded polyhedron with a point -/
theorem rep_included {L : Lib} (hL : LibSpec L) {n : ℕ} {p q : Poly} {I E I' E'} (h : Rep n p I E) (h' : Rep n q I' E') (hI : 0 < I.length) (z : ℕ → ℝ)
    (hz : (∀ r ∈ I, r.1 z ≤ r.2) ∧ ∀ r ∈ E, r.1 z = r.2)
    (hb : ∃ R, ∀ w, (∀ r ∈ I, r.1 w ≤ r.2) → (∀ r ∈ E, r.1 w = r.2) → ∀ j < n, |w j| ≤ R) :
    ((∀ w, (∀ r ∈ I, r.1 w ≤ r.2) → (∀ r ∈ E, r.1 w = r.2) → (∀ r ∈ I', r.1 w ≤ r.2) ∧ ∀ r ∈ E', r.1 w = r.2) → Poly.is_included_in L p q = .ok true) ∧
    ((∃ w, (∀ r ∈ I, r.1 w ≤ r.2) ∧ (∀ r ∈ E, r.1 w = r.2) ∧ ((∃ r ∈ I', r.2 + 1e-7 < r.1 w) ∨ ∃ r ∈ E', 1e-7 < |r.1 w - r.2|)) →
      Poly.is_included_in L p q = .ok false) := by
  obtain ⟨R, hR⟩ := hb
  have hR' : ∀ w, p.Mem w → ∀ j < n, |w j| ≤ R := fun w hw => hR w ((h.mem w).1 hw).1 ((h.mem w).1 hw).2
  obtain ⟨r, h1, h2⟩ := C12_partial L hL n p q h.inv h'.inv (Or.inl (by rw [h.len.1]; exact hI)) 1e-7 ⟨z, (h.mem z).2 hz⟩
    (fun i _ => ⟨_, fun w hw => (le_abs_self _).trans (row_size_le q.A h'.inv.1 i R w (hR' w hw))⟩)
    (fun i _ => ⟨_, fun w hw => row_size_le q.C h'.inv.2.2.1 i R w (hR' w hw)⟩)
  constructor
  · intro k
    rw [h1, h2.2 fun w hw => ?_]
    rw [h'.within]
    obtain ⟨k1, k2⟩ := k w ((h.mem w).1 hw).1 ((h.mem w).1 hw).2
    exact ⟨fun r hr => (k1 r hr).trans (by norm_num), fun r hr => by rw [k2 r hr, sub_self, abs_zero]; norm_num⟩
  · rintro ⟨w, w1, w2, w3⟩
    cases r with
    | false => exact h1
    | true =>
      have := (h'.within 1e-7 w).1 (h2.1 rfl w ((h.mem w).2 ⟨w1, w2⟩))
      rcases w3 with ⟨r, hr, hk⟩ | ⟨r, hr, hk⟩
      · exact absurd (this.1 r hr) (not_le.2 hk)
      · exact absurd (this.2 r hr) (not_le.2 hk)

/-- the box `[a, b] × [a, b]` of the tests -/
theorem rep_box (a b : ℝ) : ∃ p, Poly.from_bounds (fullB 2 a) (fullB 2 b) = .ok p ∧ p = Poly.fresh p.A p.b p.C p.d ∧
    Rep 2 p [(fun z => -1 * z 0, -a), (fun z => -1 * z 1, -a), (fun z => 1 * z 0, b), (fun z => 1 * z 1, b)] [] :=
  rep_from_bounds 2 (full 2 a) (full 2 b) none none (Or.inr ⟨rfl, rfl, rfl⟩) rfl rfl

/-- the equality `x_0 + x_1 = a` -/
theorem rep_diag {p : Poly} {I E} (h : Rep 2 p I E) (a : ℝ) : ∃ q, Poly.runOn p (Poly.add_equality ones12 (.d1 (full 1 a))) = .ok q ∧ q = Poly.fresh q.A q.b q.C q.d ∧
    Rep 2 q I (E ++ [(fun z => z 0 + z 1, a)]) := by
  obtain ⟨q, h1, h2, h3⟩ := rep_eq h (F := ones12) (f := full 1 a) (idx := none) rfl rfl
  refine ⟨q, h1, h2, ?_⟩
  convert h3 using 2
  show [((fun z : ℕ → ℝ => z 0 + z 1), a)] = [((fun z : ℕ → ℝ => ∑ k ∈ range 2, (1 : ℝ) * z ((Poly.sel 2 none).getD k 0)), a)]
  congr 2
  funext z
  rw [Finset.sum_range_succ, Finset.sum_range_one, one_mul, one_mul]
  rfl

theorem test_empty_ok (L : Lib) (hL : LibSpec L) : test_empty L = .ok () := by
  obtain ⟨p, p1, p2, p3⟩ := rep_box 1 2
  obtain ⟨p', a1, a2⟩ := ask_empty_false hL p3 p2 (by simp) (fun _ => 1) (by norm_num) (by norm_num)
  obtain ⟨q, q1, q2, q3⟩ := rep_diag a2 3
  obtain ⟨q', b1, b2⟩ := ask_empty_false hL q3 q2 (by simp) (fun _ => 1.5) (by norm_num) (by norm_num)
  obtain ⟨r, r1, r2, r3⟩ := rep_upper b2 (full 1 0.5) (some [0]) rfl
  obtain ⟨r', c1⟩ := ask_empty_true hL r3 r2 (by
    intro z hz _
    have h0 := hz (fun z => -1 * z 0, -1) (by simp)
    have h1 := hz (fun z => 1 * z 0, 0.5) (List.mem_append_right _ (List.mem_singleton.2 rfl))
    simp only at h0 h1
    norm_num at h0 h1
    linarith)
  unfold test_empty
  rw [p1, Py.ok_bind, a1, Py.ok_bind]
  simp only [assertFalse, assertTrue, Bool.false_eq_true, if_false, Py.ok_bind, q1, b1]
  rw [show Poly.runOn q' (Poly.add_upper_bound (fullB 1 0.5) (some [0])) = .ok r from r1, Py.ok_bind, c1, Py.ok_bind]
  rfl

theorem test_contains_ok : test_contains = .ok () := by
  obtain ⟨p, p1, p2, p3⟩ := rep_box 1 3
  obtain ⟨q, q1, q2, q3⟩ := rep_diag p3 4
  have c := fun a => rep_contains p3 (by simp) (by simp) (full 2 a) rfl
  have d := fun a => rep_contains q3 (by simp) (by simp) (full 2 a) rfl
  have c1 := (c 2).1 (by norm_num [full]) (by norm_num [full])
  have c2 := (c 2.5).1 (by norm_num [full]) (by norm_num [full])
  have c3 := (c 3.5).2 (by norm_num [full])
  have d1 := (d 2).1 (by norm_num [full]) (by norm_num [full])
  have d2 := (d 2.5).2 (Or.inr (by norm_num [full, abs_of_pos]))
  have d3 := (d 3.5).2 (Or.inl (by norm_num [full]))
  unfold test_contains
  simp only [p1, Py.ok_bind, c1, c2, c3, q1, d1, d2, d3, assertTrue, assertFalse, Bool.false_eq_true, if_false, if_true]

/-- the boxes of the tests are bounded -/
theorem box_bounded (a b : ℝ) (J E : List (((ℕ → ℝ) → ℝ) × ℝ)) : ∃ R, ∀ w : ℕ → ℝ,
    (∀ r ∈ [((fun z : ℕ → ℝ => -1 * z 0), -a), (fun z => -1 * z 1, -a), (fun z => 1 * z 0, b), (fun z => 1 * z 1, b)] ++ J, r.1 w ≤ r.2) →
    (∀ r ∈ E, r.1 w = r.2) → ∀ j < 2, |w j| ≤ R := by
  refine ⟨|a| + |b|, fun w hw _ j hj => ?_⟩
  have h0 := hw (fun z => -1 * z 0, -a) (by simp)
  have h1 := hw (fun z => -1 * z 1, -a) (by simp)
  have h2 := hw (fun z => 1 * z 0, b) (by simp)
  have h3 := hw (fun z => 1 * z 1, b) (by simp)
  simp only [neg_mul, one_mul, neg_le_neg_iff] at h0 h1 h2 h3
  have ha := neg_abs_le a
  have hb := le_abs_self b
  have ha' := abs_nonneg a
  have hb' := abs_nonneg b
  interval_cases j <;> rw [abs_le] <;> constructor <;> linarith

theorem test_is_included_in_ok (L : Lib) (hL : LibSpec L) : test_is_included_in L = .ok () := by
  obtain ⟨p, p1, p2, p3⟩ := rep_box 1 2
  obtain ⟨q, q1, q2, q3⟩ := rep_box 0.5 2.5
  obtain ⟨r, r1, r2, r3⟩ := rep_box 0.5 1.5
  obtain ⟨s, s1, s2, s3⟩ := rep_box 0.5 2
  obtain ⟨t, t1, t2, t3⟩ := rep_lower s3 (full 2 1.5) none rfl
  obtain ⟨u, u1, u2, u3⟩ := rep_diag p3 3.5
  obtain ⟨v, v1, v2, v3⟩ := rep_diag t3 3.5
  obtain ⟨w, w1, w2, w3⟩ := rep_upper v3 (full 1 1.75) (some [1]) rfl
  have t3 : Rep 2 t ([((fun z : ℕ → ℝ => -1 * z 0), -0.5), (fun z => -1 * z 1, -0.5), (fun z => 1 * z 0, 2), (fun z => 1 * z 1, 2)] ++
    [((fun z : ℕ → ℝ => -1 * z 0), -1.5), (fun z => -1 * z 1, -1.5)]) [] := t3
  have v3 : Rep 2 v ([((fun z : ℕ → ℝ => -1 * z 0), -0.5), (fun z => -1 * z 1, -0.5), (fun z => 1 * z 0, 2), (fun z => 1 * z 1, 2)] ++
    [((fun z : ℕ → ℝ => -1 * z 0), -1.5), (fun z => -1 * z 1, -1.5)]) [(fun z => z 0 + z 1, 3.5)] := v3
  have w3 : Rep 2 w ([((fun z : ℕ → ℝ => -1 * z 0), -0.5), (fun z => -1 * z 1, -0.5), (fun z => 1 * z 0, 2), (fun z => 1 * z 1, 2)] ++
    [((fun z : ℕ → ℝ => -1 * z 0), -1.5), (fun z => -1 * z 1, -1.5), (fun z => 1 * z 1, 1.75)]) [(fun z => z 0 + z 1, 3.5)] := w3
  have u3 : Rep 2 u [((fun z : ℕ → ℝ => -1 * z 0), -1), (fun z => -1 * z 1, -1), (fun z => 1 * z 0, 2), (fun z => 1 * z 1, 2)] [(fun z => z 0 + z 1, 3.5)] := u3
  have P := fun {b I E} (h : Rep 2 b I E) => rep_included hL p3 h (by simp) (fun _ => 1.5) (by norm_num) (box_bounded 1 2 [] _)
  have Q := fun {b I E} (h : Rep 2 b I E) => rep_included hL q3 h (by simp) (fun _ => 1.5) (by norm_num) (box_bounded 0.5 2.5 [] _)
  have R := fun {b I E} (h : Rep 2 b I E) => rep_included hL r3 h (by simp) (fun _ => 1) (by norm_num) (box_bounded 0.5 1.5 [] _)
  have S := fun {b I E} (h : Rep 2 b I E) => rep_included hL s3 h (by simp) (fun _ => 1.5) (by norm_num) (box_bounded 0.5 2 [] _)
  have T := fun {b I E} (h : Rep 2 b I E) => rep_included hL t3 h (by simp) (fun _ => 1.75) (by norm_num) (box_bounded 0.5 2 _ _)
  have U := fun {b I E} (h : Rep 2 b I E) => rep_included hL u3 h (by simp) (fun _ => 1.75) (by norm_num) (box_bounded 1 2 [] _)
  have V := fun {b I E} (h : Rep 2 b I E) => rep_included hL v3 h (by simp) (fun _ => 1.75) (by norm_num) (box_bounded 0.5 2 _ _)
  have W := fun {b I E} (h : Rep 2 b I E) => rep_included hL w3 h (by simp) (fun _ => 1.75) (by norm_num) (box_bounded 0.5 2 _ _)
  have e1 := (P p3).1 (fun z h1 h2 => ⟨h1, h2⟩)
  have e2 := (P q3).1 (fun z h1 _ => by
    simp only [List.forall_mem_cons, List.not_mem_nil, false_imp_iff, implies_true, and_true] at h1 ⊢
    refine ⟨?_, ?_, ?_, ?_⟩ <;> linarith [h1.1, h1.2.1, h1.2.2.1, h1.2.2.2])
  have e3 := (Q p3).2 ⟨fun _ => 0.5, by norm_num, by norm_num, by norm_num⟩
  have e4 := (P r3).2 ⟨fun _ => 2, by norm_num, by norm_num, by norm_num⟩
  have e5 := (R p3).2 ⟨fun _ => 0.5, by norm_num, by norm_num, by norm_num⟩
  have e6 := (P s3).1 (fun z h1 _ => by
    simp only [List.forall_mem_cons, List.not_mem_nil, false_imp_iff, implies_true, and_true] at h1 ⊢
    refine ⟨?_, ?_, ?_, ?_⟩ <;> linarith [h1.1, h1.2.1, h1.2.2.1, h1.2.2.2])
  have e7 := (S p3).2 ⟨fun _ => 0.5, by norm_num, by norm_num, by norm_num⟩
  have e8 := (P t3).2 ⟨fun _ => 1, by norm_num, by norm_num, by norm_num⟩
  have e9 := (T p3).1 (fun z h1 _ => by
    simp only [List.forall_mem_cons, List.cons_append, List.nil_append, List.not_mem_nil, false_imp_iff, implies_true, and_true] at h1 ⊢
    obtain ⟨k1, k2, k3, k4, k5, k6⟩ := h1
    refine ⟨?_, ?_, ?_, ?_⟩ <;> linarith)
  have e10 := (U t3).1 (fun z h1 h2 => by
    simp only [List.forall_mem_cons, List.cons_append, List.nil_append, List.not_mem_nil, false_imp_iff, implies_true, and_true] at h1 h2 ⊢
    obtain ⟨k1, k2, k3, k4⟩ := h1
    refine ⟨?_, ?_, ?_, ?_, ?_, ?_⟩ <;> linarith)
  have e11 := (T u3).2 ⟨fun _ => 1.5, by norm_num, by norm_num, by norm_num [abs_of_neg]⟩
  have e12 := (U v3).1 (fun z h1 h2 => by
    simp only [List.forall_mem_cons, List.cons_append, List.nil_append, List.not_mem_nil, false_imp_iff, implies_true, and_true] at h1 h2 ⊢
    obtain ⟨k1, k2, k3, k4⟩ := h1
    refine ⟨⟨?_, ?_, ?_, ?_, ?_, ?_⟩, h2⟩ <;> linarith)
  have e13 := (V u3).1 (fun z h1 h2 => by
    simp only [List.forall_mem_cons, List.cons_append, List.nil_append, List.not_mem_nil, false_imp_iff, implies_true, and_true] at h1 h2 ⊢
    obtain ⟨k1, k2, k3, k4, k5, k6⟩ := h1
    refine ⟨⟨?_, ?_, ?_, ?_⟩, h2⟩ <;> linarith)
  have e14 := (U w3).2 ⟨fun i => if i = 0 then 1.5 else 2, by norm_num, by norm_num, by norm_num⟩
  have e15 := (W u3).1 (fun z h1 h2 => by
    simp only [List.forall_mem_cons, List.cons_append, List.nil_append, List.not_mem_nil, false_imp_iff, implies_true, and_true] at h1 h2 ⊢
    obtain ⟨k1, k2, k3, k4, k5, k6, k7⟩ := h1
    refine ⟨⟨?_, ?_, ?_, ?_⟩, h2⟩ <;> linarith)
  unfold test_is_included_in
  rw [show Poly.add_lower_bound (fullB 2 1.5) = Poly.add_lower_bound (.arr (.d1 (full 2 1.5))) none from rfl,
    show Poly.add_upper_bound (fullB 1 1.75) (some [1]) = Poly.add_upper_bound (.arr (.d1 (full 1 1.75))) (some [1]) from rfl]
  simp only [p1, q1, r1, s1, t1, u1, v1, w1, Py.ok_bind, e1, e2, e3, e4, e5, e6, e7, e8, e9, e10, e11, e12, e13, e14, e15, assertTrue, assertFalse, Bool.false_eq_true,
    if_false, if_true]

theorem test_initialization_ok : test_initialization = .ok () := rfl

theorem test_bound_errors_ok : test_bound_errors = .ok () := rfl

theorem test_bounded_ok (L : Lib) (hL : LibSpec L) : test_bounded L = .ok () := by
  -- empty
  obtain ⟨p, p1, p2, p3⟩ := rep_box 1 (-1)
  obtain ⟨p', pa⟩ := ask_bounded_empty hL p3 p2 (by
    intro z hz _
    simp only [List.forall_mem_cons, List.not_mem_nil, false_imp_iff, implies_true, and_true] at hz
    linarith [hz.1, hz.2.2.1])
  obtain ⟨q, q1, q2, q3⟩ := rep_from_bounds 2 (full 1 1) (full 1 (-1)) (some [0]) (some 2) (Or.inl rfl) rfl rfl
  have q3 : Rep 2 q [((fun z : ℕ → ℝ => -1 * z 0), -1), (fun z => 1 * z 0, -1)] [] := q3
  obtain ⟨q', qa⟩ := ask_bounded_empty hL q3 q2 (by
    intro z hz _
    simp only [List.forall_mem_cons, List.not_mem_nil, false_imp_iff, implies_true, and_true] at hz
    linarith [hz.1, hz.2])
  -- a box
  obtain ⟨r, r1, r2, r3⟩ := rep_box 1 2
  obtain ⟨r', ra, -⟩ := (ask_bounded hL r3 r2 (by simp) (by omega) (fun _ => 1) (by norm_num) (by norm_num)).1 (box_bounded 1 2 [] _)
  -- a halfspace
  obtain ⟨s, s1, s2, s3⟩ := rep_from_lower 2 (full 1 0) (some [0]) (some 2) (Or.inl rfl) rfl
  have s3 : Rep 2 s [((fun z : ℕ → ℝ => -1 * z 0), -0)] [] := s3
  obtain ⟨s', sa, sb⟩ := (ask_bounded hL s3 s2 (by simp) (by omega) (fun _ => 1) (by norm_num) (by norm_num)).2 (fun i => if i = 0 then 0 else 1)
    (by norm_num) (by norm_num) ⟨1, by omega, by norm_num⟩ (Or.inl (by norm_num))
  -- the positive orthant
  obtain ⟨t, t1, t2, t3⟩ := rep_lower sb (full 1 0) (some [1]) rfl
  have t3 : Rep 2 t [((fun z : ℕ → ℝ => -1 * z 0), -0), (fun z => -1 * z 1, -0)] [] := t3
  obtain ⟨t', ta, tb⟩ := (ask_bounded hL t3 t2 (by simp) (by omega) (fun _ => 1) (by norm_num) (by norm_num)).2 (fun i => if i = 0 then 0 else 1)
    (by norm_num) (by norm_num) ⟨1, by omega, by norm_num⟩ (Or.inr (by norm_num [Finset.sum_range_succ]))
  -- a strip
  obtain ⟨u, u1, u2, u3⟩ := rep_upper tb (full 1 1) (some [0]) rfl
  have u3 : Rep 2 u [((fun z : ℕ → ℝ => -1 * z 0), -0), (fun z => -1 * z 1, -0), (fun z => 1 * z 0, 1)] [] := u3
  obtain ⟨u', ua, ub⟩ := (ask_bounded hL u3 u2 (by simp) (by omega) (fun _ => 1) (by norm_num) (by norm_num)).2 (fun i => if i = 0 then 0 else 1)
    (by norm_num) (by norm_num) ⟨1, by omega, by norm_num⟩ (Or.inr (by norm_num [Finset.sum_range_succ]))
  -- a halfline
  obtain ⟨v, v1, v2, v3⟩ := rep_lower ub (full 1 1) (some [0]) rfl
  have v3 : Rep 2 v [((fun z : ℕ → ℝ => -1 * z 0), -0), (fun z => -1 * z 1, -0), (fun z => 1 * z 0, 1), (fun z => -1 * z 0, -1)] [] := v3
  obtain ⟨v', va, vb⟩ := (ask_bounded hL v3 v2 (by simp) (by omega) (fun _ => 1) (by norm_num) (by norm_num)).2 (fun i => if i = 0 then 0 else 1)
    (by norm_num) (by norm_num) ⟨1, by omega, by norm_num⟩ (Or.inr (by norm_num [Finset.sum_range_succ]))
  -- a segment
  obtain ⟨w, w1, w2, w3⟩ := rep_upper vb (full 1 1000) (some [1]) rfl
  have w3 : Rep 2 w [((fun z : ℕ → ℝ => -1 * z 0), -0), (fun z => -1 * z 1, -0), (fun z => 1 * z 0, 1), (fun z => -1 * z 0, -1), (fun z => 1 * z 1, 1000)] [] := w3
  obtain ⟨w', wa, -⟩ := (ask_bounded hL w3 w2 (by simp) (by omega) (fun _ => 1) (by norm_num) (by norm_num)).1 ⟨1000, fun z hz _ j hj => by
    simp only [List.forall_mem_cons, List.not_mem_nil, false_imp_iff, implies_true, and_true] at hz
    obtain ⟨k1, k2, k3, k4, k5⟩ := hz
    rw [abs_le]
    interval_cases j <;> constructor <;> linarith⟩
  -- with an equality
  obtain ⟨x, x1, x2, x3⟩ := rep_from_bounds 3 ⟨2, fun i => if i = 0 then -1 else -2⟩ ⟨2, fun i => if i = 0 then 1 else 2⟩ (some [0, 1]) (some 3) (Or.inl rfl) rfl rfl
  obtain ⟨y, y1, y2, y3⟩ := rep_eq x3 (F := ⟨1, 3, fun _ j => if j = 0 then 1 else if j = 2 then -1 else 0⟩) (f := full 1 0) (idx := none) rfl rfl
  have y3 : Rep 3 y [((fun z : ℕ → ℝ => -1 * z 0), - (if 0 = 0 then -1 else -2)), (fun z => -1 * z 1, - (if 1 = 0 then -1 else -2)), (fun z => 1 * z 0, if 0 = 0 then 1 else 2),
    (fun z => 1 * z 1, if 1 = 0 then 1 else 2)] [(fun z => ∑ k ∈ range 3, (if k = 0 then 1 else if k = 2 then -1 else 0) * z ((Poly.sel 3 none).getD k 0), 0)] := y3
  have s3' : Poly.sel 3 none = [0, 1, 2] := by decide
  obtain ⟨y', ya, -⟩ := (ask_bounded hL y3 y2 (by simp) (by omega) (fun _ => 0) (by norm_num) (by norm_num)).1 ⟨2, fun z hz he j hj => by
    simp only [List.forall_mem_cons, List.not_mem_nil, false_imp_iff, implies_true, and_true, s3', Finset.sum_range_succ, Finset.sum_range_zero] at hz he
    norm_num at hz he
    obtain ⟨k1, k2, k3, k4⟩ := hz
    rw [abs_le]
    interval_cases j <;> constructor <;> linarith⟩
  unfold test_bounded
  simp only [fullB, pairB] at p1 r1 ⊢
  simp only [p1, q1, r1, s1, t1, u1, v1, w1, x1, y1, Py.ok_bind, pa, qa, ra, sa, ta, ua, va, wa, ya, assertTrue, assertFalse, Bool.false_eq_true, if_false, if_true]

/-- C158: the tests of the initialization, of the errors of the functions that add bounds, and of `empty`, `bounded`, `contains` and `is_included_in` pass, whatever
the values returned by the numerical routines within their contract. -/
theorem C158 (L : Lib) (hL : LibSpec L) : test_initialization = .ok () ∧ test_bound_errors = .ok () ∧ test_empty L = .ok () ∧ test_bounded L = .ok () ∧ test_contains = .ok () ∧
    test_is_included_in L = .ok () :=
  ⟨test_initialization_ok, test_bound_errors_ok, test_empty_ok L hL, test_bounded_ok L hL, test_contains_ok, test_is_included_in_ok L hL⟩

example : ∃ L : Lib, test_empty L = .ok () ∧ test_bounded L = .ok () ∧ test_is_included_in L = .ok () := by
  obtain ⟨L, hL⟩ := exists_lib
  exact ⟨L, test_empty_ok L hL, test_bounded_ok L hL, test_is_included_in_ok L hL⟩

end Verif.Props
