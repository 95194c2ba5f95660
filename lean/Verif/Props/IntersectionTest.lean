import Verif.Model.TestIntersection
import Verif.Props.BoundsTest

/- C205: the test of `intersection`. -/
namespace Verif.TestSuite
open Finset Verif.Props Spec

theorem sel_none (n : ℕ) : Poly.sel n none = List.range n := by
  refine List.filter_eq_self.2 fun i hi => ?_
  simpa using hi

theorem range_rows {n : ℕ} {F : Mat ℝ} {f : Vec ℝ} (hF : F.nc = n) :
    (List.range F.nr).map (fun i => ((fun z : ℕ → ℝ => ∑ k ∈ range F.nc, F.e i k * z ((Poly.sel n none).getD k 0)), f.e i)) =
      (List.range F.nr).map (fun i => (rowVal F i, f.e i)) := by
  refine List.map_congr_left fun i _ => ?_
  congr 1
  funext z
  refine Finset.sum_congr rfl fun k hk => ?_
  have hk : k < n := hF ▸ mem_range.1 hk
  rw [sel_none]
  simp [hk]

/-- the rows of an intersection are the rows of the second polyhedron, followed by the rows of the first one -/
theorem rep_intersection {n : ℕ} {p q : Poly} {I E I' E'} (h : Rep n p I E) (h' : Rep n q I' E') :
    ∃ r, Poly.intersection p q = .ok r ∧ r = Poly.fresh r.A r.b r.C r.d ∧ Rep n r (I' ++ I) (E' ++ E) := by
  have hs : (Poly.sel n none).length = n := by rw [sel_none, List.length_range]
  obtain ⟨s, h1, -, h3⟩ := rep_ineq h' (F := p.A) (f := p.b) (idx := none) h.inv.2.1 (h.inv.1.trans hs.symm)
  obtain ⟨r, r1, r2, r3⟩ := rep_eq h3 (F := p.C) (f := p.d) (idx := none) h.inv.2.2.2 (h.inv.2.2.1.trans hs.symm)
  rw [range_rows h.inv.1, h.ineq, range_rows h.inv.2.2.1, h.eqs] at r3
  refine ⟨r, ?_, r2, r3⟩
  unfold Poly.intersection
  rw [runOn_ok] at h1 r1 ⊢
  rw [PyM.bind_ok h1]
  exact r1

theorem rep_row {n : ℕ} {p : Poly} {I E} (h : Rep n p I E) {i : ℕ} {r} (hi : I[i]? = some r) : rowVal p.A i = r.1 ∧ p.b.e i = r.2 := by
  rw [← h.ineq, List.getElem?_map] at hi
  obtain ⟨k, h1, h2⟩ := Option.map_eq_some_iff.1 hi
  obtain ⟨hk, rfl⟩ := List.getElem?_eq_some_iff.1 h1
  rw [List.getElem_range] at h2
  subst h2
  exact ⟨rfl, rfl⟩

theorem sublist_four {r : List ℕ} (h : r.Sublist (List.range 8)) (h' : ∀ i < 8, i ∈ r ↔ i = 0 ∨ i = 1 ∨ i = 6 ∨ i = 7) : r = [0, 1, 6, 7] := by
  have hs : r.Pairwise (· < ·) := List.Pairwise.sublist h List.pairwise_lt_range
  refine List.Perm.eq_of_pairwise (fun a b _ _ h1 h2 => absurd h1 (lt_asymm h2)) hs (by decide) ((List.perm_ext_iff_of_nodup (hs.imp fun h => h.ne) (by decide)).2 fun i => ?_)
  by_cases hi : i < 8
  · rw [h' i hi]
    simp
  · have : i ∉ r := fun k => hi (List.mem_range.1 (h.subset k))
    simp only [this, false_iff]
    simp
    omega

/-- the intersection of `[-1, 1]²` and `[0, 2]²` without the redundant inequalities -/
theorem intersection_boxes (L : Lib) (hL : LibSpec L) {p : Poly} (hf : p = Poly.fresh p.A p.b p.C p.d)
    (h : Rep 2 p ([(fun z => -1 * z 0, -0), (fun z => -1 * z 1, -0), (fun z => 1 * z 0, 2), (fun z => 1 * z 1, 2)] ++
      [(fun z => -1 * z 0, - -1), (fun z => -1 * z 1, - -1), (fun z => 1 * z 0, 1), (fun z => 1 * z 1, 1)]) []) :
    ∃ q, Poly.runOn p (Poly.remove_redundant_inequalities L) = .ok q ∧
      Rep 2 q [(fun z => -1 * z 0, -0), (fun z => -1 * z 1, -0), (fun z => 1 * z 0, 1), (fun z => 1 * z 1, 1)] [] := by
  have hA : p.A.nr = 8 := h.len.1
  have hC : p.C.nr = 0 := h.len.2
  have hE : ∀ x, EqHold p.C p.d x := fun x i hi => by omega
  obtain ⟨a0, b0⟩ := rep_row h (i := 0) rfl
  obtain ⟨a1, b1⟩ := rep_row h (i := 1) rfl
  obtain ⟨a2, b2⟩ := rep_row h (i := 2) rfl
  obtain ⟨a3, b3⟩ := rep_row h (i := 3) rfl
  obtain ⟨a4, b4⟩ := rep_row h (i := 4) rfl
  obtain ⟨a5, b5⟩ := rep_row h (i := 5) rfl
  obtain ⟨a6, b6⟩ := rep_row h (i := 6) rfl
  obtain ⟨a7, b7⟩ := rep_row h (i := 7) rfl
  have near : NearPoint 2 p.A p.b p.C p.d := ⟨fun _ => 0, (h.mem _).2 (by norm_num), by norm_num⟩
  obtain ⟨r, -, h2, h3, h4, h5, h6⟩ := redundancy_run hL h.inv (Or.inl (by omega)) (fresh_emptyOk hf) near (Or.inl hC) (tol := 1e-7) (by norm_num)
  -- a point that violates only row `i` shows that the row is kept
  have keep : ∀ i < 8, ∀ x : ℕ → ℝ, (∀ j < 8, j ≠ i → rowVal p.A j x ≤ p.b.e j) → p.b.e i + 1e-7 ≤ rowVal p.A i x → i ∈ r := fun i hi x hx hv => by
    by_contra hir
    have := h6 i (by omega) hir x (hE x) (fun j hj => hx j (by have := h4 j hj; omega) fun e => hir (e ▸ hj)) fun j hj hij => hx j (by omega) (by omega)
    linarith
  have k0 : 0 ∈ r := keep 0 (by omega) (fun j => if j = 0 then -1 else 0) (fun j hj hne => by
    interval_cases j <;> first | exact absurd rfl hne | (simp only [a0, b0, a1, b1, a2, b2, a3, b3, a4, b4, a5, b5, a6, b6, a7, b7]; norm_num)) (by rw [a0, b0]; norm_num)
  have k1 : 1 ∈ r := keep 1 (by omega) (fun j => if j = 1 then -1 else 0) (fun j hj hne => by
    interval_cases j <;> first | exact absurd rfl hne | (simp only [a0, b0, a1, b1, a2, b2, a3, b3, a4, b4, a5, b5, a6, b6, a7, b7]; norm_num)) (by rw [a1, b1]; norm_num)
  have k6 : 6 ∈ r := keep 6 (by omega) (fun j => if j = 0 then 2 else 0) (fun j hj hne => by
    interval_cases j <;> first | exact absurd rfl hne | (simp only [a0, b0, a1, b1, a2, b2, a3, b3, a4, b4, a5, b5, a6, b6, a7, b7]; norm_num)) (by rw [a6, b6]; norm_num)
  have k7 : 7 ∈ r := keep 7 (by omega) (fun j => if j = 1 then 2 else 0) (fun j hj hne => by
    interval_cases j <;> first | exact absurd rfl hne | (simp only [a0, b0, a1, b1, a2, b2, a3, b3, a4, b4, a5, b5, a6, b6, a7, b7]; norm_num)) (by rw [a7, b7]; norm_num)
  have n2 : 2 ∉ r := fun hr => by
    obtain ⟨x, -, g1, -, g3⟩ := h5 2 hr
    have g1 := g1 6 k6 (by omega)
    rw [a6, b6] at g1
    rw [a2, b2] at g3
    norm_num at g1 g3
    linarith
  have n3 : 3 ∉ r := fun hr => by
    obtain ⟨x, -, g1, -, g3⟩ := h5 3 hr
    have g1 := g1 7 k7 (by omega)
    rw [a7, b7] at g1
    rw [a3, b3] at g3
    norm_num at g1 g3
    linarith
  have n4 : 4 ∉ r := fun hr => by
    obtain ⟨x, -, g1, -, g3⟩ := h5 4 hr
    have g1 := g1 0 k0 (by omega)
    rw [a0, b0] at g1
    rw [a4, b4] at g3
    norm_num at g1 g3
    linarith
  have n5 : 5 ∉ r := fun hr => by
    obtain ⟨x, -, g1, -, g3⟩ := h5 5 hr
    have g1 := g1 1 k1 (by omega)
    rw [a1, b1] at g1
    rw [a5, b5] at g3
    norm_num at g1 g3
    linarith
  rw [hA] at h3
  obtain rfl := sublist_four h3 fun i hi => by interval_cases i <;> simp [k0, k1, n2, n3, n4, n5, k6, k7]
  refine ⟨_, runOn_ok.2 (h2 rfl), ⟨h.inv.1, rfl, h.inv.2.2.1, h.inv.2.2.2⟩, ?_, h.eqs⟩
  show [(rowVal p.A 0, p.b.e 0), (rowVal p.A 1, p.b.e 1), (rowVal p.A 6, p.b.e 6), (rowVal p.A 7, p.b.e 7)] = _
  rw [a0, b0, a1, b1, a6, b6, a7, b7]

/-- `test_intersection` passes -/
theorem test_intersection_ok (L : Lib) (hL : LibSpec L) : test_intersection L = .ok () := by
  obtain ⟨p1, h1, -, r1⟩ := rep_box (-1) 1
  obtain ⟨p2, h2, -, r2⟩ := rep_box 0 2
  obtain ⟨p3, h3, f3, r3⟩ := rep_intersection r1 r2
  obtain ⟨q3, h3', r3'⟩ := intersection_boxes L hL f3 r3
  obtain ⟨p4, h4, -, r4⟩ := rep_box 0 1
  obtain ⟨p5, h5, -, r5⟩ := rep_eq r1 (F := first12) (f := full 1 (-0.5)) (idx := none) rfl rfl
  obtain ⟨p6, h6, f6, r6⟩ := rep_intersection r5 r2
  obtain ⟨q6, h7⟩ := ask_empty_true hL r6 f6 fun z hI hE => by
    have i := hI (fun z => -1 * z 0, -0) (by simp)
    have e := hE _ (List.mem_append_right _ (List.mem_append_right _ (List.mem_map.2 ⟨0, by simp [first12], rfl⟩)))
    rw [sel2] at e
    simp [first12, full] at e i
    linarith
  have t : ∀ {q : Poly}, Rep 2 q [(fun z => -1 * z 0, -0), (fun z => -1 * z 1, -0), (fun z => 1 * z 0, 1), (fun z => 1 * z 1, 1)] [] →
      Table 4 3 q.A q.b (tab [[-1, 0, 0], [0, -1, 0], [1, 0, 1], [0, 1, 1]]) := fun {q} h => by
    refine rep_table (m := 4) h rfl _ fun i hi => ?_
    interval_cases i <;> refine ⟨_, rfl, fun j hj => ?_, ?_⟩ <;> (try interval_cases j) <;> simp [tab]
  unfold test_intersection
  rw [h1, Py.ok_bind, h2, Py.ok_bind, h3, Py.ok_bind, h3', Py.ok_bind, h4, Py.ok_bind, same_ints (t r3') (t r4) (by decide) (by decide), Py.ok_bind,
    h5, Py.ok_bind, h6, Py.ok_bind, h7, Py.ok_bind]
  rfl

/-- C205: `test_intersection` passes: the intersection of the boxes `[-1, 1]²` and `[0, 2]²` has, without the redundant inequalities, the rows of the box `[0, 1]²`, and with
an equality that no point of the second box satisfies it is empty.  In general the rows of `P1.intersection(P2)` are the ones of `P2` followed by the ones of `P1`, and its
points are the ones in both. -/
theorem C205 (L : Lib) (hL : LibSpec L) : test_intersection L = .ok () ∧
    ∀ (n : ℕ) (p q : Poly), p.Inv n → q.Inv n → ∃ r, Poly.intersection p q = .ok r ∧ r.A.nr = q.A.nr + p.A.nr ∧ r.C.nr = q.C.nr + p.C.nr ∧
      (∀ i < q.A.nr, ∀ x, rowVal r.A i x = rowVal q.A i x ∧ r.b.e i = q.b.e i) ∧
      (∀ i < p.A.nr, ∀ x, rowVal r.A (q.A.nr + i) x = rowVal p.A i x ∧ r.b.e (q.A.nr + i) = p.b.e i) ∧
      ∀ x, r.Mem x ↔ p.Mem x ∧ q.Mem x := by
  refine ⟨test_intersection_ok L hL, fun n p q hp hq => ?_⟩
  have h : Rep n p _ _ := ⟨hp, rfl, rfl⟩
  have h' : Rep n q _ _ := ⟨hq, rfl, rfl⟩
  obtain ⟨r, h1, -, h3⟩ := rep_intersection h h'
  refine ⟨r, h1, by rw [h3.len.1]; simp, by rw [h3.len.2]; simp, fun i hi x => ?_, fun i hi x => ?_, fun x => ?_⟩
  · obtain ⟨k1, k2⟩ := rep_row h3 (i := i) (r := (rowVal q.A i, q.b.e i)) (by
      rw [List.getElem?_append_left (by simpa using hi)]
      simp [hi])
    exact ⟨by rw [k1], k2⟩
  · obtain ⟨k1, k2⟩ := rep_row h3 (i := q.A.nr + i) (r := (rowVal p.A i, p.b.e i)) (by
      rw [List.getElem?_append_right (by simp)]
      simp [hi])
    exact ⟨by rw [k1], k2⟩
  · rw [h3.mem, h.mem, h'.mem, List.forall_mem_append, List.forall_mem_append]
    tauto

end Verif.TestSuite
