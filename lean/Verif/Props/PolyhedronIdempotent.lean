import Verif.Props.PolyhedronRedundancy
import Mathlib.Data.List.GetD

/- Removing redundant inequalities a second time, `/repo/pympc/geometry/polyhedron.py` (C128). -/
namespace Verif.Props
open Finset

/-- the cached answer of `empty` -/
theorem empty_cached {L : Lib} {p : Poly} {e : Bool} (h : p._empty = some e) : Poly.empty L p = (.ok e, p) := by
  unfold Poly.empty
  rw [PyM.bind_ok (PyM.get_apply p)]
  simp only [h]
  rfl

/-- C128: after `remove_redundant_inequalities` there is nothing to remove: `minimal_facets` returns all the indices and a second
`remove_redundant_inequalities` leaves the inequalities and the equalities as they are, also if none is left. -/
theorem C128 (L : Lib) (hL : LibSpec L) (n : ℕ) (p : Poly) (hp : p.Inv n) (hrows : p.HasRows) (hc : p.EmptyOk L)
    (hne : Spec.NearPoint n p.A p.b p.C p.d) (heq : p.C.nr = 0 ∨ Spec.EqIndep n p.C) :
    ∃ q q', Poly.remove_redundant_inequalities L p = (.ok (), q) ∧ Poly.minimal_facets L 1e-7 q = (.ok (some (List.range q.A.nr)), q) ∧
      Poly.remove_redundant_inequalities L q = (.ok (), q') ∧ q'.A.nr = q.A.nr ∧ q'.A.nc = q.A.nc ∧ q'.b.n = q.b.n ∧
      (∀ i < q.A.nr, q'.b.e i = q.b.e i ∧ ∀ j, q'.A.e i j = q.A.e i j) ∧ q'.C = q.C ∧ q'.d = q.d := by
  obtain ⟨r, -, h1, h2, hr, h3, -⟩ := redundancy_run hL hp hrows hc hne heq (tol := 1e-7) (by norm_num)
  set q : Poly := { p with _empty := some false, A := p.A.rows r, b := p.b.take r } with hq
  have hqI : q.Inv n := ⟨hp.1, rfl, hp.2.2.1, hp.2.2.2⟩
  have hqr : ∀ i ∈ List.range q.A.nr, i < q.A.nr := fun i hi => by simpa using hi
  have main : Poly.minimal_facets L 1e-7 q = (.ok (some (List.range q.A.nr)), q) := by
    by_cases hk : q.HasRows
    · have hqn : Spec.NearPoint n q.A q.b q.C q.d := by
        obtain ⟨x, hx, hb⟩ := hne
        exact ⟨x, (mem_rows p r x _).2 ⟨hx.2, fun j hj => hx.1 j (hr j hj)⟩, hb⟩
      have hqe : q.EmptyOk L := fun e he => by
        cases he
        exact (Poly.computeEmpty_false_iff hL hqI hk).2 hqn
      obtain ⟨r', g1, -, g2, gr, -, g4⟩ := redundancy_run hL hqI hk hqe hqn heq (tol := 1e-7) (by norm_num)
      have all : ∀ i < q.A.nr, i ∈ r' := by
        intro i hi
        by_contra hir
        have hir' : i < r.length := hi
        have hmem : r.getD i 0 ∈ r := by
          rw [List.getD_eq_getElem _ _ hir']
          exact List.getElem_mem _
        obtain ⟨x, e1, e2, -, e4⟩ := h3 _ hmem
        have nd : r.Nodup := List.Nodup.sublist h2 List.nodup_range
        have others : ∀ j < q.A.nr, j ≠ i → Spec.rowVal q.A j x ≤ q.b.e j := by
          intro j hj hji
          have hj' : j < r.length := hj
          refine e2 (r.getD j 0) ?_ ?_
          · rw [List.getD_eq_getElem _ _ hj']
            exact List.getElem_mem _
          · rw [List.getD_eq_getElem _ _ hj', List.getD_eq_getElem _ _ hir']
            intro hh
            exact hji ((List.Nodup.getElem_inj_iff nd).1 hh)
        have := g4 i hi hir x e1 (fun j hj => others j (gr j hj) fun hh => hir (hh ▸ hj)) (fun j hj hij => others j hj (by omega))
        have e5 : q.b.e i + 1e-7 ≤ Spec.rowVal q.A i x := e4
        linarith
      have er : r' = List.range q.A.nr := by
        refine g2.eq_of_length_le ?_
        have h5 : (List.range q.A.nr).Nodup := List.nodup_range
        exact (List.subperm_of_subset h5 fun i hi => all i (by simpa using hi)).length_le
      rw [er] at g1
      exact g1
    · have hA : q.A.nr = 0 := by unfold Poly.HasRows at hk; omega
      have hC : q.C.nr = 0 := by unfold Poly.HasRows at hk; omega
      unfold Poly.minimal_facets
      rw [PyM.bind_ok (empty_cached (L := L) (p := q) (e := false) rfl)]
      simp only [Bool.false_eq_true, if_false]
      rw [PyM.bind_ok (PyM.get_apply q), PyM.bind_ok (show PyM.lift (Poly.reduced L q) q = (.ok (q.A, q.b), q) by
        rw [PyM.lift_apply]
        unfold Poly.reduced
        rw [if_neg (by omega)]
        rfl)]
      simp only [hA, List.range_zero]
      rfl
  refine ⟨q, { q with A := q.A.rows (List.range q.A.nr), b := q.b.take (List.range q.A.nr) }, h1 rfl, main, ?_, ?_, rfl, ?_, fun i hi => ⟨?_, fun j => ?_⟩, rfl, rfl⟩
  · exact Poly.remove_redundant_ok main rfl rfl hqI.2.1 hqr
  · exact List.length_range
  · exact List.length_range
  · show q.b.e ((List.range q.A.nr).getD i 0) = q.b.e i
    rw [List.getD_eq_getElem _ _ (by simpa using hi), List.getElem_range]
  · show q.A.e ((List.range q.A.nr).getD i 0) j = q.A.e i j
    rw [List.getD_eq_getElem _ _ (by simpa using hi), List.getElem_range]

/-- C128 on `{x ≤ 1, x ≤ 2}`, the second inequality of which is removed by the first call -/
example (L : Lib) (hL : LibSpec L) : ∃ p q : Poly, p.Inv 1 ∧ p.HasRows ∧ p.EmptyOk L ∧ Spec.NearPoint 1 p.A p.b p.C p.d ∧ p.C.nr = 0 ∧
    p.A.nr = 2 ∧ Poly.remove_redundant_inequalities L p = (.ok (), q) ∧ q.A.nr = 1 ∧ q.b.e 0 = 1 ∧
    Poly.minimal_facets L 1e-7 q = (.ok (some [0]), q) := by
  let p := Poly.fresh ⟨2, 1, fun _ _ => 1⟩ ⟨2, fun i => if i = 0 then 1 else 2⟩ (Mat.zeros 0 1) (Vec.zeros 0)
  have hp : p.Inv 1 := ⟨rfl, rfl, rfl, rfl⟩
  have hc : p.EmptyOk L := fun e h => (by cases h)
  have heq : ∀ x, Spec.EqHold p.C p.d x := fun x i hi => absurd hi (by simp [p, Poly.fresh, Mat.zeros])
  have v : ∀ i x, Spec.rowVal p.A i x = x 0 := by intro i x; simp [Spec.rowVal, p, Poly.fresh]
  have b0 : p.b.e 0 = 1 := rfl
  have b1 : p.b.e 1 = 2 := rfl
  have hnr : p.A.nr = 2 := rfl
  have hne : Spec.NearPoint 1 p.A p.b p.C p.d := by
    refine ⟨fun _ => 0, ⟨fun i hi => ?_, heq _⟩, by norm_num⟩
    show Spec.rowVal p.A i _ ≤ _
    have : i < 2 := hi
    interval_cases i
    · rw [v, b0]; norm_num
    · rw [v, b1]; norm_num
  obtain ⟨q, q', h1, h2, -⟩ := C128 L hL 1 p hp (.inl (by omega)) hc hne (.inl rfl)
  obtain ⟨r, -, k1, k2, -, k3, k4⟩ := redundancy_run hL hp (.inl (by omega)) hc hne (.inl rfl) (tol := 1e-7) (by norm_num)
  have m0 : 0 ∈ r := by
    by_contra h
    have := k4 0 (by omega) h (fun _ => 2) (heq _) (fun j hj => ?_) (fun j hj h0 => ?_)
    · rw [v, b0] at this
      norm_num at this
    · have : j < 2 := by have := k2.subset hj; simpa [hnr] using this
      interval_cases j
      · exact absurd hj h
      · rw [v, b1]
    · obtain rfl : j = 1 := by omega
      rw [v, b1]
  have m1 : 1 ∉ r := by
    intro h
    obtain ⟨x, -, g1, -, g2⟩ := k3 1 h
    have := g1 0 m0 (by norm_num)
    rw [v, b0] at this
    rw [v, b1] at g2
    linarith
  have er : r = [0] := by
    rw [hnr] at k2
    have : r.filter (fun i => i = 0) = r := List.filter_eq_self.2 fun i hi => by
      have h3 : i < 2 := by simpa using k2.subset hi
      have h4 : i ≠ 1 := fun h => m1 (h ▸ hi)
      simp; omega
    have h5 : (r.filter (fun i => i = 0)).Sublist ((List.range 2).filter (fun i => i = 0)) := k2.filter _
    rw [this] at h5
    have h6 : r.Sublist [0] := h5
    exact h6.eq_of_length_le (List.length_pos_of_mem m0)
  have hq := (k1 rfl).symm.trans h1
  injection hq with _ hq
  subst hq
  rw [er] at h1 h2
  refine ⟨p, _, hp, .inl (by omega), hc, hne, rfl, rfl, h1, rfl, rfl, h2⟩

end Verif.Props
