import Verif.Model.TestRedundant
import Verif.Props.IntersectionTest
import Mathlib.Data.List.Sort

/- C206: the test of the redundant inequalities. -/
namespace Verif.TestSuite
open Finset Verif.Props Spec

/-- the normalization does not see a factor -/
theorem normRow_scaled (v : Vec ℝ) {c : ℝ} (hc : 0 < c) : Geom.normRow ⟨v.n, fun j => v.e j / c⟩ = Geom.normRow v := by
  have hn : vnorm ⟨v.n, fun j => v.e j / c⟩ = vnorm v / c := by
    unfold vnorm
    dsimp only
    simp_rw [div_pow]
    rw [← Finset.sum_div, Real.sqrt_div' _ (sq_nonneg c), Real.sqrt_sq hc.le]
  unfold Geom.normRow
  rw [hn]
  have h0 : vnorm v / c = 0 ↔ vnorm v = 0 := by simp [hc.ne']
  simp only [h0]
  split
  · rfl
  · unfold Vec.divS
    simp only [div_div_div_cancel_right₀ hc.ne']

/-- `same_rows` does not see positive factors of the rows of the second array -/
theorem same_rows_scaled (X Y : Mat ℝ) (c : ℕ → ℝ) (hc : ∀ i, 0 < c i) : Geom.same_rows X ⟨Y.nr, Y.nc, fun i j => Y.e i j / c i⟩ true = Geom.same_rows X Y true := by
  unfold Geom.same_rows
  dsimp only
  congr 2
  unfold Geom.rowList
  rw [List.map_map, List.map_map]
  refine List.map_congr_left fun i _ => ?_
  exact normRow_scaled (Y.row i) (hc i)

theorem same_scaled_ints {m n : ℕ} {A A' : Mat ℝ} {b b' : Vec ℝ} {M : ℕ → ℕ → ℤ} {c : ℕ → ℤ} (h : Table m n A b M) (h' : Table m n A' b' fun i j => c i * M i j)
    (hc : ∀ i, 0 < c i) (hq : ∀ i < m, 0 < ∑ j ∈ range n, M i j ^ 2 ∧ ∑ j ∈ range n, M i j ^ 2 ≤ 49)
    (hd : ∀ i < m, ∀ k < m, i ≠ k → RowsDiffer n (M i) (M k)) : assertSameRows A b A' b' = .ok () := by
  have hc' : ∀ i, (0 : ℝ) < c i := fun i => by exact_mod_cast hc i
  have t : Table m n ⟨A'.nr, A'.nc, fun i j => A'.e i j / c i⟩ ⟨b'.n, fun i => b'.e i / c i⟩ M := by
    refine ⟨h'.rows, h'.len, h'.cols, fun i hi j hj => ?_⟩
    have e := h'.ent i hi j hj
    push_cast at e
    dsimp only
    rw [← ite_div, e, mul_div_cancel_left₀ _ (hc' i).ne']
  have k := same_ints h t hq hd
  obtain ⟨Y, hY, y1, y2, y3⟩ := columnStack_ok (h'.len.trans h'.rows.symm)
  obtain ⟨Z, hZ, z1, z2, z3⟩ := columnStack_ok (t.len.trans t.rows.symm)
  have e : Z = ⟨Y.nr, Y.nc, fun i j => Y.e i j / c i⟩ := by
    obtain ⟨zr, zc, Z⟩ := Z
    obtain ⟨yr, yc, Y⟩ := Y
    dsimp only at *
    subst z1 z2 y1 y2
    congr 1
    funext i j
    rw [z3, y3, ite_div]
  unfold assertSameRows at k ⊢
  rw [hZ, e] at k
  rw [hY]
  simpa only [Py.ok_bind, same_rows_scaled _ _ _ hc'] using k

/-- row `i` of a list of rows -/
noncomputable def nth (I : List (((ℕ → ℝ) → ℝ) × ℝ)) (i : ℕ) : ((ℕ → ℝ) → ℝ) × ℝ := I.getD i ((fun _ => 0), 0)

theorem rep_nth {n : ℕ} {p : Poly} {I E} (h : Rep n p I E) {i : ℕ} (hi : i < I.length) : rowVal p.A i = (nth I i).1 ∧ p.b.e i = (nth I i).2 :=
  rep_row h (by unfold nth; rw [List.getD_eq_getElem _ _ hi]; exact List.getElem?_eq_getElem hi)

/-- `minimal_facets` and `remove_redundant_inequalities` find `s`, if each row of `s` is violated at a point that satisfies the other rows of `s` and the later ones, and each other row follows from
the rows in `s` and the later ones -/
theorem facets_run {L : Lib} (hL : LibSpec L) {n : ℕ} {p : Poly} {I E} (h : Rep n p I E) (hc : p.EmptyOk L) (hI : 0 < I.length) (z : ℕ → ℝ)
    (hz : (∀ r ∈ I, r.1 z ≤ r.2) ∧ ∀ r ∈ E, r.1 z = r.2) (hn : ∑ i ∈ range n, z i ^ 2 < 1 / (1e-7 : ℝ) ^ 2 - 1) (heq : p.C.nr = 0 ∨ EqIndep n p.C)
    (s : List ℕ) (hs : s.Sublist (List.range I.length))
    (keep : ∀ i ∈ s, ∃ x, (∀ r ∈ E, r.1 x = r.2) ∧ (∀ j < I.length, j ≠ i → j ∈ s ∨ i < j → (nth I j).1 x ≤ (nth I j).2) ∧ (nth I i).2 + 1e-7 ≤ (nth I i).1 x)
    (drop : ∀ i < I.length, i ∉ s → ∀ x, (∀ r ∈ E, r.1 x = r.2) → (∀ j ∈ s, (nth I j).1 x ≤ (nth I j).2) →
      (∀ j < I.length, i < j → (nth I j).1 x ≤ (nth I j).2) → (nth I i).1 x < (nth I i).2 + 1e-7) :
    ∃ q, ask p (Poly.minimal_facets L) = .ok (some s, q) ∧ Rep n q I E ∧ q.EmptyOk L ∧ q.C = p.C ∧
      ∃ t, Poly.runOn p (Poly.remove_redundant_inequalities L) = .ok t ∧ Rep n t (s.map (nth I)) E ∧ t.C = p.C := by
  have hA : p.A.nr = I.length := h.len.1
  have hE : ∀ x, EqHold p.C p.d x ↔ ∀ r ∈ E, r.1 x = r.2 := fun x => by
    rw [← h.eqs]
    simp [EqHold]
  have near : NearPoint n p.A p.b p.C p.d := ⟨z, (h.mem z).2 hz, hn⟩
  obtain ⟨r, h1, h2, h3, h4, h5, h6⟩ := redundancy_run hL h.inv (Or.inl (by omega)) hc near heq (tol := 1e-7) (by norm_num)
  have sub : ∀ i ∈ s, i < I.length := fun i hi => List.mem_range.1 (hs.subset hi)
  have le : ∀ {j x}, j < I.length → (rowVal p.A j x ≤ p.b.e j ↔ (nth I j).1 x ≤ (nth I j).2) := fun {j x} hj => by
    rw [(rep_nth h hj).1, (rep_nth h hj).2]
  have same : ∀ i < I.length, (i ∈ r ↔ i ∈ s) := by
    intro i
    induction i using Nat.strong_induction_on with
    | _ i ih =>
      intro hlt
      constructor
      · intro hi
        by_contra his
        obtain ⟨x, x1, x2, x3, x4⟩ := h5 i hi
        have := drop i hlt his x ((hE x).1 x1) (fun j hj => (le (sub j hj)).1 (by
          rcases lt_or_ge i j with k | k
          · exact x3 j (by rw [hA]; exact sub j hj) k
          · have hne : j ≠ i := fun e => his (e ▸ hj)
            exact x2 j ((ih j (by omega) (sub j hj)).2 hj) hne)) fun j hj hij => (le hj).1 (x3 j (hA.symm ▸ hj) hij)
        rw [(rep_nth h hlt).1, (rep_nth h hlt).2] at x4
        linarith
      · intro hi
        by_contra hir
        obtain ⟨x, x1, x2, x3⟩ := keep i hi
        have := h6 i (by rw [hA]; exact hlt) hir x ((hE x).2 x1) (fun j hj => by
          have hj' : j < I.length := hA ▸ h4 j hj
          have hne : j ≠ i := fun e => hir (e ▸ hj)
          refine (le hj').2 (x2 j hj' hne ?_)
          rcases lt_or_ge i j with k | k
          · exact Or.inr k
          · exact Or.inl ((ih j (by omega) hj').1 hj)) fun j hj hij => (le (hA ▸ hj)).2 (x2 j (hA ▸ hj) (by omega) (Or.inr hij))
        rw [(rep_nth h hlt).1, (rep_nth h hlt).2] at this
        linarith
  have pr : r.Pairwise (· < ·) := List.Pairwise.sublist h3 List.pairwise_lt_range
  have ps : s.Pairwise (· < ·) := List.Pairwise.sublist hs List.pairwise_lt_range
  obtain rfl : r = s := List.Perm.eq_of_pairwise (fun a b _ _ h1 h2 => absurd h1 (lt_asymm h2)) pr ps
    ((List.perm_ext_iff_of_nodup (pr.imp fun h => h.ne) (ps.imp fun h => h.ne)).2 fun i => ⟨fun k => (same i (hA ▸ h4 i k)).1 k, fun k => (same i (sub i k)).2 k⟩)
  refine ⟨{ p with _empty := some false }, by unfold ask; rw [h1], ⟨h.inv, h.ineq, h.eqs⟩, fun e he => ?_, rfl, _, runOn_ok.2 (h2 rfl),
    ⟨⟨h.inv.1, rfl, h.inv.2.2.1, h.inv.2.2.2⟩, ?_, h.eqs⟩, rfl⟩
  · cases he
    exact (Poly.computeEmpty_false_iff hL h.inv (Or.inl (by omega))).2 near
  · refine List.ext_getElem (by simp [Mat.rows]) fun k k1 k2 => ?_
    have hk : k < r.length := by simpa using k2
    rw [List.getElem_map, List.getElem_map, List.getElem_range]
    have e := rep_nth h (sub r[k] (List.getElem_mem hk))
    show (rowVal p.A (r.getD k 0), p.b.e (r.getD k 0)) = _
    rw [List.getD_eq_getElem _ _ hk, e.1, e.2]

theorem indep_diag {p : Poly} {I a} (h : Rep 2 p I [(fun z => z 0 + z 1, a)]) : EqIndep 2 p.C := by
  have cr : p.C.nr = 1 := h.len.2
  have cc : p.C.nc = 2 := h.inv.2.2.1
  have hE := h.eqs
  rw [cr] at hE
  simp at hE
  refine ⟨by omega, fun w hw i hi => ?_⟩
  have := hw 0 (by norm_num)
  have e : p.C.e 0 0 = 1 := by
    have := congrFun hE.1 fun k => if k = 0 then 1 else 0
    simpa [rowVal, cc, sum_range_succ] using this
  rw [cr, sum_range_one, e, mul_one] at this
  rw [cr] at hi
  interval_cases i
  exact this

/-- the inequalities of `redundantRows` -/
noncomputable def sixRows : List (((ℕ → ℝ) → ℝ) × ℝ) :=
  [(fun z => z 0 + z 1, 1), (fun z => -z 0 + z 1, 1), (fun z => -z 1, 1), (fun z => z 1, 1), (fun z => z 1, 2), (fun z => 2 * z 0 + 2 * z 1, 2)]

theorem redundantRows_ok (L : Lib) (hL : LibSpec L) : redundantRows L = .ok () := by
  obtain ⟨p, h1, r1⟩ := rep_init (A := intArray 2 [[1, 1], [-1, 1], [0, -1], [0, 1], [0, 1], [2, 2]]) (b := intVec [1, 1, 1, 1, 2, 2]) rfl
  have r1 : Rep 2 p sixRows [] := by
    refine ⟨r1.inv, r1.ineq.trans ?_, r1.eqs⟩
    simp [sixRows, intArray, intVec, List.range_succ, funext_iff, rowVal, Finset.sum_range_succ]
  have c1 : p.EmptyOk L := fun e he => by
    obtain ⟨b, -, -, ⟨-, -, rfl⟩ | h⟩ := Poly.init_eq_ok.1 h1
    · cases he
    · simp at h
  obtain ⟨q, q1, q2, q3, q4, -⟩ := facets_run hL r1 c1 (by simp [sixRows]) (fun _ => 0) (by simp [sixRows]) (by norm_num) (Or.inl r1.len.2) [1, 2, 5] (by decide)
    (fun i hi => by
      simp at hi
      rcases hi with rfl | rfl | rfl
      · refine ⟨fun j => if j = 0 then -2 else 0, by simp, fun j hj hne hs => ?_, by norm_num [nth, sixRows]⟩
        change j < 6 at hj
        interval_cases j <;> first | (exfalso; simp at hne; done) | (exfalso; simp at hs; done) | norm_num [nth, sixRows]
      · refine ⟨fun j => if j = 0 then 0 else -2, by simp, fun j hj hne hs => ?_, by norm_num [nth, sixRows]⟩
        change j < 6 at hj
        interval_cases j <;> first | (exfalso; simp at hne; done) | (exfalso; simp at hs; done) | norm_num [nth, sixRows]
      · refine ⟨fun j => if j = 0 then 2 else 0, by simp, fun j hj hne hs => ?_, by norm_num [nth, sixRows]⟩
        change j < 6 at hj
        interval_cases j <;> first | (exfalso; simp at hne; done) | (exfalso; simp at hs; done) | norm_num [nth, sixRows])
    (fun i hi his x _ k1 k2 => by
      change i < 6 at hi
      have a1 := k1 1 (by simp)
      have a2 := k1 2 (by simp)
      have a5 := k1 5 (by simp)
      simp [nth, sixRows] at a1 a2 a5
      interval_cases i <;> first | (exfalso; simp at his; done) | (norm_num [nth, sixRows]; done) | (norm_num [nth, sixRows]; linarith))
  obtain ⟨t, t1, t2, t3⟩ := rep_ineq q2 (F := Mat.zeros 1 2) (f := full 1 1) (idx := none) rfl rfl
  have t3 : Rep 2 t (sixRows ++ [(fun _ => 0, 1)]) [] := by
    convert t3 using 2
    simp [Mat.zeros, full]
  have fr : ∀ {p : Poly}, Rep 2 p (sixRows ++ [(fun _ => 0, 1)]) [] → p.EmptyOk L → _ := fun {p} h hc =>
    facets_run hL h hc (by simp [sixRows]) (fun _ => 0) (by simp [sixRows]) (by norm_num) (Or.inl h.len.2) [1, 2, 5] (by decide)
    (fun i hi => by
      simp at hi
      rcases hi with rfl | rfl | rfl
      · refine ⟨fun j => if j = 0 then -2 else 0, by simp, fun j hj hne hs => ?_, by norm_num [nth, sixRows]⟩
        change j < 7 at hj
        interval_cases j <;> first | (exfalso; simp at hne; done) | (exfalso; simp at hs; done) | norm_num [nth, sixRows]
      · refine ⟨fun j => if j = 0 then 0 else -2, by simp, fun j hj hne hs => ?_, by norm_num [nth, sixRows]⟩
        change j < 7 at hj
        interval_cases j <;> first | (exfalso; simp at hne; done) | (exfalso; simp at hs; done) | norm_num [nth, sixRows]
      · refine ⟨fun j => if j = 0 then 2 else 0, by simp, fun j hj hne hs => ?_, by norm_num [nth, sixRows]⟩
        change j < 7 at hj
        interval_cases j <;> first | (exfalso; simp at hne; done) | (exfalso; simp at hs; done) | norm_num [nth, sixRows])
    (fun i hi his x _ k1 k2 => by
      change i < 7 at hi
      have a1 := k1 1 (by simp)
      have a2 := k1 2 (by simp)
      have a5 := k1 5 (by simp)
      simp [nth, sixRows] at a1 a2 a5
      interval_cases i <;> first | (exfalso; simp at his; done) | (norm_num [nth, sixRows]; done) | (norm_num [nth, sixRows]; linarith))
  obtain ⟨u, u1, u2, u3, -⟩ := fr t3 (fresh_emptyOk t2)
  obtain ⟨-, -, -, -, -, v, v1, v2, -⟩ := fr u2 u3
  have tv : Table 3 3 v.A v.b (fun i j => (if i = 2 then 2 else 1) * tab [[-1, 1, 1], [0, -1, 1], [1, 1, 1]] i j) := by
    refine rep_table (m := 3) v2 rfl _ fun i hi => ?_
    interval_cases i <;> refine ⟨_, rfl, fun j hj => ?_, ?_⟩ <;> (try interval_cases j) <;> simp [tab, nth, sixRows]
  have hv := same_scaled_ints (intTable (n := 2) (l := [[-1, 1], [0, -1], [1, 1]]) (v := [1, 1, 1]) rfl [[-1, 1, 1], [0, -1, 1], [1, 1, 1]] (by decide)) tv
    (fun i => by split <;> norm_num) (by decide) (by decide)
  have hm : isMinimal [1, 2, 5] = true := by decide
  unfold redundantRows
  rw [h1, Py.ok_bind, q1, Py.ok_bind]
  dsimp only
  rw [show facetList (some [1, 2, 5]) = .ok [1, 2, 5] from rfl, Py.ok_bind, hm, show assertTrue true = .ok () from rfl, Py.ok_bind, t1, Py.ok_bind, u1, Py.ok_bind]
  dsimp only
  rw [show facetList (some [1, 2, 5]) = .ok [1, 2, 5] from rfl, Py.ok_bind, hm, show assertTrue true = .ok () from rfl, Py.ok_bind, v1, Py.ok_bind]
  exact hv

/-- the rows `x_0 ≤ 1` and `x_1 ≤ 1` -/
noncomputable def twoRows : List (((ℕ → ℝ) → ℝ) × ℝ) := [(fun z => 1 * z 0, 1), (fun z => 1 * z 1, 1)]

theorem twoRows_same {p : Poly} {E} (h : Rep 2 p twoRows E) : assertSameRows (intArray 2 [[1, 0], [0, 1]]) (intVec [1, 1]) p.A p.b = .ok () := by
  have t : Table 2 3 p.A p.b (tab [[1, 0, 1], [0, 1, 1]]) := by
    refine rep_table (m := 2) h rfl _ fun i hi => ?_
    interval_cases i <;> refine ⟨_, rfl, fun j hj => ?_, ?_⟩ <;> (try interval_cases j) <;> simp [tab]
  exact same_lists (n := 2) (l := [[1, 0], [0, 1]]) (v := [1, 1]) rfl [[1, 0, 1], [0, 1, 1]] (by decide) t (by decide) (by decide)

/-- a third inequality that follows from the others and from `x_0 + x_1 = 1` is removed -/
theorem third_removed {L : Lib} (hL : LibSpec L) {p : Poly} {r : ((ℕ → ℝ) → ℝ) × ℝ} (h : Rep 2 p (twoRows ++ [r]) [(fun z => z 0 + z 1, 1)]) (hc : p.EmptyOk L)
    (h0 : r.1 (fun _ => 1 / 2) ≤ r.2) (h1 : r.1 (fun j => if j = 0 then 1.01 else -0.01) ≤ r.2) (h2 : r.1 (fun j => if j = 0 then -0.01 else 1.01) ≤ r.2)
    (hr : ∀ x : ℕ → ℝ, x 0 + x 1 = 1 → x 0 ≤ 1 → x 1 ≤ 1 → r.1 x ≤ r.2) :
    ∃ t, Poly.runOn p (Poly.remove_redundant_inequalities L) = .ok t ∧ Rep 2 t twoRows [(fun z => z 0 + z 1, 1)] := by
  obtain ⟨q, -, -, -, -, t, t1, t2, -⟩ := facets_run hL h hc (by simp) (fun _ => 1 / 2) (by
      constructor
      · intro s hs
        simp [twoRows] at hs
        rcases hs with rfl | rfl | rfl
        · norm_num
        · norm_num
        · exact h0
      · norm_num) (by norm_num) (Or.inr (indep_diag h)) [0, 1] (by simp [twoRows, List.range_succ])
    (fun i hi => by
      simp at hi
      rcases hi with rfl | rfl
      · refine ⟨fun j => if j = 0 then 1.01 else -0.01, by norm_num, fun j hj hne hs => ?_, by norm_num [nth, twoRows]⟩
        change j < 3 at hj
        interval_cases j
        · exact absurd rfl hne
        · norm_num [nth, twoRows]
        · exact h1
      · refine ⟨fun j => if j = 0 then -0.01 else 1.01, by norm_num, fun j hj hne hs => ?_, by norm_num [nth, twoRows]⟩
        change j < 3 at hj
        interval_cases j
        · norm_num [nth, twoRows]
        · exact absurd rfl hne
        · exact h2)
    (fun i hi his x e k1 k2 => by
      change i < 3 at hi
      have e := e _ (List.mem_singleton_self _)
      have a0 := k1 0 (by simp)
      have a1 := k1 1 (by simp)
      simp [nth, twoRows] at a0 a1
      interval_cases i
      · simp at his
      · simp at his
      · have := hr x e a0 a1
        show r.1 x < r.2 + 1e-7
        norm_num
        linarith)
  exact ⟨t, t1, t2⟩

theorem remove_raises {L : Lib} (hL : LibSpec L) {n : ℕ} {p : Poly} {I E} (h : Rep n p I E) (hf : p = Poly.fresh p.A p.b p.C p.d) (hI : 0 < I.length)
    (hz : ∀ z, (∀ r ∈ I, r.1 z ≤ r.2) → (∀ r ∈ E, r.1 z = r.2) → False) : assertValueError (Poly.runOn p (Poly.remove_redundant_inequalities L)) = .ok () := by
  have := ((C09_errors L hL n p h.inv (fresh_emptyOk hf) 1e-7).2.1 (Or.inl (by rw [h.len.1]; exact hI)) (Or.inl fun z k => hz z ((h.mem z).1 k).1 ((h.mem z).1 k).2)).2
  unfold Poly.runOn
  rw [this]
  rfl

theorem redundantMixed_ok (L : Lib) (hL : LibSpec L) : redundantMixed L = .ok () := by
  obtain ⟨p0, h0, -, r0⟩ := rep_box (-1) 1
  obtain ⟨p1, h1, f1, r1⟩ := rep_diag r0 1
  have fr : ∀ {p : Poly}, p.EmptyOk L → Rep 2 p [(fun z => -1 * z 0, - -1), (fun z => -1 * z 1, - -1), (fun z => 1 * z 0, 1), (fun z => 1 * z 1, 1)]
      [(fun z => z 0 + z 1, 1)] → ∃ q, ask p (Poly.minimal_facets L) = .ok (some [2, 3], q) ∧
      Rep 2 q [(fun z => -1 * z 0, - -1), (fun z => -1 * z 1, - -1), (fun z => 1 * z 0, 1), (fun z => 1 * z 1, 1)] [(fun z => z 0 + z 1, 1)] ∧ q.EmptyOk L ∧
      ∃ t, Poly.runOn p (Poly.remove_redundant_inequalities L) = .ok t ∧ Rep 2 t twoRows [(fun z => z 0 + z 1, 1)] := fun {p} hc h => by
    obtain ⟨q, q1, q2, q3, -, t, t1, t2, -⟩ := facets_run hL h hc (by simp) (fun _ => 1 / 2) (by norm_num) (by norm_num) (Or.inr (indep_diag h)) [2, 3] (by decide)
      (fun i hi => by
        simp at hi
        rcases hi with rfl | rfl
        · refine ⟨fun j => if j = 0 then 1.01 else -0.01, by norm_num, fun j hj hne hs => ?_, by norm_num [nth]⟩
          change j < 4 at hj
          interval_cases j <;> first | (exfalso; simp at hne; done) | norm_num [nth]
        · refine ⟨fun j => if j = 0 then -0.01 else 1.01, by norm_num, fun j hj hne hs => ?_, by norm_num [nth]⟩
          change j < 4 at hj
          interval_cases j <;> first | (exfalso; simp at hne; done) | norm_num [nth])
      (fun i hi his x e k1 k2 => by
        change i < 4 at hi
        have e := e _ (List.mem_singleton_self _)
        have a0 := k1 2 (by simp)
        have a1 := k1 3 (by simp)
        simp [nth] at a0 a1
        dsimp only at e
        interval_cases i <;> first | (exfalso; simp at his; done) | (norm_num [nth]; linarith))
    exact ⟨q, q1, q2, q3, t, t1, t2⟩
  obtain ⟨q1, a1, a2, a3, -⟩ := fr (fresh_emptyOk f1) r1
  obtain ⟨-, -, -, -, p2, h2, r2⟩ := fr a3 a2
  obtain ⟨p3, h3, f3, r3⟩ := rep_ineq r2 (F := ones12) (f := full 1 1) (idx := none) rfl rfl
  obtain ⟨p4, h4, r4⟩ := third_removed hL (r := (fun z => z 0 + z 1, 1)) (by
    convert r3 using 2
    rw [sel2]
    simp [ones12, full, Finset.sum_range_succ]) (fresh_emptyOk f3) (by norm_num) (by norm_num) (by norm_num) fun x h _ _ => h.le
  obtain ⟨p5, h5, f5, r5⟩ := rep_ineq r4 (F := intArray 2 [[-1, 1]]) (f := full 1 1.1) (idx := none) rfl rfl
  obtain ⟨p6, h6, r6⟩ := third_removed hL (r := (fun z => -z 0 + z 1, 1.1)) (by
    convert r5 using 2
    rw [sel2]
    simp [intArray, full, Finset.sum_range_succ]) (fresh_emptyOk f5) (by norm_num) (by norm_num) (by norm_num) fun x h _ _ => by
      dsimp only
      norm_num
      linarith
  obtain ⟨p7, h7, f7, r7⟩ := rep_diag r6 (-1)
  have e7 := remove_raises hL r7 f7 (by simp [twoRows]) fun z _ hE => by
    have e1 := hE (fun z => z 0 + z 1, 1) (by simp)
    have e2 := hE (fun z => z 0 + z 1, -1) (by simp)
    dsimp only at e1 e2
    linarith
  obtain ⟨p8, h8, f8, r8⟩ := rep_box 1 0
  have e8 := remove_raises hL r8 f8 (by simp) fun z hI _ => by
    have e1 := hI (fun z => -1 * z 0, -1) (by simp)
    have e2 := hI (fun z => 1 * z 0, 0) (by simp)
    dsimp only at e1 e2
    linarith
  unfold redundantMixed
  rw [h0, Py.ok_bind, h1, Py.ok_bind, a1, Py.ok_bind]
  dsimp only
  rw [show facetList (some [2, 3]) = .ok [2, 3] from rfl, Py.ok_bind, show assertTrue (decide ([2, 3] = [2, 3].insertionSort (· ≤ ·))) = .ok () from rfl, Py.ok_bind]
  rw [h2, Py.ok_bind, twoRows_same r2, Py.ok_bind, h3, Py.ok_bind, h4, Py.ok_bind, twoRows_same r4, Py.ok_bind, h5, Py.ok_bind, h6, Py.ok_bind, twoRows_same r6, Py.ok_bind,
    h7, Py.ok_bind, e7, Py.ok_bind, h8, Py.ok_bind]
  exact e8

/-- C206: `test_remove_redundant_inequalities` passes. -/
theorem C206 (L : Lib) (hL : LibSpec L) : redundantRows L = .ok () ∧ redundantMixed L = .ok () := ⟨redundantRows_ok L hL, redundantMixed_ok L hL⟩

end Verif.TestSuite
