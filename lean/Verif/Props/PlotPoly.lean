import Verif.Proofs.PlotPoly
import Verif.Props.Vertices
import Verif.Spec.Corners

/- The plot of a polyhedron. -/
namespace Verif.Props
open Finset Plot

/-- C114: `plot` raises `ValueError` unless there are two coordinates, and draws nothing if there are no vertices.  For a bounded polyhedron whose
vertices are found (the list may contain other points of the polyhedron too, as the lists stored by the projection do) it draws one closed path, named after the coordinates; the path encloses exactly the projection of the polyhedron on the two
coordinates.  If this projection is contained in a line (for example because the two coordinates are the same) it raises. -/
theorem C114 (L : Lib) (Q : Qhull) (hQ : QhullSpec Q) (hv : HullVertices) (hhv : HullVerticesSpec hv) (p : Poly) :
    (∀ dims : List ℕ, dims.length ≠ 2 → plotPolyhedron L Q hv dims p = (.error .valueError, p)) ∧
    (∀ q i j, Poly.vertices L Q p = (.ok none, q) → plotPolyhedron L Q hv [i, j] p = (.ok [], q)) ∧
    ∀ n vs q i j, p.Inv n → Spec.IsBounded n p.A p.b p.C p.d → Poly.vertices L Q p = (.ok (some vs), q) →
      Spec.Corners n (Spec.InPoly p.A p.b p.C p.d) vs → i < n → j < n →
      ((¬ ∃ a a' c : ℝ, (a ≠ 0 ∨ a' ≠ 0) ∧ ∀ x, Spec.InPoly p.A p.b p.C p.d x → a * x i + a' * x j = c) →
        ∃ path, plotPolyhedron L Q hv [i, j] p =
            (.ok [.patch path, .xlabel ("$x_" ++ toString (i + 1) ++ "$"), .ylabel ("$x_" ++ toString (j + 1) ++ "$")], q) ∧
          path.head? = path.getLast? ∧ ∀ y, y ∈ Spec.enclosed path ↔ ∃ x, Spec.InPoly p.A p.b p.C p.d x ∧ x i = y.1 ∧ x j = y.2) ∧
      ((∃ a a' c : ℝ, (a ≠ 0 ∨ a' ≠ 0) ∧ ∀ x, Spec.InPoly p.A p.b p.C p.d x → a * x i + a' * x j = c) →
        ∃ e, plotPolyhedron L Q hv [i, j] p = (.error e, q)) := by
  refine ⟨fun dims hd => ?_, fun q i j h => ?_, fun n vs q i j hp hbd hrun hvs hi hj => ?_⟩
  · match dims, hd with
    | [], _ => rfl
    | [_], _ => rfl
    | [_, _], hd => exact absurd rfl hd
    | _ :: _ :: _ :: _, _ => rfl
  · unfold plotPolyhedron
    simp only []
    rw [PyM.bind_ok h]
    rfl
  · have hplot : plotPolyhedron L Q hv [i, j] p = (patchCmds Q hv vs i j, q) := by
      unfold plotPolyhedron
      simp only []
      rw [PyM.bind_ok hrun]
      rfl
    rw [hplot]
    by_cases hne : vs = []
    · -- there is no vertex, so the polyhedron is empty
      have hemp : ∀ x, ¬ Spec.InPoly p.A p.b p.C p.d x := fun x hx => by
        obtain ⟨v, hv', -⟩ := exists_vertex_max hp hbd hx fun _ => 0
        obtain ⟨w, hw, -⟩ := hvs.2 v hv'
        rw [hne] at hw
        cases hw
      refine ⟨fun h => absurd ⟨1, 0, 0, Or.inl one_ne_zero, fun x hx => absurd hx (hemp x)⟩ h, fun _ => ?_⟩
      subst hne
      exact ⟨.valueError, rfl⟩
    · obtain ⟨V, hV, hVn⟩ := vstack_ofRow_ok hne fun v hv' => (hvs.1 v hv').1
      obtain ⟨v1, v2, v3⟩ := vstack_ofRow hV
      set P : Mat ℝ := V.cols [i, j] with hPdef
      have hP : Geom.colsAt V [i, j] = .ok P := if_pos (by
        intro k hk
        simp only [List.mem_cons, List.not_mem_nil, or_false] at hk
        rw [hVn]
        rcases hk with rfl | rfl
        · exact hi
        · exact hj)
      have hPr : P.nr = vs.length := v1
      have hP2 : P.nc = 2 := rfl
      have e0 : ∀ k (hk : k < vs.length), P.e k 0 = vs[k].e i := fun k hk => v3 k hk i
      have e1 : ∀ k (hk : k < vs.length), P.e k 1 = vs[k].e j := fun k hk => v3 k hk j
      have hrows : ∀ k < P.nr, ∃ x, Spec.InPoly p.A p.b p.C p.d x ∧ P.e k 0 = x i ∧ P.e k 1 = x j := fun k hk => by
        rw [hPr] at hk
        exact ⟨vs[k].e, (hvs.1 _ (List.getElem_mem hk)).2, e0 k hk, e1 k hk⟩
      have hverts : ∀ v, Spec.IsVertex n (Spec.InPoly p.A p.b p.C p.d) v → ∃ k < P.nr, P.e k 0 = v i ∧ P.e k 1 = v j := fun v hv' => by
        obtain ⟨w, hw, hwe⟩ := hvs.2 v hv'
        obtain ⟨k, hk, rfl⟩ := List.getElem_of_mem hw
        exact ⟨k, by rw [hPr]; exact hk, by rw [e0 k hk, hwe i hi], by rw [e1 k hk, hwe j hj]⟩
      have hproj := proj_hull hp hbd hi hj hP2 hrows hverts
      -- the rows are on a line when the projection is
      have hfull : Spec.FullDim P ↔ ¬ ∃ a a' c : ℝ, (a ≠ 0 ∨ a' ≠ 0) ∧ ∀ x, Spec.InPoly p.A p.b p.C p.d x → a * x i + a' * x j = c := by
        constructor
        · rintro hF ⟨a, a', c, hne', hall⟩
          have := hF (fun l => if l = 0 then a else a') c fun k hk => by
            obtain ⟨x, hx, x0, x1⟩ := hrows k hk
            rw [hP2, sum_range_succ, sum_range_one, x0, x1]
            simpa using hall x hx
          have h0 := this 0 (by rw [hP2]; norm_num)
          have h1 := this 1 (by rw [hP2]; norm_num)
          simp only [if_true, one_ne_zero, if_false] at h0 h1
          rcases hne' with h | h
          · exact h h0
          · exact h h1
        · intro hno a c hall l hl
          by_contra hl0
          rw [hP2] at hl
          refine hno ⟨a 0, a 1, c, ?_, fun x hx => ?_⟩
          · interval_cases l
            · exact Or.inl hl0
            · exact Or.inr hl0
          · obtain ⟨w, w1, w2, w3⟩ := (hproj (x i, x j)).2 ⟨x, hx, rfl, rfl⟩
            have g0 := w3 0 (by rw [hP2]; norm_num)
            have g1 := w3 1 (by rw [hP2]; norm_num)
            simp only [if_true, one_ne_zero, if_false] at g0 g1
            rw [g0, g1, mul_sum, mul_sum, ← sum_add_distrib]
            calc ∑ k ∈ range P.nr, (a 0 * (w k * P.e k 0) + a 1 * (w k * P.e k 1)) = ∑ k ∈ range P.nr, w k * c := by
                  refine sum_congr rfl fun k hk => ?_
                  have := hall k (mem_range.1 hk)
                  rw [hP2, sum_range_succ, sum_range_one] at this
                  rw [← this]; ring
              _ = c := by rw [← sum_mul, w2, one_mul]
      constructor
      · intro hno
        have hF := hfull.2 hno
        obtain ⟨E, hE, -⟩ := hQ.hull P (by rw [hP2]) hF
        have hccw := hhv P hP2 hF
        obtain ⟨k0, ks, hks⟩ := List.exists_cons_of_ne_nil (show hv P ≠ [] by
          intro h; have := hccw.three; rw [h] at this; simp at this)
        have hpts : (hv P).map (fun k => (P.e k 0, P.e k 1)) = (hv P).map (Spec.pt P) := rfl
        have h0 : ((hv P).map (Spec.pt P))[0]? = some (Spec.pt P k0) := by rw [hks]; rfl
        refine ⟨(hv P).map (Spec.pt P) ++ [Spec.pt P k0], ?_, ?_, fun y => ?_⟩
        · unfold patchCmds
          rw [hV, Py.ok_bind, hP, Py.ok_bind, hE, Py.ok_bind]
          simp only []
          rw [hpts, show np.listGet ((hv P).map (Spec.pt P)) 0 = .ok (Spec.pt P k0) by unfold np.listGet; rw [h0], Py.ok_bind]
          rfl
        · rw [List.getLast?_concat, hks]; rfl
        · rw [enclosed_hull hP2 hccw h0, hproj]
      · intro hline
        obtain ⟨e, he⟩ := hQ.hull_flat P fun h => hfull.1 h hline
        refine ⟨e, ?_⟩
        unfold patchCmds
        rw [hV, Py.ok_bind, hP, Py.ok_bind, he]
        rfl

/-- the center of the polyhedron is known once its vertices are -/
theorem vertices_center {L : Lib} (hL : LibSpec L) {Q : Qhull} {n : ℕ} {p : Poly} (hp : p.Inv n) (hc : p.EmptyOk L)
    (hb : p._bounded = none ∨ p._bounded = some true) (hr : p._radius = none) (hce : p._center = none) (hv : p._vertices = none)
    (hne : Spec.NearPoint n p.A p.b p.C p.d) (hbd : Spec.IsBounded n p.A p.b p.C p.d) (heq : p.C.nr = 0 ∨ Spec.EqIndep n p.C) (hdim : p.C.nr < n)
    {vs : List (Vec ℝ)} {q : Poly} (h : Poly.vertices L Q p = (.ok (some vs), q)) :
    ∃ c, Poly.center L q = (.ok (some c), q) ∧ c.n = n ∧ Spec.InPoly p.A p.b p.C p.d c.e := by
  obtain ⟨r, c, q', k1, k2, k3, k4, -, -, -, -, -, hcen, hlt, hge⟩ := vertices_run hL Q hp hc hb hr hce hv hne hbd heq hdim
  have hq : q._center = some c := by
    rcases lt_or_ge r 1e-7 with hr | hr
    · rw [hlt hr] at h
      cases h
    · rw [hge hr] at h
      cases hcv : Poly.computeVertices L Q p c with
      | error e => rw [hcv] at h; cases h
      | ok vs' => rw [hcv] at h; cases h; exact hcen
  refine ⟨c, ?_, k1, ?_⟩
  swap
  · have := k4 (fun _ => 0) (fun i hi => by simp [Spec.rowVal]) (by simpa using k3)
    simpa using this
  unfold Poly.center
  rw [PyM.bind_ok (PyM.get_apply q), hq]
  rfl

/-- the vertices of the square `[-1, 1]²` of `C86` are found -/
theorem squareTight_vertices (L : Lib) (hL : LibSpec L) (Q : Qhull) (hQ : QhullSpec Q) :
    ∃ vs q, Poly.vertices L Q (squareTight 1) = (.ok (some vs), q) ∧
      Spec.Corners 2 (Spec.InPoly (squareTight 1).A (squareTight 1).b (squareTight 1).C (squareTight 1).d) vs := by
  obtain ⟨h1, h2, h3, h4⟩ := squareTight_facts (t := 1) zero_le_one
  have hst : ConstantRowsStrict (squareTight 1).A (squareTight 1).b (squareTight 1).C (squareTight 1).d := by
    intro i hi hv x _
    have hi : i < 5 := hi
    have g0 := hv (fun j => if j = 0 then 1 else 0) (fun k hk => absurd hk (Nat.not_lt_zero k))
    have g1 := hv (fun j => if j = 0 then 0 else 1) (fun k hk => absurd hk (Nat.not_lt_zero k))
    interval_cases i <;> simp [squareTight, Poly.fresh, Spec.rowVal, Finset.sum_range_succ] at g0 g1 ⊢
  obtain ⟨vs, q, k1, -, -, -, -, -, k0, k2⟩ := (C86_partial L hL Q hQ 2 (squareTight 1) h1 (h2 L) (Or.inl rfl) rfl rfl rfl h3 h4 (Or.inl rfl)
    (by show 0 + 2 ≤ 2; norm_num)).1 hst ⟨_, squareTight_ball zero_le_one⟩
  exact ⟨vs, q, k1, fun w hw => ⟨k0 w hw, ((k2 w.e).1 ⟨w, hw, fun _ _ => rfl⟩).1⟩, fun x hx => (k2 x).2 hx⟩

theorem squareTight_thick : Spec.Thick 2 (Spec.InPoly (squareTight 1).A (squareTight 1).b (squareTight 1).C (squareTight 1).d) := by
  intro a c hall
  have hm := squareTight_mem (t := 1) zero_le_one
  have g1 := hall (fun _ => 0) ((hm _).2 (by norm_num))
  have g2 := hall (fun j => if j = 0 then 1 else 0) ((hm _).2 (by norm_num))
  have g3 := hall (fun j => if j = 0 then 0 else 1) ((hm _).2 (by norm_num))
  simp only [sum_range_succ, range_zero, sum_empty, zero_add] at g1 g2 g3
  norm_num at g1 g2 g3
  intro j hj
  interval_cases j <;> linarith

/-- the square `[-1, 1]²` of `C86`: its plot encloses the points with coordinates between -1 and 1 -/
example (L : Lib) (hL : LibSpec L) (Q : Qhull) (hQ : QhullSpec Q) (hv : HullVertices) (hhv : HullVerticesSpec hv) :
    ∃ path q, plotPolyhedron L Q hv [1, 0] (squareTight 1) = (.ok [.patch path, .xlabel "$x_2$", .ylabel "$x_1$"], q) ∧
      ∀ y : ℝ × ℝ, y ∈ Spec.enclosed path ↔ |y.1| ≤ 1 ∧ |y.2| ≤ 1 := by
  obtain ⟨h1, -, -, h4⟩ := squareTight_facts (t := 1) zero_le_one
  obtain ⟨vs, q, k1, k2⟩ := squareTight_vertices L hL Q hQ
  have hm := squareTight_mem (t := 1) zero_le_one
  obtain ⟨path, p1, -, p2⟩ := (((C114 L Q hQ hv hhv (squareTight 1)).2.2 2 vs q 1 0 h1 h4 k1 k2 (by norm_num) (by norm_num)).1 (by
    rintro ⟨a, a', c, hne, hall⟩
    have g1 := hall (fun _ => 0) ((hm _).2 (by norm_num))
    have g2 := hall (fun j => if j = 0 then 1 else 0) ((hm _).2 (by norm_num))
    have g3 := hall (fun j => if j = 0 then 0 else 1) ((hm _).2 (by norm_num))
    norm_num at g1 g2 g3
    rcases hne with h | h
    · exact h (by linarith)
    · exact h (by linarith)))
  refine ⟨path, q, p1, fun y => (p2 y).trans ?_⟩
  constructor
  · rintro ⟨x, hx, e1, e2⟩
    have := (hm x).1 hx
    rw [e1, e2] at this
    exact ⟨this.2, this.1⟩
  · rintro ⟨a1, a2⟩
    exact ⟨fun j => if j = 0 then y.2 else y.1, (hm _).2 (by simpa using ⟨a2, a1⟩), by simp, by simp⟩

end Verif.Props
