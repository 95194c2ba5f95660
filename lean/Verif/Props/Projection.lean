import Verif.Proofs.ProjectionMethod
import Verif.Proofs.Mcais
import Verif.Props.PolyhedronBounded

/- Properties of orthogonal projections (C22, C88). -/
namespace Verif.Props
open Finset

section
variable {L : Lib} (hL : LibSpec L) {n : ℕ} {p : Poly} (hp : p.Inv n) (hrows : p.HasRows) (hn : 0 < n) (hc : p.EmptyOk L)
  (hne : Spec.NearPoint n p.A p.b p.C p.d)
include hL hp hrows hn hc hne

/-- `project_to` on a polyhedron found to be bounded: the method is run on `A` and `b` -/
theorem projectWith_run (hbd : (p._bounded = none ∧ Spec.IsBounded n p.A p.b p.C p.d) ∨ p._bounded = some true) (hC : p.C.nr = 0) 
    (M : Mat ℝ → Vec ℝ → Py (Option Geom.Projected)) :
    ∃ q : Poly, q.A = p.A ∧ q.b = p.b ∧ q.C = p.C ∧ q.d = p.d ∧
      (∀ s, M p.A p.b = .ok (some s) → s.f.n = s.E.nr → Poly.projectWith L M p =
        (.ok (some { Poly.fresh s.E s.f (Mat.zeros 0 s.E.nc) (Vec.zeros 0) with _vertices := some s.vertices }), { q with b := s.b })) ∧
      (∀ e, M p.A p.b = .error e → Poly.projectWith L M p = (.error e, q)) ∧
      ∀ proj q', Poly.projectWith L M p = (.ok (some proj), q') →
        ∃ s, M p.A p.b = .ok (some s) := by
  have he := (Poly.computeEmpty_false_iff hL hp hrows).2 hne
  obtain ⟨e, he', hrun⟩ := Poly.empty_run hL hp hrows hc
  rw [he] at he'
  cases he'
  set p1 : Poly := { p with _empty := some false } with hp1
  have hc1 : p1.EmptyOk L := fun e h => by cases h; exact he
  have hinv1 : p1.Inv n := hp
  obtain ⟨q, hq⟩ : ∃ q, Poly.bounded L p1 = (.ok true, q) := by
    rcases hbd with ⟨hb, hbd⟩ | hb
    · obtain ⟨r, q, h1, h2, -⟩ := C17_any_scaling L hL n p1 hinv1 hc1 hb hrows hn hne
      rw [h2 hbd] at h1
      exact ⟨q, h1⟩
    · refine ⟨p1, ?_⟩
      unfold Poly.bounded
      rw [PyM.bind_ok (PyM.get_apply p1), show p1._bounded = some true from hb]
      rfl
  obtain ⟨q1, q2, q3, q4, -⟩ := Dyn.bounded_state hL hinv1 hc1 hne hq
  have q1 : q.A = p.A := q1
  have q2 : q.b = p.b := q2
  have q3 : q.C = p.C := q3
  have q4 : q.d = p.d := q4
  have hlt : ¬ 0 < q.C.nr := by rw [q3]; omega
  refine ⟨q, q1, q2, q3, q4, fun s hs hsn => ?_, fun e hs => ?_, fun proj q' h => ?_⟩
  · unfold Poly.projectWith
    rw [PyM.bind_ok hrun, if_neg (by simp), PyM.bind_ok hq, if_pos rfl, PyM.bind_ok (PyM.get_apply q), if_neg hlt]
    rw [← q1, ← q2] at hs
    rw [hs]
    have : Poly.init s.E (.d1 s.f) = .ok (Poly.fresh s.E s.f (Mat.zeros 0 s.E.nc) (Vec.zeros 0)) :=
      Poly.init_eq_ok.2 ⟨s.f, rfl, hsn, Or.inl ⟨rfl, rfl, rfl⟩⟩
    simp only [PyM.bind_apply, PyM.lift_apply, PyM.modify_apply, this]
    rfl
  · unfold Poly.projectWith
    rw [PyM.bind_ok hrun, if_neg (by simp), PyM.bind_ok hq, if_pos rfl, PyM.bind_ok (PyM.get_apply q), if_neg hlt]
    rw [← q1, ← q2] at hs
    rw [hs]
    rfl
  · unfold Poly.projectWith at h
    rw [PyM.bind_ok hrun, if_neg (by simp), PyM.bind_ok hq, if_pos rfl, PyM.bind_ok (PyM.get_apply q), if_neg hlt, q1, q2] at h
    rcases hm : M p.A p.b with e | r
    · rw [hm] at h
      cases (Prod.mk.inj h).1
    · rw [hm] at h
      cases r with
      | none => cases Except.ok.inj (Prod.mk.inj h).1
      | some s => exact ⟨s, rfl⟩

/-- `project_to` on a polyhedron found to be bounded: the convex hull method is run on `A` and `b` -/
theorem project_run (hbd : (p._bounded = none ∧ Spec.IsBounded n p.A p.b p.C p.d) ∨ p._bounded = some true) (hC : p.C.nr = 0) (Q : Qhull)
    (rand : List (Vec ℝ) → Vec ℝ) (fuel : ℕ) (dims : List ℕ) :
    ∃ q : Poly, q.A = p.A ∧ q.b = p.b ∧ q.C = p.C ∧ q.d = p.d ∧
      (∀ s, Geom.convex_hull_method L Q rand fuel p.A p.b dims = .ok (some s) → s.f.n = s.E.nr → Poly.project_to L Q rand fuel dims p =
        (.ok (some { Poly.fresh s.E s.f (Mat.zeros 0 s.E.nc) (Vec.zeros 0) with _vertices := some s.vertices }), { q with b := s.b })) ∧
      (∀ e, Geom.convex_hull_method L Q rand fuel p.A p.b dims = .error e → Poly.project_to L Q rand fuel dims p = (.error e, q)) ∧
      ∀ proj q', Poly.project_to L Q rand fuel dims p = (.ok (some proj), q') →
        ∃ s, Geom.convex_hull_method L Q rand fuel p.A p.b dims = .ok (some s) :=
  projectWith_run hL hp hrows hn hc hne hbd hC fun A b => Geom.convex_hull_method L Q rand fuel A b dims

end

/-- C22: orthogonal projection of a polytope `p` with a point and without equalities on the coordinates `dims`.  In every run that returns, whatever
the number of iterations of the expansion loop, the original polytope is unchanged, every point of the returned polytope is the projection of a point
of `p`, the stored vertices are such points too and include all the vertices of the returned polytope, which for two or more coordinates is not
contained in a hyperplane, and projected points violate the returned inequalities, which have norm one, by a small amount at
most; for one coordinate the result is exact.  The method returns if the projection contains a box with sides of length `1e-7`, and the expansion
loop runs at most `(2e8 + 1) ^ len(dims)` times, a number that does not depend on the polytope.

Partial: the violation is bounded by `tol` plus a multiple of the size of the polytope, not by `tol`, since the loop skips the facets whose normals
are within the tolerances of `np.allclose` of an explored direction; `C22_false` shows that the multiple cannot be avoided.  `C22_thin_false` shows
that thinner polytopes are not projected. -/
theorem C22_partial (L : Lib) (hL : LibSpec L) (Q : Qhull) (hQ : QhullSpec Q) (rand : List (Vec ℝ) → Vec ℝ) (hr : RandSpec rand) (n : ℕ) (p : Poly)
    (hp : p.Inv n) (hc : p.EmptyOk L) (hb : p._bounded = none ∨ p._bounded = some true) (hne : Spec.NearPoint n p.A p.b p.C p.d)
    (hbd : Spec.IsBounded n p.A p.b p.C p.d) (hC : p.C.nr = 0) (dims : List ℕ) (hd0 : dims ≠ []) (hd : ∀ i ∈ dims, i < n) (hnd : dims.Nodup)
    (fuel : ℕ) :
    (∀ proj q, Poly.project_to L Q rand fuel dims p = (.ok (some proj), q) →
      q.A = p.A ∧ q.b = p.b ∧ q.C = p.C ∧ q.d = p.d ∧ proj.Inv dims.length ∧
      (∀ i < proj.A.nr, ∑ j ∈ range dims.length, proj.A.e i j ^ 2 = 1) ∧
      (∀ y, proj.Mem y → Spec.InProj p.A p.b p.C p.d dims y) ∧
      (∀ D, (∀ y y', Spec.InProj p.A p.b p.C p.d dims y → Spec.InProj p.A p.b p.C p.d dims y' → ∀ j < dims.length, |y j - y' j| ≤ D) →
        ∀ y, Spec.InProj p.A p.b p.C p.d dims y → Spec.EqHold proj.C proj.d y ∧ ∀ i < proj.A.nr,
          Spec.rowVal proj.A i y ≤ proj.b.e i + 1e-7 + dims.length * (1e-8 + 1e-5) * D) ∧
      (dims.length = 1 → ∀ y, Spec.InProj p.A p.b p.C p.d dims y → proj.Mem y) ∧
      (∃ vs, proj._vertices = some vs ∧ (∀ v ∈ vs, v.n = dims.length ∧ Spec.InProj p.A p.b p.C p.d dims v.e) ∧
        Spec.Corners dims.length proj.Mem vs) ∧
      (2 ≤ dims.length → Spec.Thick dims.length proj.Mem)) ∧
    (dims.length = 1 ∨ (2 * 10 ^ 8 + 1) ^ dims.length < fuel ∧
        (∃ (y0 : ℕ → ℝ) (ε : ℝ), 1e-7 ≤ 2 * ε ∧ ∀ y : ℕ → ℝ, (∀ j < dims.length, |y j - y0 j| ≤ ε) → Spec.InProj p.A p.b p.C p.d dims y) →
      ∃ proj q, Poly.project_to L Q rand fuel dims p = (.ok (some proj), q)) := by
  obtain ⟨s1, s2, s3, s4⟩ := id hp
  have heq : ∀ x, Spec.EqHold p.C p.d x := fun x i hi => absurd hi (by omega)
  have hd' : ∀ i ∈ dims, i < p.A.nc := fun i hi => by rw [s1]; exact hd i hi
  have hproj : ∀ y, Projection.Pr dims.length (Projection.reordered p.A dims) p.b y ↔ Spec.InProj p.A p.b p.C p.d dims y := by
    intro y
    rw [Projection.pr_iff hd' hnd]
    exact ⟨fun ⟨x, h1, h2⟩ => ⟨x, ⟨h1, heq x⟩, h2⟩, fun ⟨x, h1, h2⟩ => ⟨x, h1.1, h2⟩⟩
  have hB : Projection.Body dims.length (Projection.reordered p.A dims) p.b := by
    refine Projection.body_reordered hd' hnd hd0 s2 ?_ ?_
    · obtain ⟨x, hx, -⟩ := hne
      exact ⟨x, hx.1⟩
    · obtain ⟨R, hR⟩ := hbd
      exact ⟨R, fun x hx j hj => hR x ⟨hx, heq x⟩ j (by rw [← s1]; exact hj)⟩
  have hn : 0 < n := by
    obtain ⟨i, hi⟩ := List.exists_mem_of_ne_nil _ hd0
    exact lt_of_le_of_lt (Nat.zero_le i) (hd i hi)
  obtain ⟨q, q1, q2, q3, q4, hrun, -, hret⟩ := project_run hL hp (Poly.hasRows_of_bounded hn hbd) hn hc hne (hb.imp (fun h => ⟨h, hbd⟩) id) hC Q rand fuel dims
  constructor
  · intro proj q' h
    obtain ⟨s, hs⟩ := hret proj q' h
    have hG := Projection.method_good hL hQ hB hd' hs
    rw [hrun s hs hG.fn] at h
    obtain ⟨h1, rfl⟩ := Prod.mk.inj h
    obtain rfl := Option.some.inj (Except.ok.inj h1)
    have heqp : ∀ y, Spec.EqHold (Mat.zeros 0 s.E.nc) (Vec.zeros 0) y := fun y i hi => absurd hi (Nat.not_lt_zero i)
    refine ⟨q1, hG.bb, q3, q4, ⟨hG.nc, hG.fn, hG.nc, rfl⟩, hG.unit, fun y hy => (hproj y).1 (hG.sound y hy.1), fun D hD y hy => ⟨heqp y, ?_⟩,
      fun h1 y hy => ⟨hG.exact1 h1 y ((hproj y).2 hy), heqp y⟩, ⟨s.vertices, rfl, fun v hv => ⟨(hG.verts v hv).1, (hproj _).1 (hG.verts v hv).2⟩,
        fun v hv => ⟨(hG.corners.1 v hv).1, (hG.corners.1 v hv).2, heqp _⟩,
        fun x hx => hG.corners.2 x ⟨hx.1.1, fun v h1 h2 => hx.2 v ⟨h1, heqp _⟩ ⟨h2, heqp _⟩⟩⟩,
      fun h2 a c h => hG.thick h2 a c fun y hy => h y ⟨hy, heqp y⟩⟩
    exact hG.bound D (fun y y' hy hy' => hD y y' ((hproj y).1 hy) ((hproj y').1 hy')) y ((hproj y).2 hy)
  · intro h
    obtain ⟨s, hs⟩ := Projection.method_total hL hQ hB hd' hr (fuel := fuel) (h.imp_right fun h =>
      ⟨by
        obtain ⟨y0, ε, h1, h2⟩ := h.2
        exact ⟨y0, ε, h1, fun y hy => (hproj y).2 (h2 y hy)⟩, h.1⟩)
    exact ⟨_, _, hrun s hs (Projection.method_good hL hQ hB hd' hs).fn⟩

/-- the cube `[-1, 1]^3` and the coordinates 2 and 0 meet the hypotheses -/
example : ∃ p : Poly, p.Inv 3 ∧ (∀ L, p.EmptyOk L) ∧ p._bounded = none ∧ Spec.NearPoint 3 p.A p.b p.C p.d ∧ Spec.IsBounded 3 p.A p.b p.C p.d ∧
    p.C.nr = 0 ∧ (∀ i ∈ [2, 0], i < 3) ∧ [2, 0].Nodup ∧
    ∃ (y0 : ℕ → ℝ) (ε : ℝ), 1e-7 ≤ 2 * ε ∧ ∀ y : ℕ → ℝ, (∀ j < 2, |y j - y0 j| ≤ ε) → Spec.InProj p.A p.b p.C p.d [2, 0] y := by
  let p := Poly.fresh ⟨6, 3, fun i j => if i = j then 1 else if i = j + 3 then -1 else 0⟩ ⟨6, fun _ => 1⟩ (Mat.zeros 0 3) (Vec.zeros 0)
  have heq : ∀ x, Spec.EqHold p.C p.d x := fun x i hi => absurd hi (Nat.not_lt_zero i)
  have hmem : ∀ x : ℕ → ℝ, p.Mem x ↔ ∀ j < 3, |x j| ≤ 1 := by
    intro x
    constructor
    · rintro ⟨h, -⟩ j hj
      have h1 := h j (by show j < 6; omega)
      have h2 := h (j + 3) (by show j + 3 < 6; omega)
      simp only [p, Poly.fresh, Finset.sum_range_succ, Finset.sum_range_zero, zero_add] at h1 h2
      rw [abs_le]
      interval_cases j <;> norm_num at h1 h2 <;> constructor <;> linarith
    · intro h
      refine ⟨fun i hi => ?_, heq x⟩
      have h0 := abs_le.1 (h 0 (by norm_num))
      have h1 := abs_le.1 (h 1 (by norm_num))
      have h2 := abs_le.1 (h 2 (by norm_num))
      have : i < 6 := hi
      simp only [p, Poly.fresh, Spec.rowVal, Finset.sum_range_succ, Finset.sum_range_zero, zero_add]
      interval_cases i <;> norm_num <;> linarith
  refine ⟨p, ⟨rfl, rfl, rfl, rfl⟩, fun L e h => (by cases h), rfl, ⟨fun _ => 0, (hmem _).2 (by simp), by norm_num⟩,
    ⟨1, fun x hx => (hmem x).1 hx⟩, rfl, by simp, by simp, fun _ => 0, 1, by norm_num, fun y hy => ?_⟩
  refine ⟨fun j => if j = 2 then y 0 else if j = 0 then y 1 else 0, (hmem _).2 fun j hj => ?_, fun k hk => ?_⟩
  · have h0 := hy 0 (by norm_num)
    have h1 := hy 1 (by norm_num)
    rw [sub_zero] at h0 h1
    interval_cases j <;> simp [h0, h1]
  · have : k < 2 := hk
    interval_cases k <;> simp

/-- C88: `project_to` raises `ValueError` on polyhedra reported empty, on polyhedra with a point near the origin that are unbounded and well scaled,
and on bounded ones with equalities, whatever the coordinates.  On polyhedra without inequalities and equalities it raises `RuntimeError`. -/
theorem C88 (L : Lib) (hL : LibSpec L) (Q : Qhull) (rand : List (Vec ℝ) → Vec ℝ) (fuel : ℕ) (n : ℕ) (p : Poly) (hp : p.Inv n) (hc : p.EmptyOk L)
    (hb : p._bounded = none) (dims : List ℕ) :
    (0 < p.A.nr ∨ 0 < p.C.nr →
      ¬ Spec.NearPoint n p.A p.b p.C p.d ∨ ¬ Spec.IsBounded n p.A p.b p.C p.d ∧ Spec.WellScaled 2e-7 n p.A p.C ∨
        Spec.IsBounded n p.A p.b p.C p.d ∧ 0 < p.C.nr →
      ∃ q, Poly.project_to L Q rand fuel dims p = (.error .valueError, q) ∧ q.A = p.A ∧ q.b = p.b ∧ q.C = p.C ∧ q.d = p.d) ∧
    (p.A.nr = 0 → p.C.nr = 0 → Poly.project_to L Q rand fuel dims p = (.error .runtimeError, p)) := by
  constructor
  swap
  · intro h1 h2
    unfold Poly.project_to Poly.projectWith
    rw [PyM.bind_error (Poly.empty_no_rows hL hp (by unfold Poly.HasRows; omega) hc)]
  intro hrows h
  obtain ⟨e, he, hrun⟩ := Poly.empty_run hL hp hrows hc
  unfold Poly.project_to Poly.projectWith
  rw [PyM.bind_ok hrun]
  by_cases hne : Spec.NearPoint n p.A p.b p.C p.d
  · have := (Poly.computeEmpty_false_iff hL hp hrows).2 hne
    rw [he] at this
    cases this
    rw [if_neg (by simp)]
    set p1 : Poly := { p with _empty := some false } with hp1
    have hc1 : p1.EmptyOk L := fun e h => by cases h; exact he
    have hinv1 : p1.Inv n := hp
    rcases Nat.eq_zero_or_pos n with rfl | hn
    · rw [PyM.bind_error (Poly.bounded_no_dim hL hinv1 hc1 hb he)]
      exact ⟨_, rfl, rfl, rfl, rfl, rfl⟩
    obtain ⟨r, q, h1, h2, -⟩ := C17_any_scaling L hL n p1 hinv1 hc1 hb hrows hn hne
    obtain ⟨q1, q2, q3, q4, -⟩ := Dyn.bounded_state hL hinv1 hc1 hne h1
    rw [PyM.bind_ok h1]
    rcases h with h | ⟨h, hsc⟩ | ⟨h, h0⟩
    · exact absurd hne h
    · obtain ⟨r', q', h3, h4⟩ := (C17 L hL n p1 hinv1 hc1 hb).1 hrows hn hne hsc
      rw [h1] at h3
      obtain ⟨h5, rfl⟩ := Prod.mk.inj h3
      obtain rfl := Except.ok.inj h5
      rw [if_neg fun h6 => h (h4.1 h6)]
      exact ⟨q, rfl, q1, q2, q3, q4⟩
    · rw [h2 h, if_pos rfl, PyM.bind_ok (PyM.get_apply q), if_pos (by rw [q3]; exact h0)]
      exact ⟨q, rfl, q1, q2, q3, q4⟩
  · obtain rfl : e = true := by
      cases e
      · exact absurd ((Poly.computeEmpty_false_iff hL hp hrows).1 he) hne
      · rfl
    rw [if_pos rfl]
    exact ⟨_, rfl, rfl, rfl, rfl, rfl⟩

/-- a half line meets the second case: it is unbounded and well scaled -/
example : ∃ p : Poly, p.Inv 1 ∧ (∀ L, p.EmptyOk L) ∧ p._bounded = none ∧ ¬ Spec.IsBounded 1 p.A p.b p.C p.d ∧ Spec.WellScaled 2e-7 1 p.A p.C := by
  let p := Poly.fresh ⟨1, 1, fun _ _ => 1⟩ ⟨1, fun _ => 1⟩ (Mat.zeros 0 1) (Vec.zeros 0)
  refine ⟨p, ⟨rfl, rfl, rfl, rfl⟩, fun L e h => (by cases h), rfl, ?_, ?_⟩
  · rintro ⟨R, hR⟩
    have := hR (fun _ => -|R| - 1) ⟨fun i hi => by
      simp [p, Poly.fresh, Spec.rowVal]
      linarith [abs_nonneg R], fun i hi => absurd hi (Nat.not_lt_zero i)⟩ 0 one_pos
    rw [abs_of_neg (by linarith [abs_nonneg R])] at this
    linarith [le_abs_self R]
  · refine Spec.wellScaled_of fun v hv _ => ?_
    simp [p, Poly.fresh, Spec.rowVal]
    obtain ⟨i, hi, h⟩ := ‹∃ i < _, _›
    simp [p, Poly.fresh, Spec.rowVal] at h
    have : 0 < |v 0| := abs_pos.2 h
    linarith

end Verif.Props
