import Verif.Model.TestCondense
import Verif.Props.PolyhedronTests
import Verif.Props.ControllerTest
import Verif.Props.PwaSystem

/- The tests of `condense`, `simulate` and `get_mode` (test_discrete_time_systems.py:22-41, 195-215, 325-390). -/
namespace Verif.Props
open Finset Spec Dyn TestSuite

/-- the states in one array, and the right-hand side computed with the condensed matrices -/
theorem stacked_eq {nx N : ℕ} (x : List (Vec ℝ)) (hlen : x.length = N + 1) (hx : ∀ v ∈ x, v.n = nx) (r : Vec ℝ) (hr : r.n = nx * (N + 1))
    (h : ∀ t v, x[t]? = some v → ∀ i < nx, r.e (nx * t + i) = v.e i) :
    ∃ xs, np.concatenate x = .ok xs ∧ xs.n = nx * (N + 1) ∧ (∀ t v, x[t]? = some v → ∀ i < nx, xs.e (nx * t + i) = v.e i) ∧
      assertArrayAlmostEqual (some xs) (some r) = .ok () ∧ assertArrayAlmostEqual (some r) (some xs) = .ok () := by
  obtain ⟨k1, k2⟩ := concat_const x hx
  rw [hlen, Nat.mul_comm] at k1
  have k2' : ∀ t v, x[t]? = some v → ∀ i < nx, (Vec.concat x).e (nx * t + i) = v.e i := fun t v hv i hi => by rw [Nat.mul_comm]; exact k2 t v hv i hi
  have he : ∀ i < nx * (N + 1), (Vec.concat x).e i = r.e i := fun i hi => by
    have hpos : 0 < nx := Nat.pos_of_ne_zero fun h0 => by rw [h0, Nat.zero_mul] at hi; omega
    have ht : i / nx < x.length := by rw [hlen]; exact Nat.div_lt_of_lt_mul hi
    have hm := Nat.mod_lt i hpos
    rw [← Nat.div_add_mod i nx, k2' _ _ (List.getElem?_eq_getElem ht) _ hm, h _ _ (List.getElem?_eq_getElem ht) _ hm]
  refine ⟨Vec.concat x, if_neg fun h0 => ?_, k1, k2', almost_same (k1.trans hr.symm) fun i hi => he i (k1 ▸ hi), almost_same (hr.trans k1.symm) fun i hi => (he i (hr ▸ hi)).symm⟩
  rw [h0] at hlen
  simp at hlen

theorem affine_init {nx nu : ℕ} {A B : Mat ℝ} {c : Vec ℝ} (hS : SystemShape nx nu A B c) : AffineSystem.init A B (.d1 c) = .ok ⟨A, B, c, nx, nu⟩ := by
  obtain ⟨s1, s2, s3, s4, s5⟩ := id hS
  unfold AffineSystem.init check_affine_system
  rw [if_neg (by omega), if_neg (by omega)]
  simp [checkOffset, checkStep, NDArr.ndim, NDArr.size, s1, s3, s4, s5]

/-- C184: for every affine and linear system with consistent sizes, every initial state and every non-empty list of inputs the bodies of `test_condense_and_simulate` pass; without inputs
they raise `ValueError`. -/
theorem C184 (nx nu : ℕ) (A B : Mat ℝ) (c : Vec ℝ) (hS : SystemShape nx nu A B c) (x0 : Vec ℝ) (hx0 : x0.n = nx) (u : List (Vec ℝ)) (hu : ∀ v ∈ u, v.n = nu) :
    (u ≠ [] → condenseAffine A B c x0 u u.length = .ok () ∧ condenseLinear A B x0 u u.length = .ok ()) ∧
    (u = [] → condenseAffine A B c x0 u u.length = .error .valueError ∧ condenseLinear A B x0 u u.length = .error .valueError) := by
  obtain ⟨s1, s2, s3, s4, s5⟩ := id hS
  have hA := affine_init hS
  have hL : LinearSystem.init A B = .ok ⟨A, B, nx, nu, none⟩ := by
    unfold LinearSystem.init check_affine_system
    rw [if_neg (by omega), if_neg (by omega), s3, s4]
    rfl
  obtain ⟨⟨xa, a1, a2⟩, ⟨xl, l1, l2⟩⟩ := (C50 nx nu A B c hS x0 hx0 none).1 u hu
  obtain ⟨e0, e1, e2⟩ := C51_single nx nu u.length A B c hS none
  constructor
  · intro hne
    have hN : u.length ≠ 0 := fun h => hne (List.length_eq_zero_iff.1 h)
    obtain ⟨q1, q2⟩ := concat_const u hu
    have hcu : np.concatenate u = .ok (Vec.concat u) := if_neg hne
    constructor
    · obtain ⟨Ab, Bb, cb, k1, k2, k3, k4, k5, k6, k7⟩ := e1 hN
      obtain ⟨xs, x1, -, -, x2, -⟩ := stacked_eq (nx := nx) xa a2.1 a2.2.2.1 (((Ab.mulVec x0).add (Bb.mulVec (Vec.concat u))).add cb) k2
        (fun t v hv i hi => k7 x0 u xa rfl a2 (Vec.concat u).e (fun t v hv s hs => by rw [Nat.mul_comm]; exact q2 t v hv s hs) t v hv i hi)
      unfold condenseAffine
      rw [hA, Py.ok_bind, a1, Py.ok_bind, k1, Py.ok_bind]
      simp only [x1, Py.ok_bind, hcu]
      rw [show np.dotMV Ab x0 = .ok _ from if_pos (k3.trans hx0.symm), Py.ok_bind, show np.dotMV Bb (Vec.concat u) = .ok _ from if_pos (by rw [k5, q1, Nat.mul_comm]), Py.ok_bind,
        show np.addV (Ab.mulVec x0) (Bb.mulVec (Vec.concat u)) = .ok _ from if_pos (k2.trans k4.symm), Py.ok_bind,
        show np.addV ((Ab.mulVec x0).add (Bb.mulVec (Vec.concat u))) cb = .ok _ from if_pos (k2.trans k6.symm), Py.ok_bind]
      exact x2
    · obtain ⟨Ab, Bb, k1, k2, k3, k4, k5, k7⟩ := e2 hN
      obtain ⟨xs, x1, -, -, x2, -⟩ := stacked_eq (nx := nx) xl l2.1 l2.2.2.1 ((Ab.mulVec x0).add (Bb.mulVec (Vec.concat u))) k2
        (fun t v hv i hi => k7 x0 u xl rfl l2 (Vec.concat u).e (fun t v hv s hs => by rw [Nat.mul_comm]; exact q2 t v hv s hs) t v hv i hi)
      unfold condenseLinear
      rw [hL, Py.ok_bind, l1, Py.ok_bind, k1, Py.ok_bind]
      simp only [x1, Py.ok_bind, hcu]
      rw [show np.dotMV Ab x0 = .ok _ from if_pos (k3.trans hx0.symm), Py.ok_bind, show np.dotMV Bb (Vec.concat u) = .ok _ from if_pos (by rw [k5, q1, Nat.mul_comm]), Py.ok_bind,
        show np.addV (Ab.mulVec x0) (Bb.mulVec (Vec.concat u)) = .ok _ from if_pos (k2.trans k4.symm), Py.ok_bind]
      exact x2
  · intro h0
    obtain ⟨z1, z2⟩ := e0 (by rw [h0]; rfl)
    constructor
    · unfold condenseAffine
      rw [hA, Py.ok_bind, a1, Py.ok_bind, z1]
      rfl
    · unfold condenseLinear
      rw [hL, Py.ok_bind, l1, Py.ok_bind, z2]
      rfl

/-- a box -/
theorem from_bounds_inside {n : ℕ} (lo hi : Vec ℝ) (hlo : lo.n = n) (hhi : hi.n = n) : ∃ D, Poly.from_bounds (.arr (.d1 lo)) (.arr (.d1 hi)) = .ok D ∧ D.Inv n ∧ D.A.nr = n + n ∧
    ∀ tol z, InsideTol tol D z ↔ ∀ i < n, lo.e i - tol ≤ z i ∧ z i ≤ hi.e i + tol := by
  have hs : (Poly.sel n none).length = n := by rw [Poly.sel_none]; simp
  obtain ⟨D, h1, -, h2⟩ := rep_from_bounds n lo hi none none (.inr ⟨rfl, rfl, hlo.symm⟩) (hlo.trans hs.symm) (hhi.trans hlo.symm)
  have hl := h2.len
  rw [hs] at hl
  refine ⟨D, h1, h2.inv, by rw [hl.1]; simp, fun tol z => ?_⟩
  have hC : D.C.nr = 0 := hl.2
  unfold InsideTol
  rw [rep_forall h2.ineq (fun a b => a ≤ b + tol) z, hs]
  simp only [hC, lt_irrefl, false_imp_iff, and_true, List.mem_append, List.mem_map, List.mem_range]
  constructor
  · intro h i hi'
    have a1 := h _ (.inl ⟨i, hi', rfl⟩)
    have a2 := h _ (.inr ⟨i, hi', rfl⟩)
    simp only [Poly.sel_none, Poly.getD_range hi'] at a1 a2
    constructor <;> linarith
  · rintro h r (⟨i, hi', rfl⟩ | ⟨i, hi', rfl⟩) <;> simp only [Poly.sel_none, Poly.getD_range hi'] <;> linarith [(h i hi').1, (h i hi').2]

/-- `x'` and `u'` are between `x / 1.01` and `1.01 x`, and `u / 1.01` and `1.01 u`, up to `tol` -/
def CloseTo (tol : ℝ) (n m : ℕ) (x u x' u' : ℕ → ℝ) : Prop :=
  (∀ i < n, x i / 1.01 - tol ≤ x' i ∧ x' i ≤ 1.01 * x i + tol) ∧ ∀ j < m, u j / 1.01 - tol ≤ u' j ∧ u' j ≤ 1.01 * u j + tol

/-- what is drawn in step `t` -/
def drawAt (ds : List Drawn) (t : ℕ) : Drawn := ds.getD t ⟨mat0, mat0, vec0, vec0⟩

/-- the states of the system in the test -/
def drawnStates (x0 : Vec ℝ) (ds : List Drawn) : ℕ → ℕ → ℝ :=
  traj (fun t => (drawAt ds t).A) (fun t => (drawAt ds t).B) (fun t => (drawAt ds t).c) x0.e (fun t => (drawAt ds t).u.e)

/-- the variables after the steps `done` -/
structure BuiltOk (n m : ℕ) (x : ℕ → ℕ → ℝ) (done : List Drawn) (s : BuildVars) : Prop where
  xt : s.x_t.n = n ∧ ∀ i < n, s.x_t.e i = x done.length i
  xs : s.x.n = n * (done.length + 1) ∧ ∀ k ≤ done.length, ∀ i < n, s.x.e (n * k + i) = x k i
  us : s.u.n = m * done.length ∧ ∀ (k : ℕ) (d : Drawn), done[k]? = some d → ∀ j < m, s.u.e (m * k + j) = d.u.e j
  ul : s.u_list = done.map (·.u)
  sys : s.affine_systems = done.map fun d => ⟨d.A, d.B, d.c, n, m⟩
  len : s.domains.length = done.length
  dom : ∀ (k : ℕ) (D : Poly) (d : Drawn), s.domains[k]? = some D → done[k]? = some d → D.Inv (n + m) ∧ D.A.nr = (n + m) + (n + m) ∧
    ∀ tol (z w : ℕ → ℝ), InsideTol tol D (fun i => if i < n then z i else w (i - n)) ↔ CloseTo tol n m (x k) d.u.e z w

theorem buildStep_ok {n m : ℕ} {x : ℕ → ℕ → ℝ} {done : List Drawn} {s : BuildVars} (h : BuiltOk n m x done s) {d : Drawn} (hS : SystemShape n m d.A d.B d.c) (hu : d.u.n = m)
    (hx : ∀ i < n, x (done.length + 1) i = Spec.affine d.A d.B d.c (x done.length) d.u.e i) : ∃ s', buildStep s d = .ok s' ∧ BuiltOk n m x (done ++ [d]) s' := by
  obtain ⟨s1, s2, s3, s4, s5⟩ := id hS
  obtain ⟨D, D1, D2, D3, D4⟩ := from_bounds_inside (n := n + m) ((s.x_t.divS 1.01).append (d.u.divS 1.01)) ((s.x_t.smul 1.01).append (d.u.smul 1.01))
    (by show s.x_t.n + d.u.n = _; rw [h.xt.1, hu]) (by show s.x_t.n + d.u.n = _; rw [h.xt.1, hu])
  let y : Vec ℝ := ((d.A.mulVec s.x_t).add (d.B.mulVec d.u)).add d.c
  have hy : ∀ i < n, y.e i = x (done.length + 1) i := fun i hi => by
    rw [hx i hi]
    show ∑ j ∈ range d.A.nc, d.A.e i j * s.x_t.e j + ∑ j ∈ range d.B.nc, d.B.e i j * d.u.e j + d.c.e i = _
    unfold Spec.affine
    congr 2
    exact Finset.sum_congr rfl fun j hj => by rw [h.xt.2 j (s2 ▸ mem_range.1 hj)]
  refine ⟨⟨y, s.x.append y, s.u.append d.u, s.u_list ++ [d.u], s.affine_systems ++ [⟨d.A, d.B, d.c, n, m⟩], s.domains ++ [D]⟩, ?_, ?_, ?_, ?_, ?_, ?_, ?_, ?_⟩
  · unfold buildStep
    rw [show np.concatenate [s.u, d.u] = .ok (s.u.append d.u) from rfl, Py.ok_bind, show np.dotMV d.A s.x_t = .ok _ from if_pos (s2.trans h.xt.1.symm), Py.ok_bind,
      show np.dotMV d.B d.u = .ok _ from if_pos (s4.trans hu.symm), Py.ok_bind, show np.addV (d.A.mulVec s.x_t) (d.B.mulVec d.u) = .ok _ from if_pos (s1.trans s3.symm), Py.ok_bind,
      show np.addV ((d.A.mulVec s.x_t).add (d.B.mulVec d.u)) d.c = .ok y from if_pos (s1.trans s5.symm), Py.ok_bind,
      show np.concatenate [s.x, y] = .ok (s.x.append y) from rfl, Py.ok_bind,
      show np.concatenate [s.x_t.divS 1.01, d.u.divS 1.01] = .ok _ from rfl, Py.ok_bind, show np.concatenate [s.x_t.smul 1.01, d.u.smul 1.01] = .ok _ from rfl, Py.ok_bind]
    erw [D1]
    rw [Py.ok_bind, affine_init hS]
    rfl
  · exact ⟨s1, fun i hi => by rw [List.length_append]; exact hy i hi⟩
  · refine ⟨?_, fun k hk i hi => ?_⟩
    · show s.x.n + d.A.nr = _
      rw [h.xs.1, s1, List.length_append]
      simp only [List.length_singleton]
      ring
    · rw [List.length_append, List.length_singleton] at hk
      rcases Nat.lt_or_ge done.length k with hk' | hk'
      · obtain rfl : k = done.length + 1 := by omega
        show (s.x.append y).e _ = _
        rw [← h.xs.1, Vec.append_e_add]
        exact hy i hi
      · show (s.x.append y).e _ = _
        rw [Vec.append_e_lt, h.xs.2 k hk' i hi]
        rw [h.xs.1]
        have : n * k ≤ n * done.length := Nat.mul_le_mul_left n hk'
        rw [Nat.mul_add]
        omega
  · refine ⟨?_, fun k e hk j hj => ?_⟩
    · show s.u.n + d.u.n = _
      rw [h.us.1, hu, List.length_append]
      simp only [List.length_singleton]
      ring
    · show (s.u.append d.u).e _ = _
      rcases Nat.lt_or_ge k done.length with hk' | hk'
      · rw [List.getElem?_append_left hk'] at hk
        rw [Vec.append_e_lt, h.us.2 k e hk j hj]
        rw [h.us.1]
        have : m * (k + 1) ≤ m * done.length := Nat.mul_le_mul_left m hk'
        rw [Nat.mul_add] at this
        omega
      · have hlt := (List.getElem?_eq_some_iff.1 hk).1
        rw [List.length_append, List.length_singleton] at hlt
        obtain rfl : k = done.length := by omega
        simp at hk
        subst hk
        rw [← h.us.1, Vec.append_e_add]
  · show s.u_list ++ [d.u] = _
    rw [h.ul, List.map_append]
    rfl
  · show s.affine_systems ++ [_] = _
    rw [h.sys, List.map_append]
    rfl
  · show (s.domains ++ [D]).length = _
    rw [List.length_append, List.length_append, h.len]
    rfl
  · intro k E e hE he
    have hE : (s.domains ++ [D])[k]? = some E := hE
    rcases Nat.lt_or_ge k done.length with hk' | hk'
    · rw [List.getElem?_append_left hk'] at he
      rw [List.getElem?_append_left (by rw [h.len]; exact hk')] at hE
      exact h.dom k E e hE he
    · have hlt := (List.getElem?_eq_some_iff.1 he).1
      rw [List.length_append, List.length_singleton] at hlt
      obtain rfl : k = done.length := by omega
      rw [← h.len] at hE
      simp at hE he
      subst hE he
      refine ⟨D2, D3, fun tol z w => ?_⟩
      rw [D4]
      have a1 : ∀ i < n, ((s.x_t.divS 1.01).append (d.u.divS 1.01)).e i = x done.length i / 1.01 := fun i hi => by
        rw [Vec.append_e_lt _ _ (by show i < s.x_t.n; rw [h.xt.1]; exact hi)]
        show s.x_t.e i / 1.01 = _
        rw [h.xt.2 i hi]
      have a2 : ∀ i < n, ((s.x_t.smul 1.01).append (d.u.smul 1.01)).e i = 1.01 * x done.length i := fun i hi => by
        rw [Vec.append_e_lt _ _ (by show i < s.x_t.n; rw [h.xt.1]; exact hi)]
        show 1.01 * s.x_t.e i = _
        rw [h.xt.2 i hi]
      have a3 : ∀ j, ((s.x_t.divS 1.01).append (d.u.divS 1.01)).e (n + j) = d.u.e j / 1.01 := fun j => by
        rw [show n = (s.x_t.divS 1.01).n from h.xt.1.symm, Vec.append_e_add]
        rfl
      have a4 : ∀ j, ((s.x_t.smul 1.01).append (d.u.smul 1.01)).e (n + j) = 1.01 * d.u.e j := fun j => by
        rw [show n = (s.x_t.smul 1.01).n from h.xt.1.symm, Vec.append_e_add]
        rfl
      constructor
      · intro h'
        refine ⟨fun i hi => ?_, fun j hj => ?_⟩
        · have := h' i (by omega)
          rw [a1 i hi, a2 i hi, if_pos hi] at this
          exact this
        · have := h' (n + j) (by omega)
          rw [a3, a4, if_neg (by omega), Nat.add_sub_cancel_left] at this
          exact this
      · intro h' i hi
        rcases Nat.lt_or_ge i n with hin | hin
        · rw [a1 i hin, a2 i hin, if_pos hin]
          exact h'.1 i hin
        · obtain ⟨j, rfl⟩ := Nat.exists_eq_add_of_le hin
          rw [a3, a4, if_neg (by omega), Nat.add_sub_cancel_left]
          exact h'.2 j (by omega)

theorem build_ok {n m : ℕ} {x : ℕ → ℕ → ℝ} : ∀ (rest done : List Drawn) (s : BuildVars), BuiltOk n m x done s →
    (∀ d ∈ rest, SystemShape n m d.A d.B d.c ∧ d.u.n = m) →
    (∀ (t : ℕ) (d : Drawn), rest[t]? = some d → ∀ i < n, x (done.length + t + 1) i = Spec.affine d.A d.B d.c (x (done.length + t)) d.u.e i) →
    ∃ s', rest.foldlM buildStep s = .ok s' ∧ BuiltOk n m x (done ++ rest) s'
  | [], done, s, h, _, _ => ⟨s, rfl, by rw [List.append_nil]; exact h⟩
  | d :: rest, done, s, h, hS, hx => by
    obtain ⟨s1, k1, k2⟩ := buildStep_ok h (hS d (by simp)).1 (hS d (by simp)).2 (hx 0 d rfl)
    obtain ⟨s2, k3, k4⟩ := build_ok rest (done ++ [d]) s1 k2 (fun e he => hS e (by simp [he])) fun t e he i hi => by
      have := hx (t + 1) e (by simpa using he) i hi
      rw [List.length_append, List.length_singleton]
      rw [show done.length + 1 + t + 1 = done.length + (t + 1) + 1 by omega, show done.length + 1 + t = done.length + (t + 1) by omega]
      exact this
    refine ⟨s2, ?_, by rw [List.append_assoc] at k4; exact k4⟩
    rw [List.foldlM_cons, k1]
    exact k3

theorem forRange_iff {g : ℕ → Py Unit} : ∀ {n : ℕ}, forRange g n = .ok () ↔ ∀ t < n, g t = .ok ()
  | 0 => ⟨fun _ t ht => absurd ht (by omega), fun _ => rfl⟩
  | n + 1 => by
    constructor
    · intro h t ht
      obtain ⟨⟨⟩, h1, h2⟩ := Py.bind_eq_ok h
      rcases Nat.lt_succ_iff_lt_or_eq.1 ht with h' | rfl
      · exact forRange_iff.1 h1 t h'
      · exact h2
    · exact fun h => forRange_ok h

/-- the entries of the data are nonnegative, as those of `np.random.rand` -/
def DrawnNonneg (n m : ℕ) (d : Drawn) : Prop :=
  (∀ i < n, ∀ j < n, 0 ≤ d.A.e i j) ∧ (∀ i < n, ∀ j < m, 0 ≤ d.B.e i j) ∧ (∀ i < n, 0 ≤ d.c.e i) ∧ ∀ j < m, 0 ≤ d.u.e j

theorem drawAt_eq {ds : List Drawn} {t : ℕ} {d : Drawn} (h : ds[t]? = some d) : drawAt ds t = d := by
  unfold drawAt
  rw [List.getD_eq_getElem?_getD, h]
  rfl

theorem drawnStates_nonneg {n m : ℕ} {x0 : Vec ℝ} {ds : List Drawn} (h0 : ∀ i < n, 0 ≤ x0.e i) (hS : ∀ d ∈ ds, SystemShape n m d.A d.B d.c ∧ d.u.n = m)
    (hd : ∀ d ∈ ds, DrawnNonneg n m d) : ∀ t ≤ ds.length, ∀ i < n, 0 ≤ drawnStates x0 ds t i
  | 0, _, i, hi => h0 i hi
  | t + 1, ht, i, hi => by
    have hm : ds[t]? = some ds[t] := List.getElem?_eq_getElem (by omega)
    obtain ⟨⟨s1, s2, s3, s4, s5⟩, -⟩ := hS _ (List.mem_of_getElem? hm)
    obtain ⟨p1, p2, p3, p4⟩ := hd _ (List.mem_of_getElem? hm)
    show 0 ≤ Spec.affine (drawAt ds t).A (drawAt ds t).B (drawAt ds t).c (drawnStates x0 ds t) (drawAt ds t).u.e i
    rw [drawAt_eq hm]
    unfold Spec.affine
    refine add_nonneg (add_nonneg (Finset.sum_nonneg fun j hj => ?_) (Finset.sum_nonneg fun j hj => ?_)) (p3 i hi)
    · have hj : j < n := s2 ▸ mem_range.1 hj
      exact mul_nonneg (p1 i hi j hj) (drawnStates_nonneg h0 hS hd t (by omega) j hj)
    · have hj : j < m := s4 ▸ mem_range.1 hj
      exact mul_nonneg (p2 i hi j hj) (p4 j hj)

/-- C185, what holds: for nonnegative data, as drawn by the test, the body of `test_condense_and_simulate_and_get_mode` passes if and only if no state and input of the simulation
is in the box of an earlier one, between `1/1.01` and `1.01` times the earlier one up to `1e-7`.  Missing with respect to C185: that this is so for all the data that can be drawn (false, see `C185_false`). -/
theorem C185_partial (n m : ℕ) (hnm : 0 < n + m) (x0 : Vec ℝ) (hx0 : x0.n = n) (ds : List Drawn) (hne : ds ≠ []) (hS : ∀ d ∈ ds, SystemShape n m d.A d.B d.c ∧ d.u.n = m)
    (h0 : ∀ i < n, 0 ≤ x0.e i) (hd : ∀ d ∈ ds, DrawnNonneg n m d) :
    condensePwa x0 ds = .ok () ↔
      ∀ t < ds.length, ∀ k < t, ¬ CloseTo 1e-7 n m (drawnStates x0 ds k) (drawAt ds k).u.e (drawnStates x0 ds t) (drawAt ds t).u.e := by
  have hpos : 0 < ds.length := List.length_pos_of_ne_nil hne
  have hxs : ∀ (t : ℕ) (d : Drawn), ds[t]? = some d → ∀ i, drawnStates x0 ds (t + 1) i = Spec.affine d.A d.B d.c (drawnStates x0 ds t) d.u.e i := fun t d h i => by
    show Spec.affine (drawAt ds t).A (drawAt ds t).B (drawAt ds t).c (drawnStates x0 ds t) (drawAt ds t).u.e i = _
    rw [drawAt_eq h]
  have hnn := drawnStates_nonneg h0 hS hd
  have hx00 : ∀ i, drawnStates x0 ds 0 i = x0.e i := fun _ => rfl
  generalize hxx : drawnStates x0 ds = x at hxs hnn hx00 ⊢
  -- the variables of the loop
  have hb0 : BuiltOk n m x [] ⟨x0, x0, Vec.zeros 0, [], [], []⟩ := by
    refine ⟨⟨hx0, fun i _ => (hx00 i).symm⟩, ⟨?_, fun k hk i _ => ?_⟩, ⟨rfl, fun k d h => by simp at h⟩, rfl, rfl, rfl, fun k D d h => by simp at h⟩
    · show x0.n = n * 1
      omega
    · obtain rfl : k = 0 := Nat.le_zero.1 hk
      rw [Nat.mul_zero, Nat.zero_add, hx00]
  obtain ⟨s, hs, hb⟩ := build_ok ds [] _ hb0 hS (fun t d h i _ => by simpa using hxs t d h i)
  rw [List.nil_append] at hb
  -- the system
  have hsys : ∀ (k : ℕ) (d : Drawn), ds[k]? = some d → s.affine_systems[k]? = some ⟨d.A, d.B, d.c, n, m⟩ := fun k d h => by rw [hb.sys, List.getElem?_map, h]; rfl
  have hlen : s.affine_systems.length = ds.length := by rw [hb.sys, List.length_map]
  have hshape : ∀ S ∈ s.affine_systems, SystemShape n m S.A S.B S.c ∧ S.nx = n ∧ S.nu = m := fun S hSm => by
    rw [hb.sys] at hSm
    obtain ⟨d, hdm, rfl⟩ := List.mem_map.1 hSm
    exact ⟨(hS d hdm).1, rfl, rfl⟩
  have hdomk : ∀ k < ds.length, ∃ D, s.domains[k]? = some D := fun k hk => ⟨_, List.getElem?_eq_getElem (by rw [hb.len]; exact hk)⟩
  have hdomm : ∀ D ∈ s.domains, D.Inv (n + m) ∧ 0 < D.A.nr := fun D hD => by
    obtain ⟨k, hk, rfl⟩ := List.getElem_of_mem hD
    rw [hb.len] at hk
    obtain ⟨d1, d2, -⟩ := hb.dom k _ _ (List.getElem?_eq_getElem (by rw [hb.len]; exact hk)) (List.getElem?_eq_getElem hk)
    exact ⟨d1, by omega⟩
  have hsne : s.affine_systems ≠ [] := fun h => by rw [h] at hlen; simp at hlen; omega
  have hdne : s.domains ≠ [] := fun h => by have := hb.len; rw [h] at this; simp at this; omega
  let P : PWA := ⟨n, m, s.affine_systems, s.domains, s.affine_systems.length⟩
  have hP : PwaOk P := ⟨hlen.trans hb.len.symm, fun S hSm => (hshape S hSm).1, hdomm⟩
  have hinit : PWA.init (s.affine_systems.map .aff) s.domains = .ok P := by
    have o1 : onlyElement ((s.affine_systems.map Sys.aff).map Sys.nx) = .ok n := onlyElement_iff.2 ⟨by simpa using hsne, fun b hb' => by
      simp only [List.map_map, List.mem_map] at hb'
      obtain ⟨S, hSm, rfl⟩ := hb'
      exact (hshape S hSm).2.1⟩
    have o2 : onlyElement ((s.affine_systems.map Sys.aff).map Sys.nu) = .ok m := onlyElement_iff.2 ⟨by simpa using hsne, fun b hb' => by
      simp only [List.map_map, List.mem_map] at hb'
      obtain ⟨S, hSm, rfl⟩ := hb'
      exact (hshape S hSm).2.2⟩
    have o3 : onlyElement (s.domains.map (·.A.nc)) = .ok (n + m) := onlyElement_iff.2 ⟨by simpa using hdne, fun b hb' => by
      obtain ⟨D, hD, rfl⟩ := List.mem_map.1 hb'
      exact (hdomm D hD).1.1⟩
    have o4 : (s.affine_systems.map Sys.aff).mapM (Sys.toAffine n) = .ok s.affine_systems := by
      have : ∀ l : List AffineSystem, (l.map Sys.aff).mapM (Sys.toAffine n) = .ok l := fun l => by
        induction l with
        | nil => rfl
        | cons a l ih =>
          rw [List.map_cons, List.mapM_cons, ih]
          rfl
      exact this _
    unfold PWA.init
    rw [if_neg (by rw [List.length_map, hlen, hb.len]; simp)]
    show (onlyElement _ >>= _) = _
    rw [o1, Py.ok_bind, o2, Py.ok_bind, o3, Py.ok_bind, if_neg (by simp)]
    show (List.mapM _ _ >>= _) = _
    rw [o4]
    rfl
  -- condense
  obtain ⟨S0, hS0⟩ : ∃ S0, s.affine_systems[0]? = some S0 := ⟨_, List.getElem?_eq_getElem (by omega)⟩
  have hS0' := (hshape S0 (List.mem_of_getElem? hS0)).2
  have hmodes : ∀ t < ds.length, (List.range ds.length).getD t 0 = t := fun t ht => Poly.getD_range ht
  obtain ⟨Ab, Bb, cb, c1, c2, c3, c4, c5, c6, c7⟩ := (C51 s.affine_systems (List.range ds.length) S0 hS0 (by rw [hS0'.1, hS0'.2]; exact fun S hSm => (hshape S hSm).1)
    (fun k hk => by rw [hlen]; exact List.mem_range.1 hk)).2 (by simp; exact hne)
  rw [List.length_range] at c2 c4 c5 c6 c7
  rw [hS0'.1, hS0'.2] at c7
  rw [hS0'.1] at c2 c3 c4 c6
  rw [hS0'.2] at c5
  have hulist : ∀ (t : ℕ) (v : Vec ℝ), s.u_list[t]? = some v → ∃ d, ds[t]? = some d ∧ v = d.u := fun t v h => by
    rw [hb.ul, List.getElem?_map] at h
    obtain ⟨d, h1, h2⟩ := Option.map_eq_some_iff.1 h
    exact ⟨d, h1, h2.symm⟩
  have hulen : s.u_list.length = ds.length := by rw [hb.ul, List.length_map]
  let r : Vec ℝ := ((Ab.mulVec x0).add (Bb.mulVec s.u)).add cb
  let xl : List (Vec ℝ) := (List.range (ds.length + 1)).map fun t => ⟨n, x t⟩
  have hxl : ∀ (t : ℕ) (v : Vec ℝ), xl[t]? = some v → v = ⟨n, x t⟩ ∧ t ≤ ds.length := fun t v h => by
    rw [List.getElem?_map] at h
    obtain ⟨k, h1, h2⟩ := Option.map_eq_some_iff.1 h
    obtain ⟨h3, h4⟩ := List.getElem?_eq_some_iff.1 h1
    rw [List.length_range] at h3
    rw [List.getElem_range] at h4
    subst h4
    exact ⟨h2.symm, by omega⟩
  have hr : ∀ t ≤ ds.length, ∀ i < n, r.e (n * t + i) = x t i := fun t ht i hi => by
    have hst : ∀ t < ds.length, s.affine_systems.getD ((List.range ds.length).getD t 0) S0 = ⟨(drawAt ds t).A, (drawAt ds t).B, (drawAt ds t).c, n, m⟩ := fun t ht => by
      have hm : ds[t]? = some ds[t] := List.getElem?_eq_getElem ht
      rw [hmodes t ht, List.getD_eq_getElem?_getD, hsys t _ hm, drawAt_eq hm]
      rfl
    have htr : IsTrajectory n (fun t => (s.affine_systems.getD ((List.range ds.length).getD t 0) S0).A) (fun t => (s.affine_systems.getD ((List.range ds.length).getD t 0) S0).B)
        (fun t => (s.affine_systems.getD ((List.range ds.length).getD t 0) S0).c) ⟨n, x 0⟩ s.u_list xl := by
      refine ⟨by simp [xl, hulen], by simp [xl, List.range_succ_eq_map], fun v hv => ?_, fun t a b v ha hb' hv i hi => ?_⟩
      · obtain ⟨k, -, rfl⟩ := List.mem_map.1 hv
        rfl
      · obtain ⟨rfl, -⟩ := hxl t a ha
        obtain ⟨rfl, -⟩ := hxl _ b hb'
        obtain ⟨d, hd1, rfl⟩ := hulist t v hv
        have ht : t < ds.length := (List.getElem?_eq_some_iff.1 hd1).1
        simp only [hst t ht, drawAt_eq hd1]
        exact hxs t d hd1 i
    have := c7 ⟨n, x 0⟩ s.u_list xl hulen htr s.u.e (fun t v hv j hj => by
      obtain ⟨d, hd1, rfl⟩ := hulist t v hv
      exact hb.us.2 t d hd1 j hj) t ⟨n, x t⟩ (by rw [List.getElem?_map, List.getElem?_range (by omega)]; rfl) i hi
    rw [show x 0 = x0.e from funext hx00] at this
    exact this
  have hrn : r.n = n * (ds.length + 1) := c2
  have hsame : ∀ v w : Vec ℝ, v.n = n * (ds.length + 1) → w.n = n * (ds.length + 1) → (∀ t ≤ ds.length, ∀ i < n, v.e (n * t + i) = x t i) →
      (∀ t ≤ ds.length, ∀ i < n, w.e (n * t + i) = x t i) → assertArrayAlmostEqual (some v) (some w) = .ok () := fun v w hv hw h1 h2 => by
    refine almost_same (hv.trans hw.symm) fun i hi => ?_
    rw [hv] at hi
    have hnp : 0 < n := Nat.pos_of_ne_zero fun h0 => by rw [h0, Nat.zero_mul] at hi; omega
    have ht : i / n ≤ ds.length := Nat.lt_succ_iff.1 (Nat.div_lt_of_lt_mul hi)
    have hm := Nat.mod_lt i hnp
    rw [← Nat.div_add_mod i n, h1 _ ht _ hm, h2 _ ht _ hm]
  have hu : ∀ v ∈ s.u_list, v.n = P.nu := fun v hv => by
    rw [hb.ul] at hv
    obtain ⟨d, hdm, rfl⟩ := List.mem_map.1 hv
    exact (hS d hdm).2
  -- the test up to the simulation
  have hbody : condensePwa x0 ds = (P.simulate x0 s.u_list >>= fun q => do
      let xs ← np.concatenate q.1
      assertArrayAlmostEqual (some s.x) (some xs)
      forRange (checkMode P q.1 s.u_list) ds.length) := by
    unfold condensePwa
    rw [hs, Py.ok_bind, hinit, Py.ok_bind, show P.condense (List.range ds.length) = .ok (Ab, Bb, cb) from c1, Py.ok_bind]
    show (np.dotMV Ab x0 >>= _) = _
    rw [show np.dotMV Ab x0 = .ok _ from if_pos (c3.trans hx0.symm), Py.ok_bind, show np.dotMV Bb s.u = .ok _ from if_pos (c5.trans hb.us.1.symm), Py.ok_bind,
      show np.addV (Ab.mulVec x0) (Bb.mulVec s.u) = .ok _ from if_pos (c2.trans c4.symm), Py.ok_bind,
      show np.addV ((Ab.mulVec x0).add (Bb.mulVec s.u)) cb = .ok r from if_pos (c2.trans c6.symm), Py.ok_bind,
      hsame s.x r hb.xs.1 hrn hb.xs.2 hr, Py.ok_bind]
  -- the domains
  have hin : ∀ (k t : ℕ) (y : Vec ℝ) (d : Drawn) (D : Poly), k < ds.length → ds[t]? = some d → s.domains[k]? = some D → y.n = n → (∀ i < n, y.e i = x t i) →
      (InsideTol 1e-7 D (y.append d.u).e ↔ CloseTo 1e-7 n m (x k) (drawAt ds k).u.e (x t) (drawAt ds t).u.e) := fun k t y d D hk hdt hD hyn hy => by
    have hm : ds[k]? = some ds[k] := List.getElem?_eq_getElem hk
    obtain ⟨d1, -, d3⟩ := hb.dom k D _ hD hm
    rw [drawAt_eq hm, drawAt_eq hdt, ← d3]
    refine InsideTol.congr d1 fun j hj => ?_
    rcases Nat.lt_or_ge j n with h | h
    · rw [if_pos h, Vec.append_e_lt _ _ (by omega), hy j h]
    · obtain ⟨l, rfl⟩ := Nat.exists_eq_add_of_le h
      rw [if_neg (by omega), Nat.add_sub_cancel_left, ← hyn, Vec.append_e_add]
  have hself : ∀ t < ds.length, CloseTo 1e-7 n m (x t) (drawAt ds t).u.e (x t) (drawAt ds t).u.e := fun t ht => by
    have hm : ds[t]? = some ds[t] := List.getElem?_eq_getElem ht
    have key : ∀ a : ℝ, 0 ≤ a → a / 1.01 - 1e-7 ≤ a ∧ a ≤ 1.01 * a + 1e-7 := fun a ha => by
      have : a / 1.01 ≤ a := div_le_self ha (by norm_num)
      constructor <;> linarith
    refine ⟨fun i hi => key _ (hnn t (by omega) i hi), fun j hj => key _ ?_⟩
    rw [drawAt_eq hm]
    exact (hd _ (List.mem_of_getElem? hm)).2.2.2 j hj
  have hfirst : ∀ (t : ℕ) (y : Vec ℝ) (d : Drawn), ds[t]? = some d → y.n = n → (∀ i < n, y.e i = x t i) →
      (FirstMode P y d.u t ↔ ∀ k < t, ¬ CloseTo 1e-7 n m (x k) (drawAt ds k).u.e (x t) (drawAt ds t).u.e) := fun t y d hdt hyn hy => by
    have ht : t < ds.length := (List.getElem?_eq_some_iff.1 hdt).1
    constructor
    · rintro ⟨-, h⟩ k hk hc
      obtain ⟨D, hD⟩ := hdomk k (by omega)
      exact h k hk D hD ((hin k t y d D (by omega) hdt hD hyn hy).2 hc)
    · intro h
      obtain ⟨D, hD⟩ := hdomk t ht
      exact ⟨⟨D, hD, (hin t t y d D ht hdt hD hyn hy).2 (hself t ht)⟩, fun k hk E hE hc => h k hk ((hin k t y d E (by omega) hdt hE hyn hy).1 hc)⟩
  -- the states of a run agree with the ones of the test as long as the modes do
  have hagree : ∀ (us xs : List (Vec ℝ)) (ms : List ℕ), (∀ (t : ℕ) (v : Vec ℝ), us[t]? = some v → s.u_list[t]? = some v) → PwaRun P x0 us xs ms → ∀ (t : ℕ) (y : Vec ℝ), xs[t]? = some y →
      (∀ q < t, ∀ k < q, ¬ CloseTo 1e-7 n m (x k) (drawAt ds k).u.e (x q) (drawAt ds q).u.e) → ∀ i < n, y.e i = x t i := by
    intro us xs ms hus hrun t
    induction t with
    | zero =>
      intro y hy _ i _
      have := (hrun.traj S0).2.1
      rw [hy] at this
      cases this
      exact (hx00 i).symm
    | succ t ih =>
      intro y hy hc i hi
      have hl1 := (hrun.traj S0).1
      have hl2 := hrun.len
      have hlt := (List.getElem?_eq_some_iff.1 hy).1
      obtain ⟨z, hz⟩ : ∃ z, xs[t]? = some z := ⟨_, List.getElem?_eq_getElem (by omega)⟩
      obtain ⟨v, hv⟩ : ∃ v, us[t]? = some v := ⟨_, List.getElem?_eq_getElem (by omega)⟩
      obtain ⟨k, hk⟩ : ∃ k, ms[t]? = some k := ⟨_, List.getElem?_eq_getElem (by omega)⟩
      obtain ⟨d, hdt, rfl⟩ := hulist t v (hus t v hv)
      have hzn := (hrun.traj S0).2.2.1 z (List.mem_of_getElem? hz)
      have hze := ih z hz fun q hq => hc q (by omega)
      obtain rfl : k = t := (hrun.mode t z d.u k hz hv hk).unique ((hfirst t z d hdt hzn hze).2 (hc t (by omega)))
      have := (hrun.traj S0).2.2.2 k z y d.u hz hy hv i hi
      have e : P.affine_systems.getD (ms.getD k 0) S0 = ⟨d.A, d.B, d.c, n, m⟩ := by
        rw [List.getD_eq_getElem?_getD (l := ms), hk]
        show s.affine_systems.getD k S0 = _
        rw [List.getD_eq_getElem?_getD, hsys k d hdt]
        rfl
      simp only [e] at this
      rw [this, hxs k d hdt i]
      unfold Spec.affine
      congr 2
      refine Finset.sum_congr rfl fun j hj => ?_
      rw [hze j]
      have := (hS d (List.mem_of_getElem? hdt)).1.2.1
      exact this ▸ mem_range.1 hj
  obtain ⟨w1, w2, w3, w4, -⟩ := C59 P hP x0 hx0 s.u_list hu
  rw [hbody]
  constructor
  · intro hok
    obtain ⟨⟨xs, ms⟩, hsim, hok⟩ := Py.bind_eq_ok hok
    obtain ⟨xv, -, hok⟩ := Py.bind_eq_ok hok
    obtain ⟨⟨⟩, -, hok⟩ := Py.bind_eq_ok hok
    have hrun := w1 xs ms hsim
    have hl1 : xs.length = s.u_list.length + 1 := (hrun.traj S0).1
    have hmode := forRange_iff.1 hok
    intro t
    induction t using Nat.strong_induction_on with
    | _ t ih =>
      intro ht
      have hm : ds[t]? = some ds[t] := List.getElem?_eq_getElem ht
      have hut : s.u_list[t]? = some ds[t].u := by rw [hb.ul, List.getElem?_map, hm]; rfl
      obtain ⟨y, hy⟩ : ∃ y, xs[t]? = some y := ⟨_, List.getElem?_eq_getElem (by omega)⟩
      have hyn := (hrun.traj S0).2.2.1 y (List.mem_of_getElem? hy)
      have hye := hagree s.u_list xs ms (fun _ _ h => h) hrun t y hy fun q hq => ih q hq (by omega)
      refine (hfirst t y _ hm hyn hye).1 ?_
      have h1 := hmode t ht
      unfold checkMode at h1
      rw [show np.listGet xs t = .ok y from by unfold np.listGet; rw [hy], Py.ok_bind, show np.listGet s.u_list t = .ok ds[t].u from by unfold np.listGet; rw [hut], Py.ok_bind] at h1
      obtain ⟨q, h2, h3⟩ := Py.bind_eq_ok h1
      have hq : q = some t := by
        by_contra hq
        rw [decide_eq_false hq] at h3
        cases h3
      subst hq
      rcases get_mode_ok hP hyn (hS _ (List.getElem_mem ht)).2 with ⟨g1, -⟩ | ⟨k, g1, g2⟩
      · rw [h2] at g1; cases g1
      · rw [h2] at g1; cases g1; exact g2
  · intro hc
    rcases hsim : P.simulate x0 s.u_list with e | ⟨xs, ms⟩
    · exfalso
      obtain rfl := w2 e hsim
      obtain ⟨t, xs, ms, y, v, hrun, hy, hv, hno⟩ := w4 hsim
      obtain ⟨d, hdt, rfl⟩ := hulist t v hv
      have ht : t < ds.length := (List.getElem?_eq_some_iff.1 hdt).1
      have hyn := (hrun.traj S0).2.2.1 y (List.mem_of_getElem? hy)
      have hye := hagree _ xs ms (fun k v h => by
        rw [List.getElem?_take] at h
        split at h
        · exact h
        · cases h) hrun t y hy fun q hq => hc q (by omega)
      obtain ⟨⟨D, hD, hDin⟩, -⟩ := (hfirst t y d hdt hyn hye).2 (hc t ht)
      exact hno D (List.mem_of_getElem? hD) hDin
    · rw [Py.ok_bind]
      have hrun := w1 xs ms hsim
      have hl1 : xs.length = s.u_list.length + 1 := (hrun.traj S0).1
      have hxe : ∀ (t : ℕ) (y : Vec ℝ), xs[t]? = some y → ∀ i < n, y.e i = x t i := fun t y hy =>
        hagree s.u_list xs ms (fun _ _ h => h) hrun t y hy fun q hq => hc q (by have := (List.getElem?_eq_some_iff.1 hy).1; omega)
      have hsizes := (hrun.traj S0).2.2.1
      obtain ⟨q1, q2⟩ := concat_const xs hsizes
      have q3 : np.concatenate xs = .ok (Vec.concat xs) := if_neg fun h0 => by rw [h0] at hl1; simp at hl1
      show (np.concatenate xs >>= _) = _
      rw [q3, Py.ok_bind, hsame s.x (Vec.concat xs) hb.xs.1 (by rw [q1, hl1, hulen, Nat.mul_comm]) hb.xs.2 fun t ht i hi => by
        have hg : xs[t]? = some xs[t] := List.getElem?_eq_getElem (by omega)
        rw [Nat.mul_comm n t, ← hxe t _ hg i hi]
        exact q2 t _ hg i hi, Py.ok_bind]
      refine forRange_ok fun t ht => ?_
      have hm : ds[t]? = some ds[t] := List.getElem?_eq_getElem ht
      have hut : s.u_list[t]? = some ds[t].u := by rw [hb.ul, List.getElem?_map, hm]; rfl
      have hg : xs[t]? = some xs[t] := List.getElem?_eq_getElem (by omega)
      have hyn := hsizes _ (List.mem_of_getElem? hg)
      have hf := (hfirst t _ _ hm hyn (hxe t _ hg)).2 (hc t ht)
      unfold checkMode
      rw [show np.listGet xs t = .ok xs[t] from by unfold np.listGet; rw [hg], Py.ok_bind, show np.listGet s.u_list t = .ok ds[t].u from by unfold np.listGet; rw [hut], Py.ok_bind]
      rcases get_mode_ok hP hyn (hS _ (List.getElem_mem ht)).2 with ⟨-, g2⟩ | ⟨k, g1, g2⟩
      · exact absurd hf (g2 t)
      · rw [g1, Py.ok_bind, g2.unique hf]
        simp [assertTrue]

/-- data with one state and one input: `A = B = c = 0.05` -/
noncomputable def drawn1 (u : ℝ) : Drawn := ⟨⟨1, 1, fun _ _ => 0.05⟩, ⟨1, 1, fun _ _ => 0.05⟩, ⟨1, fun _ => 0.05⟩, ⟨1, fun _ => u⟩⟩

theorem drawn1_shape (u : ℝ) : SystemShape 1 1 (drawn1 u).A (drawn1 u).B (drawn1 u).c ∧ (drawn1 u).u.n = 1 := ⟨⟨rfl, rfl, rfl, rfl, rfl⟩, rfl⟩

theorem drawn1_nonneg {u : ℝ} (hu : 0 ≤ u) : DrawnNonneg 1 1 (drawn1 u) :=
  ⟨fun _ _ _ _ => by norm_num [drawn1], fun _ _ _ _ => by norm_num [drawn1], fun _ _ => by norm_num [drawn1], fun _ _ => hu⟩

/-- C185 is false of the code: the test can draw data with which it fails.  With one state and one input, `x0 = 0.5` and `0.05` for all the other numbers (the test draws them between 0 and
0.1) and ten steps, the states approach a limit, and the box of the fourth state contains the fifth. -/
theorem C185_false : ∃ (x0 : Vec ℝ) (ds : List Drawn), ds.length = 10 ∧ x0.n = 1 ∧ 0 < x0.e 0 ∧ x0.e 0 < 1 ∧
    (∀ d ∈ ds, SystemShape 1 1 d.A d.B d.c ∧ d.u.n = 1 ∧ (0 < d.A.e 0 0 ∧ d.A.e 0 0 < 0.1) ∧ (0 < d.B.e 0 0 ∧ d.B.e 0 0 < 0.1) ∧ (0 < d.c.e 0 ∧ d.c.e 0 < 0.1) ∧ 0 < d.u.e 0 ∧ d.u.e 0 < 0.1) ∧
    condensePwa x0 ds ≠ .ok () := by
  refine ⟨⟨1, fun _ => 0.5⟩, List.replicate 10 (drawn1 0.05), rfl, rfl, by norm_num, by norm_num, fun d hd => ?_, fun h => ?_⟩
  · rw [List.eq_of_mem_replicate hd]
    refine ⟨(drawn1_shape _).1, rfl, ?_, ?_, ?_, ?_⟩ <;> norm_num [drawn1]
  · have hall : ∀ d ∈ List.replicate 10 (drawn1 0.05), d = drawn1 0.05 := fun d hd => List.eq_of_mem_replicate hd
    refine (C185_partial 1 1 (by norm_num) ⟨1, fun _ => 0.5⟩ rfl _ (by simp) (fun d hd => by rw [hall d hd]; exact drawn1_shape _) (fun _ _ => by norm_num)
      (fun d hd => by rw [hall d hd]; exact drawn1_nonneg (by norm_num))).1 h 4 (by simp) 3 (by norm_num) ?_
    have hdr : ∀ t < 10, drawAt (List.replicate 10 (drawn1 0.05)) t = drawn1 0.05 := fun t ht => drawAt_eq (by rw [List.getElem?_replicate, if_pos ht])
    have hstep : ∀ t < 10, drawnStates ⟨1, fun _ => 0.5⟩ (List.replicate 10 (drawn1 0.05)) (t + 1) 0 =
        0.05 * drawnStates ⟨1, fun _ => 0.5⟩ (List.replicate 10 (drawn1 0.05)) t 0 + 0.0525 := fun t ht => by
      show Spec.affine (drawAt _ t).A (drawAt _ t).B (drawAt _ t).c (drawnStates _ _ t) (drawAt _ t).u.e 0 = _
      rw [hdr t ht]
      simp [Spec.affine, drawn1]
      norm_num
      ring
    have x0 : drawnStates ⟨1, fun _ => 0.5⟩ (List.replicate 10 (drawn1 0.05)) 0 0 = 0.5 := rfl
    have x1 := hstep 0 (by norm_num)
    have x2 := hstep 1 (by norm_num)
    have x3 := hstep 2 (by norm_num)
    have x4 := hstep 3 (by norm_num)
    simp only [Nat.reduceAdd] at x1 x2 x3 x4
    rw [x0] at x1
    rw [x1] at x2
    rw [x2] at x3
    rw [x3] at x4
    refine ⟨fun i hi => ?_, fun j hj => ?_⟩
    · obtain rfl : i = 0 := by omega
      rw [x3, x4]
      norm_num
    · rw [hdr 3 (by norm_num), hdr 4 (by norm_num)]
      norm_num [drawn1]

/-- data with which the test passes: ten steps with the inputs `0.001, 0.002, …, 0.01` -/
example : condensePwa ⟨1, fun _ => 0.5⟩ ((List.range 10).map fun t : ℕ => drawn1 ((t + 1 : ℝ) / 1000)) = .ok () := by
  have hmem : ∀ d ∈ (List.range 10).map fun t : ℕ => drawn1 ((t + 1 : ℝ) / 1000), ∃ t : ℕ, d = drawn1 ((t + 1 : ℝ) / 1000) := fun d hd => by
    obtain ⟨t, -, rfl⟩ := List.mem_map.1 hd
    exact ⟨t, rfl⟩
  refine (C185_partial 1 1 (by norm_num) _ rfl _ (by simp) (fun d hd => ?_) (fun _ _ => by norm_num) (fun d hd => ?_)).2 fun t ht k hk h => ?_
  · obtain ⟨t, rfl⟩ := hmem d hd
    exact drawn1_shape _
  · obtain ⟨t, rfl⟩ := hmem d hd
    exact drawn1_nonneg (by positivity)
  · rw [List.length_map, List.length_range] at ht
    have hdr : ∀ t < 10, drawAt ((List.range 10).map fun t : ℕ => drawn1 ((t + 1 : ℝ) / 1000)) t = drawn1 ((t + 1 : ℝ) / 1000) := fun t ht => drawAt_eq (by
      rw [List.getElem?_map, List.getElem?_range ht]
      rfl)
    have := (h.2 0 one_pos).2
    rw [hdr t ht, hdr k (by omega)] at this
    simp only [drawn1] at this
    have h1 : (k : ℝ) + 1 ≤ t := by exact_mod_cast hk
    have h2 : (k : ℝ) ≤ 9 := by
      have : k ≤ 9 := by omega
      exact_mod_cast this
    linarith

/-- the tests of linear and affine systems, with two inputs -/
example : condenseAffine one1 one1 ⟨1, fun _ => 1⟩ ⟨1, fun _ => 2⟩ [⟨1, fun _ => 3⟩, ⟨1, fun _ => 4⟩] 2 = .ok () :=
  ((C184 1 1 one1 one1 ⟨1, fun _ => 1⟩ ⟨rfl, rfl, rfl, rfl, rfl⟩ ⟨1, fun _ => 2⟩ rfl [⟨1, fun _ => 3⟩, ⟨1, fun _ => 4⟩] (fun v hv => by
    rcases List.mem_cons.1 hv with rfl | hv
    · rfl
    · obtain rfl := List.mem_singleton.1 hv
      rfl)).1 (by simp)).1

end Verif.Props
