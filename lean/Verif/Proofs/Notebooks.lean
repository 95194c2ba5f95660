import Verif.Model.Notebooks
import Verif.Props.HybridLoop
import Verif.Props.PwaWellPosed
import Verif.Props.Vertices
import Verif.Props.PolyhedronCache

/- Lemmas for the systems of the notebooks. -/
namespace Verif.Notebook
open Dyn Spec Finset Props Control

/-- `D` has no equalities, and `T tol z` states that `z` meets its inequalities up to `tol` -/
structure Dom (n : ℕ) (D : Poly) (T : ℝ → (ℕ → ℝ) → Prop) : Prop where
  inv : D.Inv n
  noeq : D.C.nr = 0
  rows : 0 < D.A.nr
  inside : ∀ t z, (∀ i < D.A.nr, rowVal D.A i z ≤ D.b.e i + t) ↔ T t z

/-- nothing is cached -/
def Clean (D : Poly) : Prop := D._empty = none ∧ D._bounded = none

theorem Dom.tol {n : ℕ} {D : Poly} {T} (h : Dom n D T) (t : ℝ) (z : ℕ → ℝ) : InsideTol t D z ↔ T t z := by
  rw [← h.inside]
  exact ⟨fun k => k.1, fun k => ⟨k, fun hp => absurd hp (by rw [h.noeq]; omega)⟩⟩

theorem Dom.mem {n : ℕ} {D : Poly} {T} (h : Dom n D T) (z : ℕ → ℝ) : D.Mem z ↔ T 0 z := by
  rw [← h.inside]
  refine ⟨fun k i hi => ?_, fun k => ⟨fun i hi => ?_, fun i hi => absurd hi (by rw [h.noeq]; omega)⟩⟩
  · rw [add_zero]; exact k.1 i hi
  · have := k i hi
    rw [add_zero] at this
    exact this

/-- all the right-hand sides increased by `t` -/
def shift (t : ℝ) (p : Poly) : Poly := { p with b := ⟨p.b.n, fun i => p.b.e i + t⟩ }

theorem shift_mem {t : ℝ} {p : Poly} (h : p.C.nr = 0) (z : ℕ → ℝ) : (shift t p).Mem z ↔ ∀ i < p.A.nr, rowVal p.A i z ≤ p.b.e i + t :=
  ⟨fun k => k.1, fun k => ⟨k, fun i hi => absurd (show i < p.C.nr from hi) (by rw [h]; omega)⟩⟩

theorem Dom.shift {n : ℕ} {D : Poly} {T} (h : Dom n D T) (t : ℝ) (z : ℕ → ℝ) : (shift t D).Mem z ↔ T t z := by
  rw [shift_mem h.noeq, h.inside]

/-- the rows after `add_inequality` -/
theorem rows_add {n : ℕ} {p q : Poly} (hp : p.Inv n) (hC : p.C.nr = 0) {F : Mat ℝ} {f : Vec ℝ}
    (h : Poly.add_inequality F (.d1 f) none p = (.ok (), q)) (t : ℝ) (z : ℕ → ℝ) :
    (∀ i < q.A.nr, rowVal q.A i z ≤ q.b.e i + t) ↔
      (∀ i < p.A.nr, rowVal p.A i z ≤ p.b.e i + t) ∧ ∀ i < F.nr, rowVal F i z ≤ f.e i + t := by
  obtain ⟨v, hv, h2, h3, rfl⟩ := (Poly.add_inequality_ok hp F (.d1 f) none q).1 h
  cases hv
  have hp' : (shift t p).Inv n := hp
  have e := Poly.mem_vapp (v := ⟨f.n, fun i => f.e i + t⟩) hp' h3 z
    { p.deleteAttributes with A := p.A.vapp (F.mul (Poly.selectionMatrix n none)), b := (shift t p).b.append ⟨f.n, fun i => f.e i + t⟩ } rfl rfl rfl rfl
  rw [shift_mem hC] at e
  have hs : Poly.sel n none = List.range n := Poly.sel_none n
  have hr : Spec.IneqAt F (fun i => f.e i + t) (Poly.sel n none) z ↔ ∀ i < F.nr, rowVal F i z ≤ f.e i + t := by
    refine forall_congr' fun i => forall_congr' fun hi => ?_
    refine iff_of_eq (congrArg (· ≤ f.e i + t) (Finset.sum_congr rfl fun j hj => ?_))
    rw [hs, Poly.getD_range]
    rw [h3, hs, List.length_range] at hj
    exact mem_range.1 hj
  rw [hr] at e
  rw [← e]
  constructor
  · intro k
    refine ⟨fun i hi => ?_, fun i hi => absurd (show i < p.C.nr from hi) (by rw [hC]; omega)⟩
    refine (k i hi).trans (le_of_eq ?_)
    show (p.b.append f).e i + t = ((shift t p).b.append ⟨f.n, fun i => f.e i + t⟩).e i
    show (if i < p.b.n then p.b.e i else f.e (i - p.b.n)) + t = if i < p.b.n then p.b.e i + t else f.e (i - p.b.n) + t
    split_ifs <;> rfl
  · intro k i hi
    refine (k.1 i hi).trans (le_of_eq ?_)
    show (if i < p.b.n then p.b.e i + t else f.e (i - p.b.n) + t) = (if i < p.b.n then p.b.e i else f.e (i - p.b.n)) + t
    split_ifs <;> rfl

theorem dom_add {n : ℕ} {p : Poly} {T} (hp : Dom n p T) {F : Mat ℝ} {f : Vec ℝ} (hF : F.nc = n) (hf : f.n = F.nr) :
    ∃ q, Poly.runOn p (Poly.add_inequality F (.d1 f)) = .ok q ∧ Clean q ∧ Dom n q fun t z => T t z ∧ ∀ i < F.nr, rowVal F i z ≤ f.e i + t := by
  have hs : (Poly.sel n none).length = n := by rw [Poly.sel_none]; simp
  have k := (Poly.add_inequality_ok hp.inv F (.d1 f) none _).2 ⟨f, rfl, hf, by rw [hs, hF], rfl⟩
  refine ⟨_, runOn_ok.2 k, ⟨rfl, rfl⟩, (Poly.add_inequality_spec hp.inv k).1, hp.noeq, ?_, fun t z => ?_⟩
  · show 0 < p.A.nr + _
    have := hp.rows
    omega
  · rw [rows_add hp.inv hp.noeq k, hp.inside]

theorem dom_bounds (n : ℕ) (lo hi : Vec ℝ) (hn : 0 < n) (h1 : lo.n = n) (h2 : hi.n = n) :
    ∃ p, Poly.from_bounds (.arr (.d1 lo)) (.arr (.d1 hi)) = .ok p ∧ Clean p ∧
      Dom n p fun t z => ∀ j < n, lo.e j - t ≤ z j ∧ z j ≤ hi.e j + t := by
  have hs : (Poly.sel n none).length = n := by rw [Poly.sel_none]; simp
  have k1 := (Poly.add_inequality_ok (Poly.empty_inv n) (Poly.selectionMatrix n none).neg (.d1 lo.neg) none _).2
    ⟨lo.neg, rfl, by show lo.n = (Poly.sel n none).length; rw [hs, h1], by rw [hs]; rfl, rfl⟩
  have i1 := (Poly.add_inequality_spec (Poly.empty_inv n) k1).1
  have k2 := (Poly.add_inequality_ok i1 (Poly.selectionMatrix n none) (.d1 hi) none _).2
    ⟨hi, rfl, by show hi.n = (Poly.sel n none).length; rw [hs, h2], by rw [hs]; rfl, rfl⟩
  have i2 := (Poly.add_inequality_spec i1 k2).1
  have hrow : ∀ (z : ℕ → ℝ), ∀ i < n, rowVal (Poly.selectionMatrix n none) i z = z i := by
    intro z i hi
    rw [Poly.selectionMatrix_eq, Poly.sel_none]
    show ∑ j ∈ range n, (Mat.eye n : Mat ℝ).e ((List.range n).getD i 0) j * z j = z i
    rw [Poly.getD_range hi, Finset.sum_eq_single i]
    · simp [Mat.eye]
    · intro j _ hj
      simp [Mat.eye, Ne.symm hj]
    · intro h
      exact absurd (mem_range.2 hi) h
  have hneg : ∀ (z : ℕ → ℝ), ∀ i < n, rowVal (Poly.selectionMatrix n none).neg i z = - z i := by
    intro z i hi
    rw [← hrow z i hi]
    unfold rowVal
    rw [← Finset.sum_neg_distrib]
    exact Finset.sum_congr rfl fun j _ => neg_mul _ _
  have hnr : (Poly.selectionMatrix n none).nr = n := by show (Poly.sel n none).length = n; exact hs
  refine ⟨_, ?_, ⟨rfl, rfl⟩, i2, rfl, ?_, fun t z => ?_⟩
  · unfold Poly.from_bounds
    rw [show Poly.checkN none none = .ok () from rfl, Py.ok_bind]
    show (if lo.n ≠ hi.n then _ else _) = _
    rw [if_neg (by rw [h1, h2]; simp), show Poly.dimOf (.arr (.d1 lo)) none = .ok n by rw [← h1]; rfl, Py.ok_bind, Poly.init_empty, Py.ok_bind]
    refine runOn_ok.2 ?_
    unfold Poly.add_bounds
    have e1 : Poly.add_lower_bound (.arr (.d1 lo)) none (Poly.fresh (Mat.zeros 0 n) (Vec.zeros 0) (Mat.zeros 0 n) (Vec.zeros 0)) = _ := k1
    rw [PyM.bind_ok e1]
    have hnc := i1.1
    rw [Poly.add_upper_bound_eq, hnc]
    exact k2
  · show 0 < 0 + (Poly.sel n none).length + (Poly.sel n none).length
    omega
  · rw [rows_add i1 rfl k2, rows_add (Poly.empty_inv n) rfl k1]
    constructor
    · rintro ⟨⟨-, a⟩, b⟩ j hj
      have := a j (by show j < (Poly.selectionMatrix n none).nr; rw [hnr]; exact hj)
      rw [hneg z j hj] at this
      have h' := b j (by rw [hnr]; exact hj)
      rw [hrow z j hj] at h'
      exact ⟨by have : -z j ≤ -lo.e j + t := this; linarith, h'⟩
    · intro a
      refine ⟨⟨fun i hi => absurd hi (by show ¬ i < 0; omega), fun i hi => ?_⟩, fun i hi => ?_⟩
      · have hi' : i < n := by rw [← hnr]; exact hi
        rw [hneg z i hi']
        show - z i ≤ - lo.e i + t
        linarith [(a i hi').1]
      · have hi' : i < n := by rw [← hnr]; exact hi
        rw [hrow z i hi']
        exact (a i hi').2

theorem dom_prod {m n : ℕ} {p q : Poly} {T T'} (hp : Dom m p T) (hq : Dom n q T') :
    ∃ r, p.cartesian_product q = .ok r ∧ Clean r ∧ Dom (m + n) r fun t z => T t z ∧ T' t fun j => z (m + j) := by
  have key : ∀ p q : Poly, p.Inv m → q.Inv n → p.cartesian_product q
      = .ok (Poly.fresh (Mat.bdiag [p.A, q.A]) (p.b.append q.b) (Mat.bdiag [p.C, q.C]) (p.d.append q.d)) := by
    intro p q hp hq
    obtain ⟨p1, p2, p3, p4⟩ := hp
    obtain ⟨q1, q2, q3, q4⟩ := hq
    unfold Poly.cartesian_product
    refine Poly.init_eq_ok.2 ⟨p.b.append q.b, rfl, ?_, Or.inr ⟨_, p.d.append q.d, rfl, rfl, ?_, rfl⟩⟩
    · show p.b.n + q.b.n = p.A.nr + (q.A.nr + 0); omega
    · show p.d.n + q.d.n = p.C.nr + (q.C.nr + 0); omega
  have hC : (Mat.bdiag [p.C, q.C]).nr = 0 := by
    show p.C.nr + (q.C.nr + 0) = 0
    rw [hp.noeq, hq.noeq]
  obtain ⟨r, h1, h2, -⟩ := C14 m n p q hp.inv hq.inv
  rw [key p q hp.inv hq.inv] at h1
  cases h1
  refine ⟨_, key p q hp.inv hq.inv, ⟨rfl, rfl⟩, h2, hC, ?_, fun t z => ?_⟩
  · show 0 < p.A.nr + (q.A.nr + 0)
    have := hp.rows
    omega
  · obtain ⟨r', h1', -, h3'⟩ := C14 m n (shift t p) (shift t q) hp.inv hq.inv
    rw [key (shift t p) (shift t q) hp.inv hq.inv] at h1'
    cases h1'
    rw [← hp.shift, ← hq.shift, ← h3']
    have eb : ∀ i, (p.b.append q.b).e i + t = ((shift t p).b.append (shift t q).b).e i := by
      intro i
      show (if i < p.b.n then p.b.e i else q.b.e (i - p.b.n)) + t = if i < p.b.n then p.b.e i + t else q.b.e (i - p.b.n) + t
      split_ifs <;> rfl
    constructor
    · intro k
      exact ⟨fun i hi => (k i hi).trans (le_of_eq (eb i)), fun i hi => absurd (show i < (Mat.bdiag [p.C, q.C]).nr from hi) (by rw [hC]; omega)⟩
    · intro k i hi
      exact (k.1 i hi).trans (le_of_eq (eb i).symm)

/-- a bounded polyhedron passes the assertion -/
theorem dom_assert {L : Lib} (hL : LibSpec L) {n : ℕ} {p : Poly} {T} (hn : 0 < n) (hp : Dom n p T) (hc : Clean p)
    (hbd : ∃ R, ∀ z, T 0 z → ∀ j < n, |z j| ≤ R) : ∃ q, assertBounded L p = .ok q ∧ Dom n q T := by
  have hbd' : Spec.IsBounded n p.A p.b p.C p.d := by
    obtain ⟨R, hR⟩ := hbd
    exact ⟨R, fun z hz j hj => hR z ((hp.mem z).1 hz) j hj⟩
  have he : p.EmptyOk L := fun e h => by rw [hc.1] at h; cases h
  obtain ⟨q, hq⟩ : ∃ q, Poly.bounded L p = (.ok true, q) := by
    by_cases hne : Spec.NearPoint n p.A p.b p.C p.d
    · obtain ⟨e, b, h⟩ := bounded_true hL hp.inv he (.inl hc.2) hn hne hbd'
      exact ⟨_, h⟩
    · exact (C17 L hL n p hp.inv he hc.2).2.1 hne
  have hd : q.A = p.A ∧ q.b = p.b ∧ q.C = p.C ∧ q.d = p.d := by
    have hs := bounded_same L p
    rw [hq] at hs
    rcases hs with h1 | h1
    · exact h1.1
    · obtain ⟨a1, a2, a3, a4⟩ := empty_sameData L p
      obtain ⟨b1, b2, b3, b4⟩ := h1.1
      exact ⟨b1.trans a1, b2.trans a2, b3.trans a3, b4.trans a4⟩
  refine ⟨q, by unfold assertBounded; rw [hq], ?_, ?_, ?_, ?_⟩
  · have := hp.inv
    unfold Poly.Inv at this ⊢
    rw [hd.1, hd.2.1, hd.2.2.1, hd.2.2.2]
    exact this
  · rw [hd.2.2.1]; exact hp.noeq
  · rw [hd.1]; exact hp.rows
  · rw [hd.1, hd.2.1]; exact hp.inside

/-- `S` follows the law `F` in the steps of `h` of the explicit Euler method -/
def SysLaw (nx nu : ℕ) (S : Sys) (F : (ℕ → ℝ) → (ℕ → ℝ) → ℕ → ℝ) : Prop :=
  SysOk S ∧ S.nx = nx ∧ S.nu = nu ∧ ∀ x u : ℕ → ℝ, ∀ k < nx, Spec.affine (asAffine S).A (asAffine S).B (asAffine S).c x u k = F x u k

theorem euler_run {nx nu : ℕ} {A B : Mat ℝ} {c : Vec ℝ} (hs : SystemShape nx nu A B c) {h : ℝ} (hh : 0 ≤ h) :
    ∃ Ad Bd, explicit_euler A B (.d1 c) h = .ok (Ad, Bd, c.smul h) ∧ SystemShape nx nu Ad Bd (c.smul h) ∧
      (∀ x u : ℕ → ℝ, ∀ k < nx, Spec.affine Ad Bd (c.smul h) x u k = x k + h * Spec.affine A B c x u k) := by
  obtain ⟨h1, h2, h3, h4, h5⟩ := hs
  have hck : check_affine_system A B (some (.d1 c)) (some h) = .ok () := by
    unfold check_affine_system
    rw [if_neg (by omega), if_neg (by omega)]
    show (checkOffset A.nr (some (.d1 c)) >>= fun _ => checkStep (some h)) = _
    have e1 : checkOffset A.nr (some (.d1 c)) = .ok () := by
      show (if 1 < (NDArr.d1 c).ndim then Except.error PyErr.valueError else if A.nr ≠ c.n then Except.error PyErr.valueError else .ok ()) = _
      rw [if_neg (by show ¬ 1 < 1; omega), if_neg (by omega)]
    rw [e1, Py.ok_bind]
    exact if_neg (not_lt.2 hh)
  refine ⟨(A.smul h).add (Mat.eye A.nr), B.smul h, ?_, ⟨h1, h2, h3, h4, h5⟩, fun x u k hk => ?_⟩
  · unfold explicit_euler
    rw [hck, Py.ok_bind, show np.addM (A.smul h) (Mat.eye A.nr) = .ok _ from if_pos ⟨rfl, by show A.nc = A.nr; omega⟩, Py.ok_bind]
    rfl
  · unfold Spec.affine
    have e : ∑ j ∈ range A.nc, (h * A.e k j + (Mat.eye A.nr : Mat ℝ).e k j) * x j = x k + h * ∑ j ∈ range A.nc, A.e k j * x j := by
      rw [Finset.mul_sum, Finset.sum_congr rfl fun j _ => show _ = (Mat.eye A.nr : Mat ℝ).e k j * x j + h * (A.e k j * x j) by ring,
        Finset.sum_add_distrib, Finset.sum_eq_single k]
      · simp [Mat.eye]
      · intro j _ hj
        simp [Mat.eye, Ne.symm hj]
      · intro hn
        exact absurd (mem_range.2 (by omega)) hn
    show ∑ j ∈ range A.nc, (h * A.e k j + (Mat.eye A.nr : Mat ℝ).e k j) * x j + ∑ j ∈ range B.nc, (h * B.e k j) * u j + h * c.e k = _
    rw [e, Finset.sum_congr rfl fun j _ => mul_assoc h (B.e k j) (u j), ← Finset.mul_sum]
    ring

theorem check_ok {nx nu : ℕ} {A B : Mat ℝ} {c : Vec ℝ} (hs : SystemShape nx nu A B c) {h : ℝ} (hh : 0 ≤ h) :
    check_affine_system A B (some (.d1 c)) (some h) = .ok () ∧ check_affine_system A B none (some h) = .ok () ∧
      check_affine_system A B none none = .ok () ∧ check_affine_system A B (some (.d1 c)) none = .ok () := by
  obtain ⟨h1, h2, h3, h4, h5⟩ := hs
  have e1 : checkOffset A.nr (some (.d1 c)) = .ok () := by
    show (if 1 < (NDArr.d1 c).ndim then Except.error PyErr.valueError else if A.nr ≠ c.n then Except.error PyErr.valueError else .ok ()) = _
    rw [if_neg (by show ¬ 1 < 1; omega), if_neg (by omega)]
  have e2 : checkStep (some h) = .ok () := if_neg (not_lt.2 hh)
  refine ⟨?_, ?_, ?_, ?_⟩ <;> unfold check_affine_system <;> rw [if_neg (by omega), if_neg (by omega)]
  · rw [e1, Py.ok_bind, e2]
  · show (checkOffset A.nr none >>= fun _ => checkStep (some h)) = _
    rw [show checkOffset A.nr none = .ok () from rfl, Py.ok_bind, e2]
  · rfl
  · rw [e1, Py.ok_bind]; rfl

theorem euler_aff {nx nu : ℕ} {A B : Mat ℝ} {c : Vec ℝ} (hs : SystemShape nx nu A B c) {h : ℝ} (hh : 0 ≤ h) :
    ∃ S, AffineSystem.from_continuous A B (.d1 c) h .explicitEuler = .ok S ∧ SysLaw nx nu (.aff S) fun x u k => x k + h * Spec.affine A B c x u k := by
  obtain ⟨Ad, Bd, k1, k2, k3⟩ := euler_run hs hh
  refine ⟨⟨Ad, Bd, c.smul h, Bd.nr, Bd.nc⟩, ?_, ?_, k2.2.2.1, k2.2.2.2.1, k3⟩
  · unfold AffineSystem.from_continuous
    rw [(check_ok hs hh).1, Py.ok_bind, show discretize A B (.d1 c) h .explicitEuler = _ from k1, Py.ok_bind]
    show AffineSystem.init Ad Bd (.d1 (c.smul h)) = _
    unfold AffineSystem.init
    rw [(check_ok k2 hh).2.2.2, Py.ok_bind]
    rfl
  · show SystemShape Bd.nr Bd.nc Ad Bd (c.smul h)
    rw [k2.2.2.1, k2.2.2.2.1]
    exact k2

theorem euler_lin {nx nu : ℕ} {A B : Mat ℝ} (hs : SystemShape nx nu A B (Vec.zeros nx)) {h : ℝ} (hh : 0 ≤ h) :
    ∃ S, LinearSystem.from_continuous A B h .explicitEuler = .ok S ∧ S._controllable = none ∧
      SysLaw nx nu (.lin S) fun x u k => x k + h * Spec.affine A B (Vec.zeros nx) x u k := by
  obtain ⟨Ad, Bd, k1, k2, k3⟩ := euler_run hs hh
  have hz : Vec.smul h (Vec.zeros nx) = (Vec.zeros nx : Vec ℝ) := by
    unfold Vec.smul Vec.zeros
    simp
  rw [hz] at k1 k2 k3
  refine ⟨⟨Ad, Bd, Bd.nr, Bd.nc, none⟩, ?_, rfl, ?_, k2.2.2.1, k2.2.2.2.1, ?_⟩
  · unfold LinearSystem.from_continuous
    have e : discretize A B (.d1 (Vec.zeros A.nr)) h .explicitEuler = .ok (Ad, Bd, Vec.zeros nx) := by rw [hs.1]; exact k1
    rw [(check_ok hs hh).2.1, Py.ok_bind, e, Py.ok_bind]
    show LinearSystem.init Ad Bd = _
    unfold LinearSystem.init
    rw [(check_ok k2 hh).2.2.1, Py.ok_bind]
    rfl
  · show SystemShape Bd.nr Bd.nc Ad Bd (Vec.zeros Bd.nr)
    rw [k2.2.2.1, k2.2.2.2.1]
    exact k2
  · show ∀ x u : ℕ → ℝ, ∀ k < nx, Spec.affine Ad Bd (Vec.zeros Bd.nr) x u k = _
    rw [k2.2.2.1]
    exact k3

/-- a piecewise affine system with the domains `Ds` and the laws `F` -/
structure PwaIs (nx nu : ℕ) (Ds : List Poly) (F : ℕ → (ℕ → ℝ) → (ℕ → ℝ) → ℕ → ℝ) (S : PWA) : Prop where
  ok : PwaOk S
  law : ∀ m < Ds.length, ∀ x u : ℕ → ℝ, ∀ i < nx, Spec.affine (sysAt S m).A (sysAt S m).B (sysAt S m).c x u i = F m x u i
  nm : S.nm = Ds.length
  domains : S.domains = Ds
  nx : S.nx = nx
  nu : S.nu = nu

theorem pwa_built {nx nu : ℕ} {systems : List Sys} {Ds : List Poly} {F : ℕ → (ℕ → ℝ) → (ℕ → ℝ) → ℕ → ℝ} (hne : systems ≠ [])
    (hlen : systems.length = Ds.length) (hs : ∀ m S, systems[m]? = some S → SysLaw nx nu S (F m))
    (hD : ∀ D ∈ Ds, D.Inv (nx + nu) ∧ 0 < D.A.nr) : ∃ S, PWA.init systems Ds = .ok S ∧ PwaIs nx nu Ds F S := by
  have hs' : ∀ S ∈ systems, ∃ m, SysLaw nx nu S (F m) := by
    intro S hS
    obtain ⟨m, hm⟩ := List.mem_iff_getElem?.1 hS
    exact ⟨m, hs m S hm⟩
  obtain ⟨c1, -, c3⟩ := C58 systems Ds fun S hS => (hs' S hS).choose_spec.1
  obtain ⟨S, hS⟩ := c1.2 ⟨hne, hlen, nx, nu, fun S hS => ⟨(hs' S hS).choose_spec.2.1, (hs' S hS).choose_spec.2.2.1⟩, fun D hD' => (hD D hD').1.1⟩
  obtain ⟨d1, -, d3, d4, d5, d6, d7⟩ := c3 S hS
  obtain ⟨T0, hT0⟩ := List.exists_mem_of_ne_nil _ hne
  have hnx : S.nx = nx := by rw [← (d1 T0 hT0).1]; exact (hs' T0 hT0).choose_spec.2.1
  have hnu : S.nu = nu := by rw [← (d1 T0 hT0).2]; exact (hs' T0 hT0).choose_spec.2.2.1
  refine ⟨S, hS, ⟨by rw [d5, d4, d3], fun T hT => (d6 T hT).1, fun D hD' => ?_⟩, fun m hm x u k hk => ?_, d4, d3, hnx, hnu⟩
  · rw [hnx, hnu]
    exact hD D (by rw [d3] at hD'; exact hD')
  · have hm' : m < systems.length := by omega
    have hsm := List.getElem?_eq_getElem hm'
    obtain ⟨l1, l2, l3, l4⟩ := hs m _ hsm
    have hsys : ∀ T, S.affine_systems[m]? = some T → sysAt S m = T := fun T hT => by
      show S.affine_systems.getD m sys0 = T
      rw [List.getD_eq_getElem?_getD, hT]
      rfl
    cases hsm' : systems[m] with
    | aff T =>
      rw [hsm'] at hsm l4
      rw [hsys T ((d7 m).1 T hsm)]
      exact l4 x u k hk
    | lin T =>
      rw [hsm'] at hsm l1 l2 l3 l4
      obtain ⟨T', hT', hl⟩ := (d7 m).2 T hsm
      rw [hsys T' hT', hl x u k (by rw [hnx]; exact hk), ← l4 x u k hk]
      have hl1 : SystemShape T.nx T.nu T.A T.B (Vec.zeros T.nx) := l1
      have hl2 : T.nx = nx := l2
      have hl3 : T.nu = nu := l3
      show _ = ∑ j ∈ range T.A.nc, T.A.e k j * x j + ∑ j ∈ range T.B.nc, T.B.e k j * u j + 0
      rw [hl1.2.1, hl1.2.2.2.1, hl2, hl3, hnx, hnu, add_zero]

/-- one step of a simulation -/
theorem PwaIs.step {nx nu : ℕ} {Ds : List Poly} {F} {S : PWA} (h : PwaIs nx nu Ds F S) {x0 : Vec ℝ} (hx0 : x0.n = nx) {us : List (Vec ℝ)}
    (hus : ∀ v ∈ us, v.n = nu) {xs : List (Vec ℝ)} {ms : List ℕ} (hsim : S.simulate x0 us = .ok (xs, ms)) {t : ℕ} {x y u : Vec ℝ}
    (hx : xs[t]? = some x) (hy : xs[t + 1]? = some y) (hu : us[t]? = some u) :
    x.n = nx ∧ u.n = nu ∧ y.n = nx ∧ ∃ m, ms[t]? = some m ∧ m < Ds.length ∧ FirstMode S x u m ∧ ∀ k < nx, y.e k = F m x.e u.e k := by
  have hrun := (C59 S h.ok x0 (hx0.trans h.nx.symm) us fun v hv => (hus v hv).trans h.nu.symm).1 _ _ hsim
  have ht := hrun.traj sys0
  have hlt : t < ms.length := by
    rw [hrun.len]
    by_contra hge
    rw [List.getElem?_eq_none (not_lt.1 hge)] at hu
    cases hu
  obtain ⟨m, hm⟩ : ∃ m, ms[t]? = some m := ⟨_, List.getElem?_eq_getElem hlt⟩
  have hf := hrun.mode t x u m hx hu hm
  have hmlt : m < Ds.length := by
    obtain ⟨⟨D, hD, -⟩, -⟩ := hf
    rw [h.domains] at hD
    by_contra hge
    rw [List.getElem?_eq_none (not_lt.1 hge)] at hD
    cases hD
  refine ⟨(ht.2.2.1 x (List.mem_of_getElem? hx)).trans h.nx, hus u (List.mem_of_getElem? hu), (ht.2.2.1 y (List.mem_of_getElem? hy)).trans h.nx, m, hm, hmlt, hf,
    fun k hk => ?_⟩
  rw [← h.law m hmlt x.e u.e k hk, ht.2.2.2 t x y u hx hy hu k (by rw [h.nx]; exact hk)]
  have hg : ms.getD t 0 = m := by rw [List.getD_eq_getElem?_getD, hm]; rfl
  show Spec.affine (S.affine_systems.getD (ms.getD t 0) sys0).A (S.affine_systems.getD (ms.getD t 0) sys0).B
    (S.affine_systems.getD (ms.getD t 0) sys0).c x.e u.e k = _
  rw [hg]

/-- a step can be made exactly if state and input are in a domain -/
theorem PwaIs.runs {nx nu : ℕ} {Ds : List Poly} {F} {S : PWA} (h : PwaIs nx nu Ds F S) {x u : Vec ℝ} (hx : x.n = nx) (hu : u.n = nu) :
    ((∃ y m, S.simulate x [u] = .ok ([x, y], [m])) ↔ ∃ D ∈ Ds, InsideTol 1e-7 D (x.append u).e) ∧
      ((¬ ∃ D ∈ Ds, InsideTol 1e-7 D (x.append u).e) → S.simulate x [u] = .error .valueError) := by
  have hx' : x.n = S.nx := hx.trans h.nx.symm
  have hu' : ∀ v ∈ [u], v.n = S.nu := by simpa using hu.trans h.nu.symm
  obtain ⟨a1, a2, a3, a4, -⟩ := C59 S h.ok x hx' [u] hu'
  have key : (∃ D ∈ Ds, InsideTol 1e-7 D (x.append u).e) → ∃ y m, S.simulate x [u] = .ok ([x, y], [m]) := by
    rintro ⟨D, hD, hin⟩
    cases hs : S.simulate x [u] with
    | error e =>
      exfalso
      have he := a2 e hs
      subst he
      obtain ⟨t, xs, ms, y, v, k1, k2, k3, k4⟩ := a4 hs
      have ht : t = 0 := by
        by_contra hne
        rw [List.getElem?_eq_none (by simp; omega)] at k3
        cases k3
      subst ht
      have hv : u = v := by simpa using k3
      have hy : y = x := by
        have := (k1.traj sys0).2.1
        rw [k2] at this
        exact Option.some.inj this
      subst hv hy
      exact k4 D (by rw [h.domains]; exact hD) hin
    | ok r =>
      obtain ⟨xs, ms⟩ := r
      have hrun := a1 _ _ hs
      have hl := hrun.len
      have ht := hrun.traj sys0
      have hlx := ht.1
      match xs, ms with
      | [x', y], [m] =>
        have hx' : x' = x := by simpa using ht.2.1
        exact ⟨y, m, by rw [hx']⟩
      | _, [] => simp at hl
      | _, _ :: _ :: _ => simp at hl
      | [], [_] => simp at hlx
      | [_], [_] => simp at hlx
      | _ :: _ :: _ :: _, [_] => simp at hlx
  refine ⟨⟨?_, key⟩, ?_⟩
  · rintro ⟨y, m, hs⟩
    have hf := (a1 _ _ hs).mode 0 x u m rfl rfl rfl
    obtain ⟨⟨D, hD, hin⟩, -⟩ := hf
    rw [h.domains] at hD
    exact ⟨D, List.mem_of_getElem? hD, hin⟩
  · intro hno
    rw [a3]
    rintro ⟨xs, ms, hrun⟩
    refine hno ?_
    have hl := hrun.len
    have h0 : ∃ x', xs[0]? = some x' ∧ x' = x := ⟨x, (hrun.traj sys0).2.1, rfl⟩
    obtain ⟨x', h1, rfl⟩ := h0
    match ms with
    | [m] =>
      obtain ⟨⟨D, hD, hin⟩, -⟩ := hrun.mode 0 x' u m h1 rfl rfl
      rw [h.domains] at hD
      exact ⟨D, List.mem_of_getElem? hD, hin⟩
    | [] => simp at hl
    | _ :: _ :: _ => simp at hl

end Verif.Notebook
